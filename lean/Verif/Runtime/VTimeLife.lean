import Verif.Engine.VTime
import Verif.Runtime.Timed
import Verif.Runtime.Restart

/-!
# The time of the vote over the life of a node
-/

set_option autoImplicit false

namespace Openraft.Runtime
open Openraft Openraft.Engine

/-- one event keeps the time at which the vote was last touched, or sets it to the present -/
theorem vtime_step {dbg : Bool} {t : Nat} {n n' : Node} {ev : Ev} (hc : ∀ x, ev.time? = some x → x = t) (hs : n.step dbg ev = .ok n') :
    VTime t n.eng n'.eng := by
  have key : ∀ {i : Input} {e' : Eng}, n.eng.input dbg t i = .ok e' → VTime t n.eng e' := fun {i e'} hr => Eng.vtime_input _ i e' hr
  have h : VTime t n.eng n.eng := VTime.refl _
  cases ev with
  | msg now i =>
    cases hc now rfl
    simp only [Node.step] at hs
    split at hs
    · simp only [out_bind, lift_ok, out_pure] at hs
      obtain ⟨e, he, rfl⟩ := hs
      exact key he
    · rw [out_pure] at hs; subst hs; exact h
  | write now tx p =>
    simp only [Node.step] at hs
    split at hs
    · simp only [out_bind, lift_ok, out_pure] at hs
      obtain ⟨⟨o, e⟩, he, rfl⟩ := hs
      have k := key (i := .write p) (e' := e) (by simp only [Eng.input]; rw [he]; rfl)
      cases o <;> exact k
    · rw [out_pure] at hs; subst hs; exact h
  | change now tx c r =>
    simp only [Node.step] at hs
    split at hs
    · simp only [out_bind, lift_ok, out_pure] at hs
      obtain ⟨⟨o, e⟩, he, rfl⟩ := hs
      have k := key (i := .change c r) (e' := e) (by simp only [Eng.input]; rw [he]; rfl)
      cases o <;> exact k
    · rw [out_pure] at hs; subst hs; exact h
  | note now =>
    cases hc now rfl
    simp only [Node.step] at hs
    split at hs
    · split at hs
      · rw [out_pure] at hs; subst hs; exact h
      · next x xs hx =>
        clear hx
        cases x <;> simp only [Node.handle, out_bind, lift_ok, out_pure] at hs <;> obtain ⟨e, he, rfl⟩ := hs
        case applied last es =>
          rw [(VInv.answer_same es _).1]
          exact key (i := .applied last) he
        case selfVote w => exact key (i := .voteResp n.eng.cfg.id w none true w) he
        case localIO io => exact key (i := .localIO io) he
        case built m => exact key (i := .built m) he
        case installed io m => exact key (i := .installed io m) he
    · rw [out_pure] at hs; subst hs; exact h
  | run =>
    simp only [Node.step, Node.run1] at hs
    split at hs
    · rw [out_pure] at hs; subst hs; exact h
    · split at hs
      · rw [out_bind] at hs
        obtain ⟨n1, hx, hs⟩ := hs
        rw [out_pure] at hs; subst hs
        exact Or.inl (congrArg Leased.lastUpdate (still_exec hx).vote)
      · rw [out_pure] at hs; subst hs; exact h
  | flush =>
    simp only [Node.step, out_pure] at hs
    subst hs
    unfold Node.flush1
    split <;> exact h
  | sm =>
    simp only [Node.step] at hs
    unfold Node.smStep at hs
    split at hs
    · rw [out_pure] at hs; subst hs; exact h
    · dsimp only at hs
      split at hs
      · rw [out_pure] at hs; subst hs; exact h
      · cases hs
    · rw [out_pure] at hs; subst hs; exact h
    · rw [out_pure] at hs; subst hs; exact h
  | build k =>
    simp only [Node.step, out_pure] at hs
    subst hs
    unfold Node.buildDone
    split <;> exact h

/-- once the vote is touched, the time of the vote never goes back -/
theorem Hist.touched_from {dbg : Bool} (h : Hist dbg) {i j t : Nat} (hij : i ≤ j) (ht : t ≤ h.time i)
    (hl : (h.node i).eng.st.vote.lastUpdate = some t) : ∃ u, t ≤ u ∧ (h.node j).eng.st.vote.lastUpdate = some u := by
  induction j with
  | zero => rw [Nat.le_zero.1 hij] at hl; exact ⟨t, le_refl _, hl⟩
  | succ j ih =>
    rcases Nat.lt_or_ge j i with h1 | h1
    · rw [Nat.le_antisymm hij h1] at hl; exact ⟨t, le_refl _, hl⟩
    · obtain ⟨u, hu, hj⟩ := ih h1
      rcases vtime_step (t := h.time j) (fun x hx => h.clock j x hx) (h.step j) with k | k
      · exact ⟨u, hu, k.trans hj⟩
      · exact ⟨_, ht.trans (h.time_le h1), k⟩

theorem Hist.touched {dbg : Bool} (h : Hist dbg) {i j : Nat} (hij : i < j)
    (ht : (h.node (i + 1)).eng.st.vote.lastUpdate = some (h.time i)) :
    ∃ u, h.time i ≤ u ∧ (h.node j).eng.st.vote.lastUpdate = some u :=
  h.touched_from hij (h.mono i) ht

/-- a node that starts has its timer started -/
theorem touch_restart {dbg : Bool} {now : Nat} {cfg : Cfg} {d : Disk} {s : Sm} {n : Node} (h : restart dbg now cfg d s = .ok n) :
    n.eng.st.vote.lastUpdate = some now := by
  unfold restart at h
  rw [out_bind] at h
  obtain ⟨⟨st, store, s1⟩, h1, h⟩ := h
  dsimp only at h
  simp only [out_bind, lift_ok, out_pure] at h
  obtain ⟨e, he, rfl⟩ := h
  have hv : st.vote.lastUpdate = some now := by
    unfold initialState at h1
    dsimp only at h1
    simp only [out_bind, out_pure] at h1
    obtain ⟨_, _, _, _, _, _, h1⟩ := h1
    cases h1
    rfl
  exact Eng.vtime_now (Eng.vtime_startup _ _ he) hv

end Openraft.Runtime
