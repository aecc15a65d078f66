import Verif.Runtime.VoteLife
import Verif.Engine.Lease

/-!
# Histories of a node with times, and its lease over them
-/

set_option autoImplicit false

namespace Openraft.Runtime
open Openraft.Engine
open Openraft.Repl (Panic dassert)

/-- the clock reading an event is handled with -/
def Ev.time? : Ev → Option Nat
  | .msg now _ => some now
  | .write now _ _ => some now
  | .change now _ _ _ => some now
  | .note now => some now
  | _ => none

/-- a running node: its states, the event after each of them, and the clock. A node that stops
doing anything goes on with events that change nothing. -/
structure Hist (dbg : Bool) where
  node : Nat → Node
  ev : Nat → Ev
  time : Nat → Nat
  step : ∀ k, (node k).step dbg (ev k) = .ok (node (k + 1))
  mono : ∀ k, time k ≤ time (k + 1)
  clock : ∀ k t, (ev k).time? = some t → t = time k

namespace Hist
variable {dbg : Bool}

theorem time_le (h : Hist dbg) {a b : Nat} (hab : a ≤ b) : h.time a ≤ h.time b := by
  induction b with
  | zero => rw [Nat.le_zero.1 hab]
  | succ b ih =>
    rcases Nat.lt_or_ge b a with h1 | h1
    · rw [Nat.le_antisymm hab h1]
    · exact (ih h1).trans (h.mono b)

end Hist

/-- a command changes neither vote nor role nor configuration -/
theorem still_exec {dbg : Bool} {n n1 : Node} {c : Cmd} (hx : n.exec dbg c = .ok n1) : Still n.eng n1.eng := by
  have hsub : ∀ io m, n.submit dbg io = .ok m → ∃ p, m = { n with eng := n.eng.withProg p } := by
    intro io m hm
    unfold Node.submit at hm
    simp only [out_bind, lift_ok, out_pure] at hm
    obtain ⟨p, _, rfl⟩ := hm
    exact ⟨p, rfl⟩
  cases c with
  | saveVote v =>
    simp only [Node.exec, out_bind, out_pure] at hx
    obtain ⟨m, hm, rfl⟩ := hx
    obtain ⟨p, rfl⟩ := hsub _ _ hm
    exact ⟨rfl, rfl, rfl, rfl⟩
  | updateIO w io =>
    simp only [Node.exec, out_bind, out_pure] at hx
    obtain ⟨m, hm, rfl⟩ := hx
    obtain ⟨p, rfl⟩ := hsub _ _ hm
    exact ⟨rfl, rfl, rfl, rfl⟩
  | append v es =>
    simp only [Node.exec, out_bind, out_pure] at hx
    obtain ⟨l, _, m, hm, rfl⟩ := hx
    obtain ⟨p, rfl⟩ := hsub _ _ hm
    exact ⟨rfl, rfl, rfl, rfl⟩
  | sendVote a b =>
    simp only [Node.exec, out_bind, out_pure] at hx
    obtain ⟨_, _, rfl⟩ := hx
    exact Still.refl _
  | transfer a b l =>
    simp only [Node.exec, out_bind, out_pure] at hx
    obtain ⟨_, _, rfl⟩ := hx
    exact Still.refl _
  | apply a b =>
    simp only [Node.exec, out_bind, out_pure] at hx
    obtain ⟨_, _, _, _, rfl⟩ := hx
    exact ⟨rfl, rfl, rfl, rfl⟩
  | replicate t r =>
    simp only [Node.exec] at hx
    split at hx
    · rw [out_pure] at hx; subst hx
      exact Still.refl _
    · cases hx
  | rebuild t =>
    simp only [Node.exec, Node.rebuild, out_bind] at hx
    obtain ⟨_, _, hx⟩ := hx
    split at hx
    · rw [out_pure] at hx; subst hx
      exact ⟨rfl, rfl, rfl, rfl⟩
    · cases hx
  | sm c =>
    cases c with
    | install m io =>
      simp only [Node.exec, out_bind, out_pure] at hx
      obtain ⟨m, hm, rfl⟩ := hx
      obtain ⟨p, rfl⟩ := hsub _ _ hm
      exact ⟨rfl, rfl, rfl, rfl⟩
    | _ =>
      simp only [Node.exec, out_pure] at hx
      subst hx
      exact ⟨rfl, rfl, rfl, rfl⟩
  | _ =>
    simp only [Node.exec, out_pure] at hx
    subst hx
    exact ⟨rfl, rfl, rfl, rfl⟩

/-- an event that does not void a promise -/
def PlainEv (n : Node) : Ev → Prop
  | .msg _ i => n.eng.Plain i
  | _ => True

/-- one event while a lease is in force -/
theorem under_step {dbg : Bool} {v : Vote} {t0 t : Nat} {n n' : Node} {ev : Ev} (h : Eng.Under v t0 n.eng) (ht : t0 ≤ t)
    (hn : t ≤ t0 + n.eng.cfg.leaderLease) (hc : ∀ x, ev.time? = some x → x = t) (hp : PlainEv n ev) (hs : n.step dbg ev = .ok n') :
    Eng.Under v t0 n'.eng ∧ n'.eng.cfg = n.eng.cfg := by
  have key : ∀ {i : Input} {e' : Eng}, n.eng.Plain i → n.eng.input dbg t i = .ok e' → Eng.Under v t0 e' ∧ e'.cfg = n.eng.cfg :=
    fun hpi hr => h.input ht hn hpi hr
  cases ev with
  | msg now i =>
    cases hc now rfl
    simp only [Node.step] at hs
    split at hs
    · simp only [out_bind, lift_ok, out_pure] at hs
      obtain ⟨e, he, rfl⟩ := hs
      exact key hp he
    · rw [out_pure] at hs; subst hs; exact ⟨h, rfl⟩
  | write now tx p =>
    simp only [Node.step] at hs
    split at hs
    · simp only [out_bind, lift_ok, out_pure] at hs
      obtain ⟨⟨o, e⟩, he, rfl⟩ := hs
      have k := key (i := .write p) (e' := e) trivial (by simp only [Eng.input]; rw [he]; rfl)
      cases o <;> exact k
    · rw [out_pure] at hs; subst hs; exact ⟨h, rfl⟩
  | change now tx c r =>
    simp only [Node.step] at hs
    split at hs
    · simp only [out_bind, lift_ok, out_pure] at hs
      obtain ⟨⟨o, e⟩, he, rfl⟩ := hs
      have k := key (i := .change c r) (e' := e) trivial (by simp only [Eng.input]; rw [he]; rfl)
      cases o <;> exact k
    · rw [out_pure] at hs; subst hs; exact ⟨h, rfl⟩
  | note now =>
    cases hc now rfl
    simp only [Node.step] at hs
    split at hs
    · split at hs
      · rw [out_pure] at hs; subst hs; exact ⟨h, rfl⟩
      · next x xs hx =>
        clear hx
        cases x <;> simp only [Node.handle, out_bind, lift_ok, out_pure] at hs <;> obtain ⟨e, he, rfl⟩ := hs
        case applied last es =>
          rw [(VInv.answer_same es _).1]
          exact key (i := .applied last) trivial he
        case selfVote w => exact key (i := .voteResp n.eng.cfg.id w none true w) trivial he
        case localIO io => exact key (i := .localIO io) trivial he
        case built m => exact key (i := .built m) trivial he
        case installed io m => exact key (i := .installed io m) trivial he
    · rw [out_pure] at hs; subst hs; exact ⟨h, rfl⟩
  | run =>
    simp only [Node.step, Node.run1] at hs
    split at hs
    · rw [out_pure] at hs; subst hs; exact ⟨h, rfl⟩
    · split at hs
      · rw [out_bind] at hs
        obtain ⟨n1, hx, hs⟩ := hs
        rw [out_pure] at hs; subst hs
        have s := still_exec hx
        exact ⟨h.still s, s.cfg⟩
      · rw [out_pure] at hs; subst hs; exact ⟨h, rfl⟩
  | flush =>
    simp only [Node.step, out_pure] at hs
    subst hs
    unfold Node.flush1
    split <;> exact ⟨h, rfl⟩
  | sm =>
    simp only [Node.step] at hs
    unfold Node.smStep at hs
    split at hs
    · rw [out_pure] at hs; subst hs; exact ⟨h, rfl⟩
    · dsimp only at hs
      split at hs
      · rw [out_pure] at hs; subst hs; exact ⟨h, rfl⟩
      · cases hs
    · rw [out_pure] at hs; subst hs; exact ⟨h, rfl⟩
    · rw [out_pure] at hs; subst hs; exact ⟨h, rfl⟩
  | build k =>
    simp only [Node.step, out_pure] at hs
    subst hs
    unfold Node.buildDone
    split <;> exact ⟨h, rfl⟩

/-- the vote in memory never goes back -/
theorem Hist.vote_le {dbg : Bool} (h : Hist dbg) {a b : Nat} (hab : a ≤ b) :
    (h.node a).eng.st.vote.data ≤ (h.node b).eng.st.vote.data := by
  induction b with
  | zero => rw [Nat.le_zero.1 hab]
  | succ b ih =>
    rcases Nat.lt_or_ge b a with h1 | h1
    · rw [Nat.le_antisymm hab h1]
    · exact (ih h1).trans (VInv.mem_step (h.step b))

/-- the node accepts the leader of `v` in its `k`-th event: a request of that leader is handled when the
node's vote is not greater, and its lease has not been switched off by a transfer of leadership -/
structure Hist.Accepts {dbg : Bool} (h : Hist dbg) (k : Nat) (v : Vote) : Prop where
  msg : (∃ tx prev es lc, h.ev k = .msg (h.time k) (.appendReq tx v prev es lc)) ∨ ∃ tx m, h.ev k = .msg (h.time k) (.snapReq tx v m)
  idle : (h.node k).idle = true
  le : (h.node k).eng.st.vote.data ≤ v
  com : v.committed = true
  other : v.leaderId.node ≠ (h.node k).eng.cfg.id
  on : (h.node k).eng.st.vote.data < v ∨ (h.node k).eng.st.vote.enabled = true

theorem updateVote_true {dbg : Bool} {now : Nat} {e e1 : Eng} {w : Vote} {b : Bool} (hle : e.st.vote.data ≤ w)
    (h : e.updateVote dbg now w = .ok (b, e1)) : b = true := by
  unfold Eng.updateVote at h
  rw [if_pos hle] at h
  simp only [bind_ok, pure_ok] at h
  obtain ⟨_, _, _, _, h⟩ := h
  cases h; rfl

theorem Hist.Accepts.under {dbg : Bool} {h : Hist dbg} {k : Nat} {v : Vote} (a : h.Accepts k v) :
    Eng.Under v (h.time k) (h.node (k + 1)).eng ∧ (h.node (k + 1)).eng.cfg = (h.node k).eng.cfg := by
  have hs := h.step k
  have hu : ∀ b e1, (h.node k).eng.updateVote dbg (h.time k) v = .ok (b, e1) →
      Eng.Under v (h.time k) e1 ∧ e1.cfg = (h.node k).eng.cfg := by
    intro b e1 h1
    cases updateVote_true a.le h1
    exact Eng.under_updateVote a.com a.other (le_refl v) (le_refl _) a.on h1
  rcases a.msg with ⟨tx, prev, es, lc, hm⟩ | ⟨tx, m, hm⟩ <;> rw [hm] at hs <;>
    simp only [Node.step, a.idle, external, Bool.and_self, if_true, out_bind, lift_ok, out_pure] at hs <;>
    obtain ⟨e, he, hs⟩ := hs <;> rw [← hs]
  · exact Eng.under_handleAppend hu he
  · exact Eng.under_handleInstall hu he

/-- over a stretch of a history -/
theorem Hist.under {dbg : Bool} {h : Hist dbg} {k : Nat} {v : Vote} (a : h.Accepts k v) {j : Nat} (hkj : k < j)
    (hp : ∀ i, k < i → i < j → PlainEv (h.node i) (h.ev i))
    (ht : ∀ i, k < i → i < j → h.time i ≤ h.time k + (h.node k).eng.cfg.leaderLease) :
    Eng.Under v (h.time k) (h.node j).eng ∧ (h.node j).eng.cfg = (h.node k).eng.cfg := by
  induction j with
  | zero => omega
  | succ j ih =>
    rcases Nat.lt_or_ge k j with h1 | h1
    · obtain ⟨u, hc⟩ := ih h1 (fun i a b => hp i a (by omega)) fun i a b => ht i a (by omega)
      obtain ⟨r1, r2⟩ := under_step u (h.time_le (by omega)) (by rw [hc]; exact ht j h1 (by omega)) (fun x hx => h.clock j x hx)
        (hp j h1 (by omega)) (h.step j)
      exact ⟨r1, r2.trans hc⟩
    · obtain rfl : j = k := by omega
      exact a.under

end Openraft.Runtime
