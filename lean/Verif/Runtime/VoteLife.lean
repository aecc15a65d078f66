import Verif.Runtime.Life

/-!
# The vote of a node over its whole life, with no assumption on the messages or on what a crash loses
-/

set_option autoImplicit false

namespace Openraft.Runtime
open Openraft.Engine

/-- The life of a node: it starts with nothing or with anything stored, takes any steps with any messages, and when it crashes it starts again
from any log, any committed position and any state machine; only the stored vote is the one it had. `old`: the answers it
sent before its last crash. -/
inductive AnyLife (dbg : Bool) : List Resp → Node → Prop
  | fresh (cfg : Cfg) (now : Nat) (persist : Bool) : AnyLife dbg [] (Node.fresh cfg now persist)
  | start {n : Node} (now : Nat) (cfg : Cfg) (d : Disk) (s : Sm) : restart dbg now cfg d s = .ok n → AnyLife dbg [] n
  | step {old : List Resp} {n n' : Node} (ev : Ev) : AnyLife dbg old n → n.step dbg ev = .ok n' → AnyLife dbg old n'
  | crash {old : List Resp} {n n' : Node} (now : Nat) (cfg : Cfg) (d : Disk) (s : Sm) : AnyLife dbg old n → d.vote = n.disk.vote →
      restart dbg now cfg d s = .ok n' → AnyLife dbg (old ++ n.sent.map (·.2.2)) n'

/-- the lives of the other theorems are such lives -/
theorem Life.any {dbg : Bool} {cfg : Cfg} {old : List Resp} {n : Node} (h : Life dbg cfg old n) : AnyLife dbg old n := by
  induction h with
  | fresh now persist => exact .fresh cfg now persist
  | step ev _ _ hs ih => exact .step ev ih hs
  | crash k now _ _ hr ih => exact .crash now cfg _ _ ih (write_vote _ _) hr

/-- the commands not yet executed lead from the stored vote to the vote in memory -/
structure VInv (n : Node) : Prop where
  done : n.done ≤ n.eng.out.length
  flow : VFlow n.disk.vote (n.eng.out.drop n.done) n.eng.st.vote.data

namespace VInv
variable {n n' : Node} {dbg : Bool}

/-- the engine handles something -/
theorem input {e : Eng} (h : VInv n) (hf : VF n.eng e) (m : Node) (h1 : m.eng = e) (h2 : m.done = n.done) (h3 : m.disk = n.disk) : VInv m := by
  obtain ⟨cs, hc, hv⟩ := hf
  have hd := h.done
  refine ⟨?_, ?_⟩
  · rw [h1, h2, hc, List.length_append]; omega
  · rw [h1, h2, h3, hc, List.drop_append_of_le_length h.done]
    exact h.flow.append hv

/-- nothing that matters changes -/
theorem same (h : VInv n) (m : Node) (h1 : m.eng.out = n.eng.out) (h2 : m.done = n.done) (h3 : m.disk.vote = n.disk.vote)
    (h4 : m.eng.st.vote.data = n.eng.st.vote.data) : VInv m := by
  refine ⟨by rw [h1, h2]; exact h.done, ?_⟩
  rw [h1, h2, h3, h4]; exact h.flow

theorem answer_same (es : List Ent) (m : Node) : (m.answer es).eng = m.eng ∧ (m.answer es).done = m.done ∧ (m.answer es).disk = m.disk := by
  induction es generalizing m with
  | nil => exact ⟨rfl, rfl, rfl⟩
  | cons e es ih =>
    unfold Node.answer
    dsimp only
    split
    · exact ih _
    · exact ih _

/-- a command is executed -/
theorem exec {c : Cmd} {n1 : Node} (hx : n.exec dbg c = .ok n1) : n1.eng.out = n.eng.out ∧ n1.done = n.done ∧
    n1.eng.st.vote.data = n.eng.st.vote.data ∧
    ((∃ v, c = .saveVote v ∧ n1.disk.vote = v) ∨ ((∀ v, c ≠ .saveVote v) ∧ n1.disk.vote = n.disk.vote)) := by
  have hsub : ∀ io m, n.submit dbg io = .ok m → ∃ p, m = { n with eng := n.eng.withProg p } := by
    intro io m hm
    unfold Node.submit at hm
    simp only [out_bind, lift_ok, out_pure] at hm
    obtain ⟨p, _, rfl⟩ := hm
    exact ⟨p, rfl⟩
  cases c with
  | saveVote v =>
    simp only [Node.exec, out_bind, out_pure] at hx
    obtain ⟨m, hm, rfl⟩ := hx
    obtain ⟨p, rfl⟩ := hsub _ _ hm
    exact ⟨rfl, rfl, rfl, Or.inl ⟨v, rfl, rfl⟩⟩
  | updateIO w io =>
    simp only [Node.exec, out_bind, out_pure] at hx
    obtain ⟨m, hm, rfl⟩ := hx
    obtain ⟨p, rfl⟩ := hsub _ _ hm
    exact ⟨rfl, rfl, rfl, Or.inr ⟨fun _ h => (by cases h), rfl⟩⟩
  | append v es =>
    simp only [Node.exec, out_bind, out_pure] at hx
    obtain ⟨l, _, m, hm, rfl⟩ := hx
    obtain ⟨p, rfl⟩ := hsub _ _ hm
    exact ⟨rfl, rfl, rfl, Or.inr ⟨fun _ h => (by cases h), rfl⟩⟩
  | purge u =>
    simp only [Node.exec, out_pure] at hx
    subst hx
    exact ⟨rfl, rfl, rfl, Or.inr ⟨fun _ h => (by cases h), rfl⟩⟩
  | truncate u =>
    simp only [Node.exec, out_pure] at hx
    subst hx
    exact ⟨rfl, rfl, rfl, Or.inr ⟨fun _ h => (by cases h), rfl⟩⟩
  | saveCommitted u =>
    simp only [Node.exec, out_pure] at hx
    subst hx
    exact ⟨rfl, rfl, rfl, Or.inr ⟨fun _ h => (by cases h), rfl⟩⟩
  | sendVote a b =>
    simp only [Node.exec, out_bind, out_pure] at hx
    obtain ⟨_, _, rfl⟩ := hx
    exact ⟨rfl, rfl, rfl, Or.inr ⟨fun _ h => (by cases h), rfl⟩⟩
  | transfer a b l =>
    simp only [Node.exec, out_bind, out_pure] at hx
    obtain ⟨_, _, rfl⟩ := hx
    exact ⟨rfl, rfl, rfl, Or.inr ⟨fun _ h => (by cases h), rfl⟩⟩
  | replCommitted a =>
    simp only [Node.exec, out_pure] at hx
    subst hx
    exact ⟨rfl, rfl, rfl, Or.inr ⟨fun _ h => (by cases h), rfl⟩⟩
  | heartbeat a b l =>
    simp only [Node.exec, out_pure] at hx
    subst hx
    exact ⟨rfl, rfl, rfl, Or.inr ⟨fun _ h => (by cases h), rfl⟩⟩
  | apply a b =>
    simp only [Node.exec, out_bind, out_pure] at hx
    obtain ⟨_, _, _, _, rfl⟩ := hx
    exact ⟨rfl, rfl, rfl, Or.inr ⟨fun _ h => (by cases h), rfl⟩⟩
  | replicate t r =>
    simp only [Node.exec] at hx
    split at hx
    · rw [out_pure] at hx; subst hx
      exact ⟨rfl, rfl, rfl, Or.inr ⟨fun _ h => (by cases h), rfl⟩⟩
    · cases hx
  | rebuild t =>
    simp only [Node.exec, Node.rebuild, out_bind] at hx
    obtain ⟨_, _, hx⟩ := hx
    split at hx
    · rw [out_pure] at hx; subst hx
      exact ⟨rfl, rfl, rfl, Or.inr ⟨fun _ h => (by cases h), rfl⟩⟩
    · cases hx
  | sm c =>
    cases c with
    | install m io =>
      simp only [Node.exec, out_bind, out_pure] at hx
      obtain ⟨m, hm, rfl⟩ := hx
      obtain ⟨p, rfl⟩ := hsub _ _ hm
      exact ⟨rfl, rfl, rfl, Or.inr ⟨fun _ h => (by cases h), rfl⟩⟩
    | build =>
      simp only [Node.exec, out_pure] at hx
      subst hx
      exact ⟨rfl, rfl, rfl, Or.inr ⟨fun _ h => (by cases h), rfl⟩⟩
    | apply a b =>
      simp only [Node.exec, out_pure] at hx
      subst hx
      exact ⟨rfl, rfl, rfl, Or.inr ⟨fun _ h => (by cases h), rfl⟩⟩
  | respond w tx r =>
    simp only [Node.exec, out_pure] at hx
    subst hx
    exact ⟨rfl, rfl, rfl, Or.inr ⟨fun _ h => (by cases h), rfl⟩⟩

theorem run1 (h : VInv n) (hr : n.run1 dbg = .ok n') : VInv n' ∧ n.disk.vote ≤ n'.disk.vote := by
  unfold Node.run1 at hr
  split at hr
  · rw [out_pure] at hr; subst hr; exact ⟨h, le_refl _⟩
  · next c hc =>
    split at hr
    · rw [out_bind] at hr
      obtain ⟨n1, hx, hr⟩ := hr
      rw [out_pure] at hr; subst hr
      obtain ⟨h1, h2, h3, h4⟩ := exec hx
      obtain ⟨hlt, hg⟩ := List.getElem?_eq_some_iff.1 hc
      have hf := h.flow
      rw [List.drop_eq_getElem_cons hlt, hg] at hf
      have hd : n.done + 1 ≤ n.eng.out.length := hlt
      rcases h4 with ⟨v, rfl, h5⟩ | ⟨h5, h6⟩
      · refine ⟨⟨by simp only; rw [h1, h2]; exact hd, ?_⟩, ?_⟩
        · simp only
          rw [h1, h2, h3, h5]; exact hf.2
        · simp only
          rw [h5]; exact le_of_lt hf.1
      · refine ⟨⟨by simp only; rw [h1, h2]; exact hd, ?_⟩, ?_⟩
        · simp only
          rw [h1, h2, h3, h6]
          cases c with
          | saveVote v => exact absurd rfl (h5 v)
          | respond _ _ r => exact hf.2
          | _ => exact hf
        · simp only
          rw [h6]
    · rw [out_pure] at hr; subst hr; exact ⟨h, le_refl _⟩

theorem step {ev : Ev} (h : VInv n) (hs : n.step dbg ev = .ok n') : VInv n' ∧ n.disk.vote ≤ n'.disk.vote := by
  cases ev with
  | msg now i =>
    simp only [Node.step] at hs
    split at hs
    · simp only [out_bind, lift_ok, out_pure] at hs
      obtain ⟨e, he, rfl⟩ := hs
      exact ⟨h.input (Eng.vf_input _ _ _ he) _ rfl rfl rfl, le_refl _⟩
    · rw [out_pure] at hs; subst hs; exact ⟨h, le_refl _⟩
  | write now tx p =>
    simp only [Node.step] at hs
    split at hs
    · simp only [out_bind, lift_ok, out_pure] at hs
      obtain ⟨⟨o, e⟩, he, rfl⟩ := hs
      have hf := Eng.vf_writeEntry _ _ _ he
      cases o
      · exact ⟨h.input hf _ rfl rfl rfl, le_refl _⟩
      · exact ⟨h.input hf _ rfl rfl rfl, le_refl _⟩
    · rw [out_pure] at hs; subst hs; exact ⟨h, le_refl _⟩
  | change now tx c r =>
    simp only [Node.step] at hs
    split at hs
    · simp only [out_bind, lift_ok, out_pure] at hs
      obtain ⟨⟨o, e⟩, he, rfl⟩ := hs
      have hf := Eng.vf_changeMembership _ _ _ _ he
      cases o
      · exact ⟨h.input hf _ rfl rfl rfl, le_refl _⟩
      · exact ⟨h.input hf _ rfl rfl rfl, le_refl _⟩
    · rw [out_pure] at hs; subst hs; exact ⟨h, le_refl _⟩
  | note now =>
    simp only [Node.step] at hs
    split at hs
    · split at hs
      · rw [out_pure] at hs; subst hs; exact ⟨h, le_refl _⟩
      · next x xs _ =>
        cases x with
        | applied last es =>
          simp only [Node.handle, out_bind, lift_ok, out_pure] at hs
          obtain ⟨e, he, rfl⟩ := hs
          obtain ⟨k1, k2, k3⟩ := answer_same es { n with rx := xs, eng := e }
          exact ⟨h.input (Eng.vf_input _ _ _ he) _ k1 k2 k3, by rw [k3]⟩
        | _ =>
          simp only [Node.handle, out_bind, lift_ok, out_pure] at hs
          obtain ⟨e, he, rfl⟩ := hs
          exact ⟨h.input (Eng.vf_input _ _ _ he) _ rfl rfl rfl, le_refl _⟩
    · rw [out_pure] at hs; subst hs; exact ⟨h, le_refl _⟩
  | run => exact h.run1 hs
  | flush =>
    simp only [Node.step, out_pure] at hs
    subst hs
    unfold Node.flush1
    split
    · exact ⟨h, le_refl _⟩
    · next op ops _ =>
      have : (n.disk.write op).vote = n.disk.vote := by cases op <;> rfl
      exact ⟨h.same _ rfl rfl this rfl, le_of_eq this.symm⟩
  | sm =>
    simp only [Node.step, Node.smStep] at hs
    split at hs
    · rw [out_pure] at hs; subst hs; exact ⟨h, le_refl _⟩
    · split at hs
      · rw [out_pure] at hs; subst hs; exact ⟨h.same _ rfl rfl rfl rfl, le_refl _⟩
      · cases hs
    · rw [out_pure] at hs; subst hs; exact ⟨h.same _ rfl rfl rfl rfl, le_refl _⟩
    · rw [out_pure] at hs; subst hs; exact ⟨h.same _ rfl rfl rfl rfl, le_refl _⟩
  | build k =>
    simp only [Node.step, out_pure] at hs
    subst hs
    unfold Node.buildDone
    split
    · exact ⟨h, le_refl _⟩
    · exact ⟨h.same _ rfl rfl rfl rfl, le_refl _⟩

/-- the vote in memory never goes back in a step -/
theorem mem_step {ev : Ev} (hs : n.step dbg ev = .ok n') : n.eng.st.vote.data ≤ n'.eng.st.vote.data := by
  have hf : ∀ {e e' : Eng}, VF e e' → e.st.vote.data ≤ e'.st.vote.data := fun h => by
    obtain ⟨_, _, h2⟩ := h
    exact h2.le
  cases ev with
  | msg now i =>
    simp only [Node.step] at hs
    split at hs
    · simp only [out_bind, lift_ok, out_pure] at hs
      obtain ⟨e, he, rfl⟩ := hs
      exact hf (Eng.vf_input _ _ _ he)
    · rw [out_pure] at hs; subst hs; exact le_refl _
  | write now tx p =>
    simp only [Node.step] at hs
    split at hs
    · simp only [out_bind, lift_ok, out_pure] at hs
      obtain ⟨⟨o, e⟩, he, rfl⟩ := hs
      have hf := hf (Eng.vf_writeEntry _ _ _ he)
      cases o <;> exact hf
    · rw [out_pure] at hs; subst hs; exact le_refl _
  | change now tx c r =>
    simp only [Node.step] at hs
    split at hs
    · simp only [out_bind, lift_ok, out_pure] at hs
      obtain ⟨⟨o, e⟩, he, rfl⟩ := hs
      have hf := hf (Eng.vf_changeMembership _ _ _ _ he)
      cases o <;> exact hf
    · rw [out_pure] at hs; subst hs; exact le_refl _
  | note now =>
    simp only [Node.step] at hs
    split at hs
    · split at hs
      · rw [out_pure] at hs; subst hs; exact le_refl _
      · next x xs _ =>
        cases x with
        | applied last es =>
          simp only [Node.handle, out_bind, lift_ok, out_pure] at hs
          obtain ⟨e, he, rfl⟩ := hs
          rw [(answer_same es { n with rx := xs, eng := e }).1]
          exact hf (Eng.vf_input _ _ _ he)
        | _ =>
          simp only [Node.handle, out_bind, lift_ok, out_pure] at hs
          obtain ⟨e, he, rfl⟩ := hs
          exact hf (Eng.vf_input _ _ _ he)
    · rw [out_pure] at hs; subst hs; exact le_refl _
  | run =>
    simp only [Node.step, Node.run1] at hs
    split at hs
    · rw [out_pure] at hs; subst hs; exact le_refl _
    · split at hs
      · rw [out_bind] at hs
        obtain ⟨n1, hx, hs⟩ := hs
        rw [out_pure] at hs; subst hs
        exact le_of_eq (exec hx).2.2.1.symm
      · rw [out_pure] at hs; subst hs; exact le_refl _
  | flush =>
    simp only [Node.step, out_pure] at hs
    subst hs
    unfold Node.flush1
    split <;> exact le_refl _
  | sm =>
    simp only [Node.step, Node.smStep] at hs
    split at hs
    · rw [out_pure] at hs; subst hs; exact le_refl _
    · split at hs
      · rw [out_pure] at hs; subst hs; exact le_refl _
      · cases hs
    · rw [out_pure] at hs; subst hs; exact le_refl _
    · rw [out_pure] at hs; subst hs; exact le_refl _
  | build k =>
    simp only [Node.step, out_pure] at hs
    subst hs
    unfold Node.buildDone
    split <;> exact le_refl _

/-- an answer carries the stored vote -/
theorem sent (h : VInv n) {w : Option Cond} {tx : Nat} {r : Resp} {v : Vote} (hc : n.head = some (.respond w tx r)) (hv : voteOf r = some v) :
    n.disk.vote = v := by
  obtain ⟨hlt, hg⟩ := List.getElem?_eq_some_iff.1 hc
  have hf := h.flow
  rw [List.drop_eq_getElem_cons hlt, hg] at hf
  exact (hf.1 v hv).symm

theorem restart {now : Nat} {cfg : Cfg} {d : Disk} {s : Sm} (hr : Runtime.restart dbg now cfg d s = .ok n) :
    VInv n ∧ n.disk.vote = d.vote ∧ n.sent = [] := by
  unfold Runtime.restart at hr
  rw [out_bind] at hr
  obtain ⟨⟨st, store, s1⟩, hi, hr⟩ := hr
  simp only [out_bind, lift_ok, out_pure] at hr
  obtain ⟨e, he, rfl⟩ := hr
  have hv : st.vote.data = d.vote := by
    unfold initialState at hi
    simp only [out_bind] at hi
    obtain ⟨_, _, _, _, _, _, hi⟩ := hi
    rw [out_pure] at hi; cases hi; rfl
  obtain ⟨cs, h1, h2⟩ := Eng.vf_startup _ _ he
  refine ⟨⟨Nat.zero_le _, ?_⟩, rfl, rfl⟩
  have h1' : e.out = cs := h1
  have h2' : VFlow st.vote.data cs e.st.vote.data := h2
  rw [hv, ← h1'] at h2'
  exact h2'

end VInv

/-- the invariant of a life -/
theorem AnyLife.inv {dbg : Bool} {old : List Resp} {n : Node} (h : AnyLife dbg old n) : VInv n ∧
    ((old ++ n.sent.map (·.2.2)).filterMap voteOf).Pairwise (· ≤ ·) ∧
    ∀ v ∈ (old ++ n.sent.map (·.2.2)).filterMap voteOf, v ≤ n.disk.vote := by
  induction h with
  | fresh cfg now persist => exact ⟨⟨Nat.zero_le _, rfl⟩, List.Pairwise.nil, fun v hv => by cases hv⟩
  | start now cfg d s hr =>
    obtain ⟨h1, _, h3⟩ := VInv.restart hr
    refine ⟨h1, ?_⟩
    rw [h3]
    exact ⟨List.Pairwise.nil, fun v hv => by cases hv⟩
  | @step old n n' ev _ hs ih =>
    obtain ⟨hi, h1, h2⟩ := ih
    obtain ⟨hi', hv⟩ := hi.step hs
    refine ⟨hi', ?_⟩
    rcases RInv.sent_step hs with h3 | ⟨w, tx, r, _, hc, _, h3⟩
    · rw [h3]
      exact ⟨h1, fun v hv' => le_trans (h2 v hv') hv⟩
    · have hs' : n'.sent = n.sent ++ [(n.done, tx, r)] := by rw [h3]
      rw [hs', List.map_append, ← List.append_assoc, List.filterMap_append]
      cases hvo : voteOf r with
      | none =>
        have h0 : ([(n.done, tx, r)].map (·.2.2)).filterMap voteOf = [] := by simp [hvo]
        rw [h0, List.append_nil]
        exact ⟨h1, fun v hv' => le_trans (h2 v hv') hv⟩
      | some v =>
        have h0 : ([(n.done, tx, r)].map (·.2.2)).filterMap voteOf = [v] := by simp [hvo]
        have hd := hi.sent hc hvo
        rw [h0]
        refine ⟨List.pairwise_append.2 ⟨h1, List.pairwise_singleton _ _, fun a ha b hb => ?_⟩, fun x hx => ?_⟩
        · cases List.mem_singleton.1 hb
          rw [← hd]; exact h2 a ha
        · rcases List.mem_append.1 hx with hx | hx
          · exact le_trans (h2 x hx) hv
          · cases List.mem_singleton.1 hx
            rw [← hd]; exact hv
  | @crash old n n' now cfg d s _ hd hr ih =>
    obtain ⟨hi, h1, h2⟩ := ih
    obtain ⟨k1, k2, k3⟩ := VInv.restart hr
    refine ⟨k1, ?_⟩
    rw [k3, List.map_nil, List.append_nil]
    exact ⟨h1, fun v hv => by rw [k2, hd]; exact h2 v hv⟩

end Openraft.Runtime
