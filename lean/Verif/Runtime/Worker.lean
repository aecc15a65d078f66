import Verif.Runtime.Clients
import Verif.Runtime.Safe

/-!
# The state machine worker finds the entries it is told to apply

Between the time an `Apply` command is executed and the time the worker reads the entries from the log,
later commands may truncate or purge the log. They never take away what the worker still needs.
-/

set_option autoImplicit false

namespace Openraft.Runtime
open Openraft.Engine Openraft.LogIdList
open Openraft.Cluster (Payload)

/-- the last entry of each range the worker has not yet applied is in the log or purged -/
def Queued (g0 : Gh) (n : Node) : Prop :=
  ∀ f l, SmCmd.apply f l ∈ n.smq → (g0.runs (n.eng.out.take n.done)).Has (some l)

theorem SmOk.mem {V : Option LogId → Prop} {p q : Option LogId} {cs : List SmCmd} (h : SmOk V p cs q) {f l : LogId}
    (hm : SmCmd.apply f l ∈ cs) : V (some l) := by
  induction cs generalizing p with
  | nil => cases hm
  | cons c cs ih =>
    rcases List.mem_cons.1 hm with h1 | h1
    · subst h1; exact h.2.2.2.1
    · cases c with
      | apply f l => exact ih h.2.2.2.2 h1
      | install m io => exact ih h.2.2.2 h1
      | build => exact ih h h1

namespace RInv
variable {g0 : Gh} {a0 : IOId} {s0 c0 : Option LogId} {P S : List Cmd} {n n' : Node} {dbg : Bool}

/-- the log that can be read has no holes -/
theorem rd_wf (h : RInv g0 a0 s0 c0 P S n) : LogWf n.rd := by
  have ho := h.oks
  have hrow := h.z.row.runs ho
  rw [h.d.rd]
  refine ⟨hrow, fun e he => ?_⟩
  have he2 : (g0.runs (P ++ S)).ids.head? = some e.id := by simp [Gh.ids, List.head?_map, he]
  cases hp : (g0.runs (P ++ S)).store.purged with
  | none => exact h.z.first.runs ho hp _ he2
  | some p =>
    have hrow' := hrow
    unfold Gh.Row at hrow'
    rw [hp] at hrow'
    cases hi : (g0.runs (P ++ S)).ids with
    | nil => rw [hi] at he2; cases he2
    | cons a r =>
      rw [hi] at hrow' he2
      cases he2
      exact hrow'.1

/-- **The worker reads what it asks for.** -/
theorem smStep_total (h : RInv g0 a0 s0 c0 P S n) (hq : Queued g0 n) : ∃ n', n.smStep = .ok n' := by
  unfold Node.smStep
  have hchain := h.s.chain
  cases hs : n.smq with
  | nil => exact ⟨_, rfl⟩
  | cons c q =>
    cases c with
    | install m io => exact ⟨_, rfl⟩
    | build => exact ⟨_, rfl⟩
    | apply f l =>
      simp only
      rw [hs] at hchain
      obtain ⟨c1, c2, c3, _, _⟩ := hchain
      have hh := hq f l (by rw [hs]; simp) l rfl
      rw [h.split] at hh
      have hp := Nat.le_trans h.d.purged.2 h.snap_app.next
      rw [h.d.rd] at hp
      have hl : l ∈ (g0.runs (P ++ S)).ids := by
        rcases hh with hh | hh
        · exact hh
        · have := hh.next
          simp only [nextIndex_some] at this
          omega
      have hlast := (h.z.row.runs h.oks).le_last (List.mem_append_right _ hl)
      have hr := h.rd_wf.read_spec (a := f.index) (b := l.index + 1) (by rw [h.d.rd, c1]; exact hp) (by rw [h.d.rd]; omega) (by omega)
      rw [if_pos hr.1]
      exact ⟨_, rfl⟩

theorem queued_exec {c : Cmd} {n1 : Node} (h : RInv g0 a0 s0 c0 P S n) (hq : Queued g0 n) (hc : n.head = some c)
    (hr : n.exec dbg c = .ok n1) : Queued g0 { n1 with done := n1.done + 1 } := by
  obtain ⟨k1, k2, k3, k4⟩ := h.head hc
  obtain ⟨h1, h2, _, _, h5, _⟩ := CInv.exec_keep hr
  intro f l hm
  show (g0.runs (n1.eng.out.take (n1.done + 1))).Has (some l)
  rw [h1, h2, k3, Gh.runs_snoc]
  rcases h5 f l hm with h6 | ⟨a, ⟨h6, _⟩ | h6⟩
  · have := hq f l h6
    rw [h.split] at this
    exact (this.run (h.z.row.runs h.oks) ((h.s.chain.mem h6).le h.oks) k1).1
  · subst h6
    intro x hx
    cases hx
    exact Or.inl k1.2.1
  · subst h6; exact k2.elim

theorem queued_keep (hq : Queued g0 n) (h : n.done ≤ n.eng.out.length) (h1 : n.eng.out <+: n'.eng.out) (h2 : n'.done = n.done)
    (h3 : ∀ f l, SmCmd.apply f l ∈ n'.smq → SmCmd.apply f l ∈ n.smq) : Queued g0 n' := by
  intro f l hm
  obtain ⟨r, hr⟩ := h1
  rw [h2, ← hr, List.take_append_of_le_length h]
  exact hq f l (h3 f l hm)

theorem queued_step {ev : Ev} (h : RInv g0 a0 s0 c0 P S n) (hq : Queued g0 n) (hr : n.step dbg ev = .ok n') : Queued g0 n' := by
  have hreg : ∀ (n : Node) (tx : Nat) (o : Option Nat), (n.register tx o).eng = n.eng ∧ (n.register tx o).done = n.done ∧ (n.register tx o).smq = n.smq := by
    intro n tx o; cases o <;> exact ⟨rfl, rfl, rfl⟩
  have hans : ∀ (es : List Ent) (n : Node), (n.answer es).done = n.done ∧ (n.answer es).smq = n.smq := by
    intro es
    induction es with
    | nil => exact fun _ => ⟨rfl, rfl⟩
    | cons x es ih =>
      intro n
      unfold Node.answer
      cases BMap.get n.clients x.id.index with
      | none => exact ih n
      | some tx => exact ih _
  cases ev with
  | msg now i =>
    simp only [Node.step] at hr
    split at hr
    · simp only [out_bind, lift_ok, out_pure] at hr
      obtain ⟨e, he, hr⟩ := hr
      subst hr
      exact queued_keep (n' := { n with eng := e }) hq h.done (Eng.grow_input _ _ _ he).2 rfl fun f l hm => hm
    · rw [out_pure] at hr; subst hr; exact hq
  | write now tx p =>
    simp only [Node.step] at hr
    split at hr
    · simp only [out_bind, lift_ok, out_pure] at hr
      obtain ⟨⟨i, e⟩, he, hr⟩ := hr
      subst hr
      have hi : n.eng.input dbg now (.write p) = .ok e := by
        simp only [Eng.input, Engine.bind_ok, Engine.pure_ok]; exact ⟨_, he, rfl⟩
      obtain ⟨r1, r2, r3⟩ := hreg { n with eng := e } tx i
      refine queued_keep hq h.done ?_ r2 fun f l hm => ?_
      · rw [r1]; exact (Eng.grow_input _ _ _ hi).2
      · rw [r3] at hm; exact hm
    · rw [out_pure] at hr; subst hr; exact hq
  | change now tx c r =>
    simp only [Node.step] at hr
    split at hr
    · simp only [out_bind, lift_ok, out_pure] at hr
      obtain ⟨⟨i, e⟩, he, hr⟩ := hr
      subst hr
      have hi : n.eng.input dbg now (.change c r) = .ok e := by
        simp only [Eng.input, Engine.bind_ok, Engine.pure_ok]; exact ⟨_, he, rfl⟩
      obtain ⟨r1, r2, r3⟩ := hreg { n with eng := e } tx i
      refine queued_keep hq h.done ?_ r2 fun f l hm => ?_
      · rw [r1]; exact (Eng.grow_input _ _ _ hi).2
      · rw [r3] at hm; exact hm
    · rw [out_pure] at hr; subst hr; exact hq
  | note now =>
    simp only [Node.step] at hr
    split at hr
    · cases hx : n.rx with
      | nil => rw [hx] at hr; simp only [out_pure] at hr; subst hr; exact hq
      | cons x xs =>
        rw [hx] at hr
        have key : ∀ (e : Eng) (i : Input), n.eng.input dbg now i = .ok e → Queued g0 { { n with rx := xs } with eng := e } := fun e i he =>
          queued_keep (n' := { { n with rx := xs } with eng := e }) hq h.done (Eng.grow_input _ _ _ he).2 rfl fun f l hm => hm
        cases x with
        | localIO io =>
          simp only [Node.handle, out_bind, lift_ok, out_pure] at hr
          obtain ⟨e, he, rfl⟩ := hr
          exact key e _ he
        | selfVote v =>
          simp only [Node.handle, out_bind, lift_ok, out_pure] at hr
          obtain ⟨e, he, rfl⟩ := hr
          exact key e _ he
        | built m =>
          simp only [Node.handle, out_bind, lift_ok, out_pure] at hr
          obtain ⟨e, he, rfl⟩ := hr
          exact key e _ he
        | installed io m =>
          simp only [Node.handle, out_bind, lift_ok, out_pure] at hr
          obtain ⟨e, he, rfl⟩ := hr
          exact key e _ he
        | applied l es =>
          simp only [Node.handle, out_bind, lift_ok, out_pure] at hr
          obtain ⟨e, he, rfl⟩ := hr
          have := key e _ he
          obtain ⟨r1, r2⟩ := hans es { { n with rx := xs } with eng := e }
          intro f l' hm
          rw [r1, (CInv.answer_eng es _).1]
          rw [r2] at hm
          exact this f l' hm
    · rw [out_pure] at hr; subst hr; exact hq
  | run =>
    simp only [Node.step, Node.run1] at hr
    cases hc : n.head with
    | none => rw [hc] at hr; simp only [out_pure] at hr; subst hr; exact hq
    | some c =>
      rw [hc] at hr
      simp only at hr
      split at hr
      · simp only [out_bind, out_pure] at hr
        obtain ⟨n1, h1, rfl⟩ := hr
        exact h.queued_exec hq hc h1
      · rw [out_pure] at hr; subst hr; exact hq
  | flush =>
    simp only [Node.step, out_pure] at hr
    subst hr
    unfold Node.flush1
    split <;> exact hq
  | sm =>
    simp only [Node.step] at hr
    unfold Node.smStep at hr
    cases hs : n.smq with
    | nil => rw [hs] at hr; simp only [out_pure] at hr; subst hr; exact hq
    | cons c q =>
      rw [hs] at hr
      have key : ∀ n' : Node, n'.eng = n.eng → n'.done = n.done → n'.smq = q → Queued g0 n' := by
        intro n' e1 e2 e3
        refine queued_keep hq h.done (by rw [e1]) e2 fun f l hm => ?_
        rw [e3] at hm
        rw [hs]; exact List.mem_cons_of_mem _ hm
      cases c with
      | install m io => simp only [out_pure] at hr; subst hr; exact key _ rfl rfl rfl
      | build => simp only [out_pure] at hr; subst hr; exact key _ rfl rfl rfl
      | apply f l =>
        simp only at hr
        split at hr
        · rw [out_pure] at hr; subst hr; exact key _ rfl rfl rfl
        · cases hr
  | build k =>
    simp only [Node.step, out_pure] at hr
    subst hr
    unfold Node.buildDone
    split <;> exact hq

end RInv

theorem Life.queued {dbg : Bool} {cfg : Cfg} {old : List Resp} {n : Node} (h : Life dbg cfg old n) :
    ∃ g0 a0 s0 c0 P S, RInv g0 a0 s0 c0 P S n ∧ Queued g0 n := by
  induction h with
  | fresh now persist => exact ⟨_, _, _, _, _, _, RInv.fresh cfg now persist, fun f l hm => by cases hm⟩
  | @step old n n' ev _ ho hs ih =>
    obtain ⟨g0, a0, s0, c0, P, S, hi, hq⟩ := ih
    obtain ⟨P', S', k1, _, _⟩ := hi.step ho hs
    exact ⟨g0, a0, s0, c0, P', S', k1, hi.queued_step hq hs⟩
  | @crash old n n' k now _ hf hr ih =>
    obtain ⟨g0, a0, s0, c0, P, S, hi, _⟩ := ih
    obtain ⟨st, store, s2, base, _, _, k1, _, _, _, _⟩ := restart_inv (hi.crash_ok k) hf hr
    refine ⟨_, _, _, _, _, _, k1, ?_⟩
    have hsmq : n'.smq = [] := by
      unfold restart at hr
      simp only [bind, Except.bind] at hr
      split at hr
      · cases hr
      · split at hr
        · cases hr
        · simp only [pure, Except.pure, Except.ok.injEq] at hr
          rw [← hr]; rfl
    intro f l hm
    rw [hsmq] at hm; cases hm

end Openraft.Runtime
