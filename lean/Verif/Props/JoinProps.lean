import Verif.Rt.JoinInv

/-!
# C56: callers of a node whose core task ends
-/

set_option autoImplicit false

namespace Openraft.Props
open Openraft.Rt

variable {h : Handle} {σ : Nat → Handle} {ev : Nat → JEv}

/-- the error that tells why the core task ended: the one it returned, that it panicked, or that it was stopped from outside -/
inductive Why : Exit → Fatal → Prop
  | returned (e : Fatal) : Why (.returned e) e
  | panicked : Why .panicked .panicked
  | aborted : Why .aborted .stopped

theorem Exit.why (x : Exit) : Why x x.fatal := by
  cases x <;> constructor

/-- the calls after the core task of a node ended: every call that was made returns, unless its caller drops it, none panics, the error it
returns is the one for which the task ended, and a call that is made then is not told that it asked for the wrong type -/
def ToldWhy (σ : Nat → Handle) : Prop :=
  ∀ t x, (σ t).core = some x → ∀ i, (σ t).pc i = .out → ∀ t1, t ≤ t1 → (σ t1).pc i ≠ .out →
    ∃ t2, t1 ≤ t2 ∧ ((σ t2).pc i = .gone ∨ (σ t2).pc i = .ended .answer ∨ (σ t2).pc i = .ended .joined ∨
      ∃ e, Why x e ∧ (σ t2).pc i = .ended (.fatal e))

/-- **C56, the full claim.** It is false: `C56_dropped_panics`, `C56_wrong_type`, `C56_shutdown_early`. -/
def C56_statement : Prop :=
  (∀ σ ev, JRun σ ev → ToldWhy σ) ∧ ∀ h : Handle, h.Reach → ∀ i, h.pc i = .ended .joined → h.core ≠ none

/-- **C56**: in every state, a call that returned an error returned the one for which the core task ended. -/
theorem C56_reason (hr : h.Reach) {i : Nat} {e : Fatal} (he : h.pc i = .ended (.fatal e)) : ∃ x, h.core = some x ∧ Why x e := by
  obtain ⟨x, h1, rfl⟩ := hr.true1.ended i e he
  exact ⟨x, h1, Exit.why x⟩

/-- **C56**: after the core task ended every call returns, those that wait and those that are made later, whatever calls are dropped in
between. -/
theorem C56_returns (hr : JRun σ ev) {t i : Nat} (hc : (σ t).core ≠ none) (hi : (σ t).pc i ≠ .out) :
    ∃ t', t ≤ t' ∧ ((σ t').pc i = .gone ∨ ∃ o, (σ t').pc i = .ended o) :=
  hr.ends hc hi

/-- **C56**, while no call that awaits the core task is dropped by its caller: no call panics. Missing: the other runs,
`C56_dropped_panics`. -/
theorem C56_no_panic_partial (hc : h.Calm) (i : Nat) : h.pc i ≠ .ended .panic := hc.calm1.panic i

/-- **C56**, while no call that awaits the core task is dropped by its caller: `shutdown` returns after the core task ended. Missing: the other
runs, `C56_shutdown_early`. -/
theorem C56_shutdown_partial (hc : h.Calm) {i : Nat} (hi : h.pc i = .ended .joined) : h.core ≠ none := hc.calm1.joined i hi

/-- **C56**: once a call has found the core gone, `with_state_machine` is no longer told that it asked for the wrong type. Missing: before
that, `C56_wrong_type`. -/
theorem C56_type_partial (hr : JRun σ ev) {t i : Nat} (hs : (σ t).st ≠ .running) (hi : (σ t).pc i ≠ .ended .wrongType) :
    ∀ t', t ≤ t' → (σ t').pc i ≠ .ended .wrongType := by
  have main : ∀ t', t ≤ t' → (σ t').st ≠ .running ∧ (σ t').pc i ≠ .ended .wrongType := by
    intro t' ht
    induction t', ht using Nat.le_induction with
    | base => exact ⟨hs, hi⟩
    | succ t' _ ih =>
      have hm := hr.moves t'
      have hx : ∀ k, (σ t').result k ≠ .wrongType := by
        intro k
        unfold Handle.result
        split
        · simp
        · split <;> simp
      obtain ⟨h1, h2⟩ := ih
      generalize ev t' = e at hm
      generalize σ (t' + 1) = g at hm
      generalize σ t' = f at hm h1 h2 hx
      cases hm <;> (try simp only [Handle.at_pc, Handle.at_st]) <;> (constructor <;> grind)
  exact fun t' ht => (main t' ht).2

/-- **C56**, in runs in which no call that awaits the core task is dropped and a call has found the core gone before: the claim as it is
stated. Missing: the other runs. -/
theorem C56_told_why_partial (hr : JRun σ ev) (hc : ∀ t, (σ t).Calm) {t : Nat} {x : Exit} (hx : (σ t).core = some x) (hs : (σ t).st ≠ .running)
    {i : Nat} (h0 : (σ t).pc i = .out) {t1 : Nat} (ht : t ≤ t1) (hi : (σ t1).pc i ≠ .out) :
    ∃ t2, t1 ≤ t2 ∧ ((σ t2).pc i = .gone ∨ (σ t2).pc i = .ended .answer ∨ (σ t2).pc i = .ended .joined ∨
      ∃ e, Why x e ∧ (σ t2).pc i = .ended (.fatal e)) := by
  obtain ⟨t2, h2, h3⟩ := C56_returns hr (t := t1) (i := i) (by rw [hr.core hx ht]; simp) hi
  refine ⟨t2, h2, ?_⟩
  rcases h3 with h3 | ⟨o, h3⟩
  · exact Or.inl h3
  · cases o with
    | answer => exact Or.inr (Or.inl h3)
    | joined => exact Or.inr (Or.inr (Or.inl h3))
    | fatal e =>
      obtain ⟨y, h4, h5⟩ := C56_reason (hr.reach t2) h3
      rw [hr.core hx (by omega)] at h4
      cases h4
      exact Or.inr (Or.inr (Or.inr ⟨e, h5, h3⟩))
    | wrongType => exact absurd h3 (C56_type_partial hr hs (by rw [h0]; simp) t2 (by omega))
    | panic => exact absurd h3 (C56_no_panic_partial (hc t2) i)

/-! ## Runs -/

/-- some steps -/
def joinTo (h : Handle) : List JEv → Option Handle
  | [] => some h
  | e :: es => (h.step e).bind fun h' => joinTo h' es

theorem joinTo_reach {es : List JEv} : ∀ {h h' : Handle}, h.Reach → joinTo h es = some h' → h'.Reach := by
  induction es with
  | nil => intro h h' hr he; cases he; exact hr
  | cons e es ih =>
    intro h h' hr he
    simp only [joinTo, Option.bind_eq_some_iff] at he
    obtain ⟨h1, h2, h3⟩ := he
    exact ih (.step e hr h2) h3

/-- no step drops a call that awaits the core task -/
def joinCalm (h : Handle) : List JEv → Bool
  | [] => true
  | e :: es => (match e with
      | .cancel i => match h.pc i with | .holds _ => false | _ => true
      | _ => true) && (match h.step e with | some h' => joinCalm h' es | none => true)

theorem joinTo_calm {es : List JEv} : ∀ {h h' : Handle}, h.Calm → joinTo h es = some h' → joinCalm h es = true → h'.Calm := by
  induction es with
  | nil => intro h h' hr he _; cases he; exact hr
  | cons e es ih =>
    intro h h' hr he hc
    simp only [joinTo, Option.bind_eq_some_iff] at he
    obtain ⟨h1, h2, h3⟩ := he
    simp only [joinCalm, h2, Bool.and_eq_true] at hc
    refine ih (.step e hr h2 ?_) h3 hc.2
    rintro i k rfl hk
    simp [hk] at hc

/-- a run that does the steps and then nothing -/
def joinRun (es : List JEv) (t : Nat) : Handle := (joinTo .new (es.take t)).getD .new

theorem joinTo_append {es fs : List JEv} : ∀ {h : Handle}, joinTo h (es ++ fs) = (joinTo h es).bind fun h' => joinTo h' fs := by
  induction es with
  | nil => intro h; rfl
  | cons e es ih =>
    intro h
    simp only [List.cons_append, joinTo]
    cases h.step e with
    | none => rfl
    | some h1 => simp [ih]

/-- the calls of some steps -/
def joinIds : List JEv → List Nat
  | [] => []
  | .call i _ :: es => i :: joinIds es
  | _ :: es => joinIds es

theorem joinTo_out {es : List JEv} : ∀ {h h' : Handle} {i : Nat}, joinTo h es = some h' → h.pc i = .out → i ∉ joinIds es → h'.pc i = .out := by
  induction es with
  | nil => intro h h' i he h0 _; cases he; exact h0
  | cons e es ih =>
    intro h h' i he h0 hn
    simp only [joinTo, Option.bind_eq_some_iff] at he
    obtain ⟨h1, h2, h3⟩ := he
    have hm := Handle.step_moves h2
    have hn' : i ∉ joinIds es ∧ ∀ k, e ≠ .call i k := by
      cases e <;> simp only [joinIds, List.mem_cons, not_or] at hn <;> simp_all
      rename_i j k'
      exact fun hk => absurd hk.symm hn.1
    refine ih h3 ?_ hn'.1
    cases hm <;> (try simp only [Handle.at_pc]) <;> grind

/-- it is a run if all steps are possible and all calls that were made are over -/
theorem joinRun_run {es : List JEv} (h1 : (joinTo .new es).isSome = true)
    (h2 : (joinIds es).all (fun i => match ((joinTo .new es).getD .new).pc i with | .ended _ => true | .gone => true | _ => false) = true) :
    JRun (joinRun es) (fun t => es.getD t .idle) := by
  obtain ⟨last, hl⟩ := Option.isSome_iff_exists.1 h1
  have hpre : ∀ t, ∃ g, joinTo .new (es.take t) = some g := by
    intro t
    have := joinTo_append (h := .new) (es := es.take t) (fs := es.drop t)
    rw [List.take_append_drop, hl] at this
    cases hg : joinTo .new (es.take t) with
    | none => rw [hg] at this; cases this
    | some g => exact ⟨g, rfl⟩
  have hend : ∀ t, es.length ≤ t → joinRun es t = last := by
    intro t ht
    unfold joinRun
    rw [List.take_of_length_le ht, hl]; rfl
  have hover : ∀ i, last.pc i = .out ∨ last.pc i = .gone ∨ ∃ o, last.pc i = .ended o := by
    intro i
    by_cases hi : i ∈ joinIds es
    · have := List.all_eq_true.1 h2 i hi
      rw [hl] at this
      simp only [Option.getD_some] at this
      split at this
      · rename_i o ho; exact Or.inr (Or.inr ⟨o, ho⟩)
      · rename_i ho; exact Or.inr (Or.inl ho)
      · cases this
    · exact Or.inl (joinTo_out hl rfl hi)
  constructor
  · exact .new
  · intro t
    unfold joinRun
    obtain ⟨g, hg⟩ := hpre t
    by_cases ht : t < es.length
    · obtain ⟨g', hg'⟩ := hpre (t + 1)
      rw [hg, hg']
      rw [List.take_add_one, List.getElem?_eq_getElem ht, joinTo_append, hg] at hg'
      simp only [Option.toList, Option.bind_some, joinTo, Option.bind_fun_some] at hg'
      simp only [Option.getD_some, List.getD_eq_getElem?_getD, List.getElem?_eq_getElem ht]
      cases hx : g.step es[t] with
      | none => simp [hx] at hg'
      | some y => simpa [hx] using hg'
    · have e1 : es.take t = es := List.take_of_length_le (by omega)
      have e2 : es.take (t + 1) = es := List.take_of_length_le (by omega)
      rw [e1, e2, hl]
      simp [List.getD_eq_getElem?_getD, List.getElem?_eq_none (show es.length ≤ t by omega), Handle.step]
  · intro i t hf
    exfalso
    have := hf (max t es.length) (Nat.le_max_left _ _)
    rw [hend _ (Nat.le_max_right _ _), Handle.go_isSome] at this
    rcases hover i with ho | ho | ⟨o, ho⟩ <;> simp [ho] at this
  · intro i k t _ _
    refine ⟨max t es.length, Nat.le_max_left _ _, ?_⟩
    rw [hend _ (Nat.le_max_right _ _)]
    rcases hover i with ho | ho | ⟨o, ho⟩ <;> simp [ho]

/-! ## Examples -/

/-- call 1 waits for its answer, call 2 shuts the node down, call 3 asks the state machine; the core ends with a storage error -/
def stopEvs : List JEv := [.call 1 .call, .call 2 .shutdown, .call 3 .sm, .go 2, .drop 1, .go 1, .exit (.returned (.storage 5)), .call 4 .call, .go 4, .drop 3, .go 3,
  .go 2, .go 3, .go 2, .go 2, .go 2, .go 3, .go 1, .go 4, .go 4, .go 1, .go 3]
theorem stop_run : JRun (joinRun stopEvs) (fun t => stopEvs.getD t .idle) := joinRun_run (by decide) (by decide)
theorem stop_calm (t : Nat) : (joinRun stopEvs t).Calm := by
  by_cases ht : t < stopEvs.length
  · have : ∀ k < stopEvs.length, (joinTo .new (stopEvs.take k)).isSome = true ∧ joinCalm .new (stopEvs.take k) = true := by decide
    obtain ⟨h1, h2⟩ := this t ht
    obtain ⟨g, hg⟩ := Option.isSome_iff_exists.1 h1
    unfold joinRun
    rw [hg]
    exact joinTo_calm .new hg h2
  · unfold joinRun
    rw [List.take_of_length_le (by omega)]
    obtain ⟨g, hg⟩ := Option.isSome_iff_exists.1 (show (joinTo .new stopEvs).isSome = true by decide)
    rw [hg]
    exact joinTo_calm .new hg (by decide)

example : (joinRun stopEvs 22).pc 1 = .ended (.fatal (.storage 5)) ∧ (joinRun stopEvs 22).pc 2 = .ended .joined ∧
    (joinRun stopEvs 22).pc 3 = .ended (.fatal (.storage 5)) ∧ (joinRun stopEvs 22).pc 4 = .ended (.fatal (.storage 5)) := by decide

example : ∃ x, (joinRun stopEvs 22).core = some x ∧ Why x (.storage 5) := C56_reason (stop_run.reach 22) (i := 1) (by decide)
example : ∃ t', 8 ≤ t' ∧ ((joinRun stopEvs t').pc 1 = .gone ∨ ∃ o, (joinRun stopEvs t').pc 1 = .ended o) := C56_returns stop_run (by decide) (by decide)
example : (joinRun stopEvs 22).pc 4 ≠ .ended .panic := C56_no_panic_partial (stop_calm 22) 4
example : (joinRun stopEvs 22).core ≠ none := C56_shutdown_partial (stop_calm 22) (i := 2) (by decide)
example : ∀ t', 7 ≤ t' → (joinRun stopEvs t').pc 3 ≠ .ended .wrongType := C56_type_partial stop_run (by decide) (by decide)
example : ∃ t2, 8 ≤ t2 ∧ ((joinRun stopEvs t2).pc 4 = .gone ∨ (joinRun stopEvs t2).pc 4 = .ended .answer ∨ (joinRun stopEvs t2).pc 4 = .ended .joined ∨
    ∃ e, Why (.returned (.storage 5)) e ∧ (joinRun stopEvs t2).pc 4 = .ended (.fatal e)) :=
  C56_told_why_partial stop_run stop_calm (t := 7) (x := .returned (.storage 5)) (by decide) (by decide) (by decide) (by decide) (by decide)

/-! ## What breaks it -/

/-- `shutdown` with a timeout: its caller drops it while the core has not ended; then the core ends and another call is made -/
def droppedEvs : List JEv := [.call 1 .shutdown, .go 1, .cancel 1, .exit (.returned .stopped), .call 2 .call, .go 2, .go 2, .go 2]

/-- **C56 is false**: if the call that awaits the core task is dropped (a `shutdown` with a timeout), the state stays `Joining` forever, and every
later call panics (`unreachable!("RaftCore should have already quit")`, `raft/raft_inner.rs:158`). -/
theorem C56_dropped_panics : ∃ σ ev, JRun σ ev ∧ ¬ ToldWhy σ ∧ ∃ t, (σ t).core = some (.returned .stopped) ∧ (σ t).pc 2 = .ended .panic := by
  refine ⟨joinRun droppedEvs, _, joinRun_run (by decide) (by decide), ?_, 8, by decide, by decide⟩
  intro hw
  obtain ⟨t2, h2, h3⟩ := hw 4 (.returned .stopped) (by decide) 2 (by decide) 8 (by decide) (by decide)
  have : joinRun droppedEvs t2 = joinRun droppedEvs 8 := by
    unfold joinRun
    rw [List.take_of_length_le (show droppedEvs.length ≤ t2 from h2), List.take_of_length_le (show droppedEvs.length ≤ 8 by decide)]
  rw [this, show (joinRun droppedEvs 8).pc 2 = .ended .panic by decide] at h3
  simp at h3

/-- **C56 is false**: as before, but the second call is another `shutdown`. It returns at once, although the core still runs. -/
theorem C56_shutdown_early : ∃ h : Handle, h.Reach ∧ h.pc 2 = .ended .joined ∧ h.core = none := by
  obtain ⟨g, hg⟩ := Option.isSome_iff_exists.1 (show (joinTo .new [.call 1 .shutdown, .go 1, .cancel 1, .call 2 .shutdown, .go 2, .go 2, .go 2]).isSome = true by decide)
  refine ⟨g, joinTo_reach .new hg, ?_, ?_⟩
  · have : ((joinTo .new [.call 1 .shutdown, .go 1, .cancel 1, .call 2 .shutdown, .go 2, .go 2, .go 2]).map (·.pc 2)) = some (.ended .joined) := by decide
    rw [hg] at this; simpa using this
  · have : ((joinTo .new [.call 1 .shutdown, .go 1, .cancel 1, .call 2 .shutdown, .go 2, .go 2, .go 2]).map (·.core)) = some none := by decide
    rw [hg] at this; simpa using this

/-- the core has panicked, nobody has noticed; then the state machine is asked -/
def wrongEvs : List JEv := [.exit .panicked, .call 1 .sm, .drop 1, .go 1]

/-- **C56 is false**: `is_core_running` says whether somebody has waited for the core task, not whether it runs: the first call of
`with_state_machine` after the core ended gets `InvalidStateMachineType` (`raft/mod.rs:921-922`). -/
theorem C56_wrong_type : ∃ σ ev, JRun σ ev ∧ ¬ ToldWhy σ ∧ (∀ t, (σ t).Calm) ∧ (σ 1).core = some .panicked ∧ (σ 1).pc 1 = .out ∧ (σ 4).pc 1 = .ended .wrongType := by
  refine ⟨joinRun wrongEvs, _, joinRun_run (by decide) (by decide), ?_, ?_, by decide, by decide, by decide⟩
  · intro hw
    obtain ⟨t2, h2, h3⟩ := hw 1 .panicked (by decide) 1 (by decide) 4 (by decide) (by decide)
    have : joinRun wrongEvs t2 = joinRun wrongEvs 4 := by
      unfold joinRun
      rw [List.take_of_length_le (show wrongEvs.length ≤ t2 from h2), List.take_of_length_le (show wrongEvs.length ≤ 4 by decide)]
    rw [this, show (joinRun wrongEvs 4).pc 1 = .ended .wrongType by decide] at h3
    simp at h3
  · intro t
    by_cases ht : t < 4
    · have : ∀ k < 4, (joinTo .new (wrongEvs.take k)).isSome = true ∧ joinCalm .new (wrongEvs.take k) = true := by decide
      obtain ⟨h1, h2⟩ := this t ht
      obtain ⟨g, hg⟩ := Option.isSome_iff_exists.1 h1
      unfold joinRun
      rw [hg]
      exact joinTo_calm .new hg h2
    · unfold joinRun
      rw [List.take_of_length_le (show wrongEvs.length ≤ t by simp only [wrongEvs, List.length_cons, List.length_nil]; omega)]
      obtain ⟨g, hg⟩ := Option.isSome_iff_exists.1 (show (joinTo .new wrongEvs).isSome = true by decide)
      rw [hg]
      exact joinTo_calm .new hg (by decide)

theorem C56_false : ¬ C56_statement := by
  rintro ⟨h1, _⟩
  obtain ⟨σ, ev, hr, hn, _⟩ := C56_dropped_panics
  exact hn (h1 σ ev hr)

end Openraft.Props
