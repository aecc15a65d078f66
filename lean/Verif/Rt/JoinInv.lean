import Verif.Rt.Join
import Mathlib.Tactic.Push

/-!
# Callers of a node whose core task ends: invariants
-/

set_option autoImplicit false

namespace Openraft.Rt

variable {h h' : Handle}

@[simp] theorem Handle.at_pc (h : Handle) (i j : Nat) (p : Pc) : (h.at i p).pc j = if j = i then p else h.pc j := rfl
@[simp] theorem Handle.at_core (h : Handle) (i : Nat) (p : Pc) : (h.at i p).core = h.core := rfl
@[simp] theorem Handle.at_st (h : Handle) (i : Nat) (p : Pc) : (h.at i p).st = h.st := rfl
@[simp] theorem Handle.at_tx (h : Handle) (i : Nat) (p : Pc) : (h.at i p).tx = h.tx := rfl
@[simp] theorem Handle.at_told (h : Handle) (i : Nat) (p : Pc) : (h.at i p).told = h.told := rfl

/-- what holds in every state: what is stored and returned is how the core task ended -/
structure Handle.True1 (h : Handle) : Prop where
  stores : ∀ i k x, h.pc i = .stores k x → h.core = some x
  done : ∀ e, h.st = .done e → ∃ x, h.core = some x ∧ e = x.fatal
  ended : ∀ i e, h.pc i = .ended (.fatal e) → ∃ x, h.core = some x ∧ e = x.fatal
  sleeps : ∀ i k, h.pc i = .sleeps k → h.told = true ∨ h.tx = false ∨ ∃ j k', h.pc j = .holds k' ∨ (∃ x, h.pc j = .stores k' x) ∨ h.pc j = .signals k'
  signals : ∀ i k, h.pc i = .signals k → h.core ≠ none
  joining : h.st = .joining → h.tx = false ∨ ∃ j k', h.pc j = .holds k' ∨ (∃ x, h.pc j = .stores k' x)

/-- how one step changes the state -/
inductive Handle.Moves : Handle → JEv → Handle → Prop
  | idle {h : Handle} : Moves h .idle h
  | exit {h : Handle} {x : Exit} : h.core = none → Moves h (.exit x) { h with core := some x }
  | shutdown {h : Handle} {i : Nat} : h.pc i = .out → Moves h (.call i .shutdown) (h.at i (.joins .shutdown))
  | call {h : Handle} {i : Nat} : h.pc i = .out → h.core = none → Moves h (.call i .call) (h.at i (.waits .call))
  | callLate {h : Handle} {i : Nat} : h.pc i = .out → h.core ≠ none → Moves h (.call i .call) (h.at i (.joins .call))
  | sm {h : Handle} {i : Nat} : h.pc i = .out → Moves h (.call i .sm) (h.at i (.waits .sm))
  | answer {h : Handle} {i : Nat} {k : Kind} : h.pc i = .waits k → Moves h (.answer i) (h.at i (.ended .answer))
  | dropSm {h : Handle} {i : Nat} : h.pc i = .waits .sm → Moves h (.drop i) (h.at i .asks)
  | drop {h : Handle} {i : Nat} {k : Kind} : h.pc i = .waits k → k ≠ .sm → Moves h (.drop i) (h.at i (.joins k))
  | wrong {h : Handle} {i : Nat} : h.pc i = .asks → h.st = .running → Moves h (.go i) (h.at i (.ended .wrongType))
  | asks {h : Handle} {i : Nat} : h.pc i = .asks → h.st ≠ .running → Moves h (.go i) (h.at i (.joins .sm))
  | first {h : Handle} {i : Nat} {k : Kind} : h.pc i = .joins k → h.st = .running → Moves h (.go i) ({ h with st := .joining }.at i (.holds k))
  | second {h : Handle} {i : Nat} {k : Kind} : h.pc i = .joins k → h.st = .joining → Moves h (.go i) (h.at i (.sleeps k))
  | late {h : Handle} {i : Nat} {k : Kind} {e : Fatal} : h.pc i = .joins k → h.st = .done e → Moves h (.go i) (h.at i (.reads k))
  | holds {h : Handle} {i : Nat} {k : Kind} {x : Exit} : h.pc i = .holds k → h.core = some x → Moves h (.go i) (h.at i (.stores k x))
  | stores {h : Handle} {i : Nat} {k : Kind} {x : Exit} : h.pc i = .stores k x → Moves h (.go i) ({ h with st := .done x.fatal }.at i (.signals k))
  | signals {h : Handle} {i : Nat} {k : Kind} : h.pc i = .signals k → Moves h (.go i) ({ h with told := true, tx := false }.at i (.reads k))
  | wakes {h : Handle} {i : Nat} {k : Kind} : h.pc i = .sleeps k → h.told = true ∨ h.tx = false → Moves h (.go i) (h.at i (.reads k))
  | reads {h : Handle} {i : Nat} {k : Kind} : h.pc i = .reads k → Moves h (.go i) (h.at i (.ended (h.result k)))
  | gone {h : Handle} {i : Nat} {k : Kind} : h.pc i = .waits k ∨ h.pc i = .sleeps k → Moves h (.cancel i) (h.at i .gone)
  | gone' {h : Handle} {i : Nat} {k : Kind} : h.pc i = .holds k → Moves h (.cancel i) ({ h with tx := false }.at i .gone)

theorem Handle.step_moves {ev : JEv} (hs : h.step ev = some h') : h.Moves ev h' := by
  cases ev with
  | idle => simp only [Handle.step, Option.some.injEq] at hs; subst hs; exact .idle
  | exit x =>
    simp only [Handle.step] at hs
    split at hs
    · rename_i hc; cases hs; exact .exit hc
    · cases hs
  | call i k =>
    simp only [Handle.step] at hs
    split at hs
    · rename_i hc
      cases k with
      | shutdown => cases hs; exact .shutdown hc
      | call =>
        simp only at hs
        split at hs
        · rename_i hn; cases hs; exact .call hc hn
        · rename_i hn; cases hs; exact .callLate hc hn
      | sm => cases hs; exact .sm hc
    · cases hs
  | answer i =>
    simp only [Handle.step] at hs
    split at hs
    · rename_i hc; cases hs; exact .answer hc
    · cases hs
  | drop i =>
    simp only [Handle.step] at hs
    split at hs
    · rename_i hc; cases hs; exact .dropSm hc
    · rename_i k hk hc; cases hs; exact .drop hc hk
    · cases hs
  | go i =>
    simp only [Handle.step, Handle.go] at hs
    split at hs
    · rename_i hc
      cases hs
      split
      · rename_i hr; exact .wrong hc hr
      · rename_i hr; exact .asks hc (by simpa using hr)
    · rename_i k hc
      cases hs
      unfold Handle.lock
      split
      · rename_i hr; exact .first hc hr
      · rename_i hr; exact .second hc hr
      · rename_i hr; exact .late hc hr
    · rename_i k hc
      split at hs
      · rename_i x hx; cases hs; exact .holds hc hx
      · cases hs
    · rename_i k x hc; cases hs; exact .stores hc
    · rename_i k hc; cases hs; exact .signals hc
    · rename_i k hc
      split at hs
      · rename_i hx; cases hs; exact .wakes hc (by simpa using hx)
      · cases hs
    · rename_i k hc; cases hs; exact .reads hc
    · cases hs
  | cancel i =>
    simp only [Handle.step] at hs
    split at hs
    · rename_i hc; cases hs; exact .gone (Or.inl hc)
    · rename_i hc; cases hs; exact .gone (Or.inr hc)
    · rename_i hc; cases hs; exact .gone' hc
    · cases hs

theorem Handle.result_fatal {k : Kind} {e : Fatal} (hr : h.result k = .fatal e) : h.st = .done e := by
  unfold Handle.result at hr
  split at hr
  · cases hr
  · split at hr
    · cases hr; assumption
    · cases hr

theorem Handle.Moves.true1 {ev : JEv} (hm : h.Moves ev h') (hi : h.True1) : h'.True1 := by
  obtain ⟨h1, h2, h3, h4, h5, h6⟩ := hi
  cases hm <;> constructor <;> (try simp only [Handle.at_pc, Handle.at_core, Handle.at_st, Handle.at_tx, Handle.at_told]) <;> first
    | grind
    | exact fun _ => Or.inr ⟨_, _, Or.inl (if_pos rfl)⟩
    | (intro i e he
       split at he
       · exact h2 e (Handle.result_fatal (by simpa using he))
       · exact h3 _ _ he)

theorem Handle.Reach.true1 (hr : h.Reach) : h.True1 := by
  induction hr with
  | new => constructor <;> simp [Handle.new]
  | step ev _ hs ih => exact (Handle.step_moves hs).true1 ih

theorem Handle.Calm.reach (hc : h.Calm) : h.Reach := by
  induction hc with
  | new => exact .new
  | step ev _ hs _ ih => exact .step ev ih hs

/-- what holds while no call that awaits the core task is dropped -/
structure Handle.Calm1 (h : Handle) : Prop where
  told : h.told = true ∨ h.tx = false → ∃ e, h.st = .done e
  signals : ∀ i k, h.pc i = .signals k → ∃ e, h.st = .done e
  reads : ∀ i k, h.pc i = .reads k → ∃ e, h.st = .done e
  panic : ∀ i, h.pc i ≠ .ended .panic
  joined : ∀ i, h.pc i = .ended .joined → h.core ≠ none

theorem Handle.Moves.calm1 {ev : JEv} (hm : h.Moves ev h') (hi : h.Calm1) (ht : h.True1) (hn : ∀ i k, ev = .cancel i → h.pc i ≠ .holds k) : h'.Calm1 := by
  obtain ⟨h1, h2, h3, h4, h5⟩ := hi
  have hd := ht.done
  clear ht
  cases hm <;> constructor <;> (try simp only [Handle.at_pc, Handle.at_core, Handle.at_st, Handle.at_tx, Handle.at_told]) <;> grind [Handle.result]

theorem Handle.Calm.calm1 (hc : h.Calm) : h.Calm1 := by
  induction hc with
  | new => constructor <;> simp [Handle.new]
  | step ev hc hs hn ih => exact (Handle.step_moves hs).calm1 ih hc.reach.true1 hn

/-! ## Going on -/

/-- how far a call is from its end -/
def Pc.rank : Pc → Nat
  | .out => 8
  | .waits _ => 7
  | .asks => 6
  | .joins _ => 5
  | .holds _ => 4
  | .sleeps _ => 4
  | .stores _ _ => 3
  | .signals _ => 2
  | .reads _ => 1
  | .ended _ => 0
  | .gone => 0

/-- a call stays where it is or comes nearer to its end -/
theorem Handle.Moves.rank {ev : JEv} (hm : h.Moves ev h') (i : Nat) : h'.pc i = h.pc i ∨ (h'.pc i).rank < (h.pc i).rank := by
  cases hm <;> (try simp only [Handle.at_pc]) <;> grind [Pc.rank]

theorem Handle.go_isSome (i : Nat) : (h.go i).isSome = true ↔
    h.pc i = .asks ∨ (∃ k, h.pc i = .joins k) ∨ (∃ k, h.pc i = .holds k ∧ h.core ≠ none) ∨ (∃ k x, h.pc i = .stores k x) ∨ (∃ k, h.pc i = .signals k) ∨
      (∃ k, h.pc i = .sleeps k ∧ (h.told = true ∨ h.tx = false)) ∨ ∃ k, h.pc i = .reads k := by
  unfold Handle.go
  cases hp : h.pc i <;> simp <;> cases hc : h.core <;> simp

/-- what ended stays ended -/
theorem Handle.Moves.core {ev : JEv} (hm : h.Moves ev h') {x : Exit} (hx : h.core = some x) : h'.core = some x := by
  cases hm <;> grind [Handle.at]

theorem Handle.Moves.told {ev : JEv} (hm : h.Moves ev h') (hx : h.told = true ∨ h.tx = false) : h'.told = true ∨ h'.tx = false := by
  cases hm <;> grind [Handle.at]

/-- a call that can go on and does not move can still go on -/
theorem Handle.Moves.able {ev : JEv} (hm : h.Moves ev h') {i : Nat} (hp : h'.pc i = h.pc i) (hx : (h.go i).isSome = true) : (h'.go i).isSome = true := by
  rw [Handle.go_isSome] at hx ⊢
  rw [hp]
  rcases hx with hx | hx | ⟨k, hx, hc⟩ | hx | hx | ⟨k, hx, hc⟩ | hx
  · exact Or.inl hx
  · exact Or.inr (Or.inl hx)
  · refine Or.inr (Or.inr (Or.inl ⟨k, hx, ?_⟩))
    obtain ⟨x, hc⟩ := Option.ne_none_iff_exists'.1 hc
    rw [hm.core hc]; simp
  · exact Or.inr (Or.inr (Or.inr (Or.inl hx)))
  · exact Or.inr (Or.inr (Or.inr (Or.inr (Or.inl hx))))
  · exact Or.inr (Or.inr (Or.inr (Or.inr (Or.inr (Or.inl ⟨k, hx, hm.told hc⟩)))))
  · exact Or.inr (Or.inr (Or.inr (Or.inr (Or.inr (Or.inr hx)))))

theorem Handle.Moves.moved {i : Nat} (hm : h.Moves (.go i) h') : h'.pc i ≠ h.pc i := by
  cases hm <;> simp only [Handle.at_pc] <;> grind

variable {σ : Nat → Handle} {ev : Nat → JEv}

theorem JRun.moves (hr : JRun σ ev) (t : Nat) : (σ t).Moves (ev t) (σ (t + 1)) := Handle.step_moves (hr.step t)

theorem JRun.reach (hr : JRun σ ev) (t : Nat) : (σ t).Reach := by
  induction t with
  | zero => exact hr.start
  | succ t ih => exact .step _ ih (hr.step t)

theorem JRun.core (hr : JRun σ ev) {t : Nat} {x : Exit} (hx : (σ t).core = some x) {t' : Nat} (ht : t ≤ t') : (σ t').core = some x := by
  induction t', ht using Nat.le_induction with
  | base => exact hx
  | succ t' _ ih => exact (hr.moves t').core ih

theorem JRun.told (hr : JRun σ ev) {t : Nat} (hx : (σ t).told = true ∨ (σ t).tx = false) {t' : Nat} (ht : t ≤ t') : (σ t').told = true ∨ (σ t').tx = false := by
  induction t', ht using Nat.le_induction with
  | base => exact hx
  | succ t' _ ih => exact (hr.moves t').told ih

theorem JRun.rank (hr : JRun σ ev) (i t : Nat) {t' : Nat} (ht : t ≤ t') : (σ t').pc i = (σ t).pc i ∨ ((σ t').pc i).rank < ((σ t).pc i).rank := by
  induction t', ht using Nat.le_induction with
  | base => exact Or.inl rfl
  | succ t' _ ih =>
    rcases (hr.moves t').rank i with h1 | h1
    · rw [h1]; exact ih
    · rcases ih with h2 | h2
      · right; rw [h2] at h1; exact h1
      · right; omega

/-- a call that can go on moves; until then it stays where it is -/
theorem JRun.goes (hr : JRun σ ev) {i t : Nat} (h : ((σ t).go i).isSome = true) :
    ∃ t', t ≤ t' ∧ (σ t').pc i = (σ t).pc i ∧ (σ (t' + 1)).pc i ≠ (σ t).pc i := by
  by_contra hn
  push Not at hn
  have hst : ∀ t', t ≤ t' → (σ t').pc i = (σ t).pc i ∧ ((σ t').go i).isSome = true := by
    intro t' ht
    induction t', ht using Nat.le_induction with
    | base => exact ⟨rfl, h⟩
    | succ t' ht ih =>
      have h1 := hn t' ht ih.1
      exact ⟨h1, (hr.moves t').able (by rw [h1, ih.1]) ih.2⟩
  obtain ⟨t', ht, he⟩ := hr.fair i t fun t' ht => (hst t' ht).2
  have hm := hr.moves t'
  rw [he] at hm
  exact hm.moved (by rw [hn t' ht (hst t' ht).1, (hst t' ht).1])

/-- the call that awaits the core task wakes the others -/
theorem JRun.wakes (hr : JRun σ ev) {j : Nat} : ∀ {t : Nat}, (σ t).core ≠ none →
    (∃ k, (σ t).pc j = .holds k ∨ (∃ x, (σ t).pc j = .stores k x) ∨ (σ t).pc j = .signals k) → ∃ t', t ≤ t' ∧ ((σ t').told = true ∨ (σ t').tx = false) := by
  have hs : ∀ {t k}, (σ t).pc j = .signals k → ∃ t', t ≤ t' ∧ ((σ t').told = true ∨ (σ t').tx = false) := by
    intro t k hk
    obtain ⟨t', ht, h1, h2⟩ := hr.goes (i := j) (t := t) ((Handle.go_isSome j).2 (by simp [hk]))
    have hm := hr.moves t'
    refine ⟨t' + 1, by omega, ?_⟩
    generalize ev t' = e at hm
    generalize hg : σ (t' + 1) = g at hm h2
    cases hm <;> grind [Handle.at]
  have h2 : ∀ {t k x}, (σ t).pc j = .stores k x → ∃ t', t ≤ t' ∧ ((σ t').told = true ∨ (σ t').tx = false) := by
    intro t k x hk
    obtain ⟨t', ht, h1, h2⟩ := hr.goes (i := j) (t := t) ((Handle.go_isSome j).2 (by simp [hk]))
    have hm := hr.moves t'
    have : (σ (t' + 1)).pc j = .signals k := by
      generalize ev t' = e at hm
      generalize hg : σ (t' + 1) = g at hm h2
      cases hm <;> grind [Handle.at]
    obtain ⟨t2, h3, h4⟩ := hs this
    exact ⟨t2, by omega, h4⟩
  intro t hc hk
  rcases hk with ⟨k, hk | ⟨x, hk⟩ | hk⟩
  · obtain ⟨t', ht, h1, h3⟩ := hr.goes (i := j) (t := t) ((Handle.go_isSome j).2 (by simp [hk, hc]))
    have hm := hr.moves t'
    have : (∃ x, (σ (t' + 1)).pc j = .stores k x) ∨ (σ (t' + 1)).tx = false := by
      generalize ev t' = e at hm
      generalize hg : σ (t' + 1) = g at hm h3
      cases hm <;> grind [Handle.at]
    rcases this with ⟨x, h4⟩ | h4
    · obtain ⟨t2, h5, h6⟩ := h2 h4
      exact ⟨t2, by omega, h6⟩
    · exact ⟨t' + 1, by omega, Or.inr h4⟩
  · exact h2 hk
  · exact hs hk

/-- every call comes to its end after the core task ended -/
theorem JRun.ends (hr : JRun σ ev) {i : Nat} : ∀ {t : Nat}, (σ t).core ≠ none → (σ t).pc i ≠ .out → ∃ t', t ≤ t' ∧ ((σ t').pc i = .gone ∨ ∃ o, (σ t').pc i = .ended o) := by
  have main : ∀ n t, (σ t).core ≠ none → ((σ t).pc i).rank ≤ n → n < 8 → ∃ t', t ≤ t' ∧ ((σ t').pc i = .gone ∨ ∃ o, (σ t').pc i = .ended o) := by
    intro n
    induction n with
    | zero =>
      intro t _ h0 _
      refine ⟨t, Nat.le_refl t, ?_⟩
      cases hp : (σ t).pc i <;> simp [hp, Pc.rank] at h0 ⊢
    | succ n ih =>
      intro t hc h0 h8
      have next : ∀ t', t ≤ t' → (σ t').pc i ≠ (σ t).pc i → ∃ t', t ≤ t' ∧ ((σ t').pc i = .gone ∨ ∃ o, (σ t').pc i = .ended o) := by
        intro t' ht hne
        rcases hr.rank i t ht with h1 | h1
        · exact absurd h1 hne
        · obtain ⟨x, hx⟩ := Option.ne_none_iff_exists'.1 hc
          obtain ⟨t2, h2, h3⟩ := ih t' (by rw [hr.core hx ht]; simp) (by omega) (by omega)
          exact ⟨t2, by omega, h3⟩
      have able : ((σ t).go i).isSome = true → ∃ t', t ≤ t' ∧ ((σ t').pc i = .gone ∨ ∃ o, (σ t').pc i = .ended o) := by
        intro h
        obtain ⟨t', ht, _, h2⟩ := hr.goes h
        exact next (t' + 1) (by omega) h2
      cases hp : (σ t).pc i with
      | out => rw [hp] at h0; simp [Pc.rank] at h0; omega
      | waits k =>
        obtain ⟨t', ht, h1⟩ := hr.dropped i k t hc hp
        exact next t' ht (by rw [hp]; exact h1)
      | sleeps k =>
        obtain ⟨t', ht, h1⟩ : ∃ t', t ≤ t' ∧ ((σ t').told = true ∨ (σ t').tx = false) := by
          rcases (hr.reach t).true1.sleeps i k hp with h1 | h1 | ⟨j, k', h1⟩
          · exact ⟨t, Nat.le_refl t, Or.inl h1⟩
          · exact ⟨t, Nat.le_refl t, Or.inr h1⟩
          · exact hr.wakes hc ⟨k', h1⟩
        by_cases he : (σ t').pc i = .sleeps k
        · obtain ⟨t2, h2, _, h3⟩ := hr.goes (i := i) (t := t') ((Handle.go_isSome i).2 (by simp [he, h1]))
          exact next (t2 + 1) (by omega) (by rw [hp]; rw [he] at h3; exact h3)
        · exact next t' ht (by rw [hp]; exact he)
      | holds k => exact able ((Handle.go_isSome i).2 (by simp [hp, hc]))
      | asks => exact able ((Handle.go_isSome i).2 (by simp [hp]))
      | joins k => exact able ((Handle.go_isSome i).2 (by simp [hp]))
      | stores k x => exact able ((Handle.go_isSome i).2 (by simp [hp]))
      | signals k => exact able ((Handle.go_isSome i).2 (by simp [hp]))
      | reads k => exact able ((Handle.go_isSome i).2 (by simp [hp]))
      | ended o => exact ⟨t, Nat.le_refl t, Or.inr ⟨o, hp⟩⟩
      | gone => exact ⟨t, Nat.le_refl t, Or.inl hp⟩
  intro t hc ho
  refine main 7 t hc ?_ (by omega)
  cases hp : (σ t).pc i <;> simp [Pc.rank]
  exact ho hp

end Openraft.Rt
