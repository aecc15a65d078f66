import Verif.Engine.Input
import Verif.Props.LogIdProps
import Mathlib.Tactic.Tauto

/-!
# Inversion lemmas for the engine's error monad, and facts on log ids
-/

set_option autoImplicit false

namespace Openraft.Engine
open Openraft.Repl (Panic dassert Inflight)
open LogIdList

theorem bind_ok {α β : Type} {x : Res α} {f : α → Res β} {b : β} :
    (x >>= f) = .ok b ↔ ∃ a, x = .ok a ∧ f a = .ok b := by
  cases x with
  | error p => simp [bind, Except.bind]
  | ok a => simp [bind, Except.bind]

theorem pure_ok {α : Type} {a b : α} : (pure a : Res α) = .ok b ↔ a = b := by
  simp [pure, Except.pure]

theorem unwrap_ok {α : Type} {x : Option α} {a : α} : unwrap x = .ok a ↔ x = some a := by
  cases x <;> simp [unwrap]

theorem error_ok {α : Type} {p : Panic} {a : α} : (Except.error p : Res α) = .ok a ↔ False := by simp

theorem dassert_ok {dbg b : Bool} {u : Unit} : dassert dbg b = .ok u ↔ (dbg = true → b = true) := by
  unfold dassert
  cases dbg <;> cases b <;> simp

/-! ## Order facts -/

theorem opt_le_none {α : Type} [LinearOrder α] {a : Option α} : a ≤ none ↔ a = none := by
  cases a with
  | none => simp
  | some x => exact ⟨fun h => absurd h OptOrd.not_some_le_none', fun h => by cases h⟩

theorem opt_lt_some {α : Type} [LinearOrder α] {a : Option α} {b : α} :
    a < some b ↔ ∀ x, a = some x → x < b := by
  cases a with
  | none => exact ⟨fun _ x h => (by cases h), fun _ => OptOrd.none_lt_some'⟩
  | some x => exact ⟨fun h y hy => by cases hy; exact h, fun h => h x rfl⟩

theorem opt_le_some {α : Type} [LinearOrder α] {a : Option α} {b : α} :
    a ≤ some b ↔ ∀ x, a = some x → x ≤ b := by
  cases a with
  | none => exact ⟨fun _ x h => (by cases h), fun _ => OptOrd.none_le' _⟩
  | some x => exact ⟨fun h y hy => by cases hy; exact h, fun h => h x rfl⟩

theorem opt_some_le {α : Type} [LinearOrder α] {a : α} {b : Option α} :
    some a ≤ b ↔ ∃ y, b = some y ∧ a ≤ y := by
  cases b with
  | none => exact ⟨fun h => absurd h OptOrd.not_some_le_none', fun ⟨y, h, _⟩ => by cases h⟩
  | some y => exact ⟨fun h => ⟨y, rfl, h⟩, fun ⟨z, hz, h⟩ => by cases hz; exact h⟩

/-- `max` of optional log ids -/
theorem omax_eq {α : Type} [LinearOrder α] (a b : Option α) : max a b = if a ≤ b then b else a := by
  cases a with
  | none => rw [if_pos (OptOrd.none_le' _)]; cases b <;> rfl
  | some x =>
    cases b with
    | none => rw [if_neg OptOrd.not_some_le_none']; rfl
    | some y =>
      show some (max x y) = _
      split
      · next h => rw [max_eq_right (show x ≤ y from h)]
      · next h => rw [max_eq_left (le_of_not_ge (show ¬ x ≤ y from h))]

/-- `min` of optional log ids -/
theorem omin_eq {α : Type} [LinearOrder α] (a b : Option α) : min a b = if a ≤ b then a else b := by
  cases a with
  | none => rw [if_pos (OptOrd.none_le' _)]; cases b <;> rfl
  | some x =>
    cases b with
    | none => rw [if_neg OptOrd.not_some_le_none']; rfl
    | some y =>
      show some (min x y) = _
      split
      · next h => rw [min_eq_left (show x ≤ y from h)]
      · next h => rw [min_eq_right (le_of_not_ge (show ¬ x ≤ y from h))]

/-! ## Consecutive lists of log ids

`Cons L`: every id's index is the one before it plus one; the leader ids never decrease. -/

/-- consecutive indexes and non-decreasing leader ids -/
def Cons : List LogId → Prop
  | [] => True
  | [_] => True
  | a :: b :: r => b.index = a.index + 1 ∧ a.leaderId ≤ b.leaderId ∧ Cons (b :: r)

theorem Cons.tail {a : LogId} {r : List LogId} (h : Cons (a :: r)) : Cons r := by
  cases r with
  | nil => trivial
  | cons b r => exact h.2.2

theorem Cons.spec {a : LogId} {r : List LogId} (h : Cons (a :: r)) :
    ∀ x ∈ r, a.index < x.index ∧ a.leaderId ≤ x.leaderId := by
  induction r generalizing a with
  | nil => intro x hx; cases hx
  | cons b r ih =>
    intro x hx
    rcases List.mem_cons.1 hx with rfl | hx
    · exact ⟨by have := h.1; omega, h.2.1⟩
    · have := ih h.2.2 x hx
      exact ⟨by have := h.1; omega, le_trans h.2.1 this.2⟩

theorem Cons.getElem? {a : LogId} {r : List LogId} (h : Cons (a :: r)) {i : Nat} {x : LogId}
    (hx : (a :: r)[i]? = some x) : x.index = a.index + i := by
  induction r generalizing a i with
  | nil =>
    cases i with
    | zero => simp at hx; subst hx; rfl
    | succ i => simp at hx
  | cons b r ih =>
    cases i with
    | zero => simp at hx; subst hx; rfl
    | succ i =>
      rw [List.getElem?_cons_succ] at hx
      have := ih h.2.2 hx
      have := h.1
      omega

theorem Cons.inj {L : List LogId} (h : Cons L) {x y : LogId} (hx : x ∈ L) (hy : y ∈ L)
    (he : x.index = y.index) : x = y := by
  cases L with
  | nil => cases hx
  | cons a r =>
    obtain ⟨i, hi⟩ := List.mem_iff_getElem?.1 hx
    obtain ⟨j, hj⟩ := List.mem_iff_getElem?.1 hy
    have h1 := h.getElem? hi
    have h2 := h.getElem? hj
    have : i = j := by omega
    subst this
    rw [hi] at hj; exact Option.some.inj hj

theorem Cons.mono {L : List LogId} (h : Cons L) {x y : LogId} (hx : x ∈ L) (hy : y ∈ L)
    (hlt : x.index ≤ y.index) : x.leaderId ≤ y.leaderId := by
  induction L with
  | nil => cases hx
  | cons a r ih =>
    rcases List.mem_cons.1 hx with rfl | hx' <;> rcases List.mem_cons.1 hy with rfl | hy'
    · exact le_refl _
    · exact (h.spec y hy').2
    · have := (h.spec x hx').1; omega
    · exact ih h.tail hx' hy'

/-- in a consecutive list, the order of ids is the order of indexes -/
theorem Cons.le_iff {L : List LogId} (h : Cons L) {x y : LogId} (hx : x ∈ L) (hy : y ∈ L) :
    x ≤ y ↔ x.index ≤ y.index := by
  constructor
  · intro hle
    by_contra hn
    have h2 := h.mono hy hx (by omega)
    rcases LogId.le_def.1 hle with h3 | ⟨_, h4⟩
    · exact absurd h2 (not_le_of_gt h3)
    · omega
  · intro hle
    have := h.mono hx hy hle
    rcases lt_or_eq_of_le this with h3 | h3
    · exact Or.inl h3
    · exact Or.inr ⟨h3, hle⟩

theorem Cons.lt_iff {L : List LogId} (h : Cons L) {x y : LogId} (hx : x ∈ L) (hy : y ∈ L) :
    x < y ↔ x.index < y.index := by
  rw [← not_le, h.le_iff hy hx]; omega

theorem cons_append {A B : List LogId} : Cons (A ++ B) ↔ Cons A ∧ Cons B ∧
    ∀ a b, A.getLast? = some a → B.head? = some b → b.index = a.index + 1 ∧ a.leaderId ≤ b.leaderId := by
  induction A with
  | nil => simp [Cons]
  | cons a A ih =>
    cases A with
    | nil =>
      cases B with
      | nil => simp [Cons]
      | cons b B =>
        simp only [List.cons_append, List.nil_append, Cons, List.getLast?_singleton, List.head?_cons,
          Option.some.injEq, true_and]
        constructor
        · rintro ⟨h1, h2, h3⟩; exact ⟨h3, fun x y hx hy => by subst hx; subst hy; exact ⟨h1, h2⟩⟩
        · rintro ⟨h3, h4⟩; exact ⟨(h4 a b rfl rfl).1, (h4 a b rfl rfl).2, h3⟩
    | cons c A =>
      have e1 : (a :: c :: A).getLast? = (c :: A).getLast? := by simp
      simp only [List.cons_append, Cons] at ih ⊢
      rw [e1, ih]; tauto

theorem Cons.take {L : List LogId} (h : Cons L) (n : Nat) : Cons (L.take n) := by
  rw [← List.take_append_drop n L] at h
  exact (cons_append.1 h).1

theorem Cons.drop {L : List LogId} (h : Cons L) (n : Nat) : Cons (L.drop n) := by
  rw [← List.take_append_drop n L] at h
  exact (cons_append.1 h).2.1

/-- membership by index: a consecutive list holds every index between its ends -/
theorem Cons.exists_index {L : List LogId} (h : Cons L) {a b : LogId} (ha : a ∈ L) (hb : b ∈ L) {i : Nat}
    (h1 : a.index ≤ i) (h2 : i ≤ b.index) : ∃ x ∈ L, x.index = i := by
  cases L with
  | nil => cases ha
  | cons c r =>
    obtain ⟨k, hk⟩ := List.mem_iff_getElem?.1 hb
    obtain ⟨j, hj⟩ := List.mem_iff_getElem?.1 ha
    have hk' := h.getElem? hk
    have hj' := h.getElem? hj
    have hkl := (List.getElem?_eq_some_iff.1 hk).1
    have hlt : i - c.index < (c :: r).length := by omega
    refine ⟨(c :: r)[i - c.index], List.getElem_mem hlt, ?_⟩
    have := h.getElem? (List.getElem?_eq_getElem hlt)
    omega

theorem Cons.filter_lt {L : List LogId} (h : Cons L) (n : Nat) :
    ∃ k, L.filter (fun x => decide (x.index < n)) = L.take k ∧ L.filter (fun x => decide (n ≤ x.index)) = L.drop k := by
  induction L with
  | nil => exact ⟨0, rfl, rfl⟩
  | cons a r ih =>
    by_cases hlt : a.index < n
    · obtain ⟨k, h1, h2⟩ := ih h.tail
      refine ⟨k + 1, ?_, ?_⟩
      · rw [List.filter_cons_of_pos (by simpa using hlt), h1]; rfl
      · rw [List.filter_cons_of_neg (by simpa using hlt), h2]; rfl
    · refine ⟨0, ?_, ?_⟩
      · rw [List.filter_eq_nil_iff.2]; rfl
        intro x hx
        rcases List.mem_cons.1 hx with rfl | hx
        · simpa using hlt
        · have := (h.spec x hx).1; simp; omega
      · rw [List.filter_eq_self.2]; rfl
        intro x hx
        rcases List.mem_cons.1 hx with rfl | hx
        · simp; omega
        · have := (h.spec x hx).1; simp; omega

theorem Cons.filterLt {L : List LogId} (h : Cons L) (n : Nat) : Cons (L.filter fun x => decide (x.index < n)) := by
  obtain ⟨k, h1, _⟩ := h.filter_lt n
  rw [h1]; exact h.take k

theorem Cons.filterGe {L : List LogId} (h : Cons L) (n : Nat) : Cons (L.filter fun x => decide (n ≤ x.index)) := by
  obtain ⟨k, _, h1⟩ := h.filter_lt n
  rw [h1]; exact h.drop k

theorem Cons.consecutiveFrom {a : LogId} {r : List LogId} (h : Cons (a :: r)) : ConsecutiveFrom a.index (a :: r) := by
  intro i hi
  exact h.getElem? (List.getElem?_eq_getElem hi)

theorem Cons.of_index {L : List LogId} {n : Nat} (hc : ConsecutiveFrom n L)
    (hm : L.Pairwise fun a b => a.leaderId ≤ b.leaderId) : Cons L := by
  induction L generalizing n with
  | nil => trivial
  | cons a r ih =>
    cases r with
    | nil => trivial
    | cons b r =>
      have h1 := hc.tail
      have h2 := h1.2.tail
      exact ⟨by rw [h2.1, h1.1], (List.pairwise_cons.1 hm).1 b (by simp), ih h1.2 (List.pairwise_cons.1 hm).2⟩

/-- the last id has the greatest index -/
theorem Cons.le_last {L : List LogId} (h : Cons L) {x l : LogId} (hl : L.getLast? = some l) (hx : x ∈ L) :
    x.index ≤ l.index := by
  induction L generalizing x with
  | nil => cases hx
  | cons a r ih =>
    cases r with
    | nil => simp at hl hx; subst hl; subst hx; exact Nat.le_refl _
    | cons b r =>
      have hl' : (b :: r).getLast? = some l := by simpa using hl
      rcases List.mem_cons.1 hx with rfl | hx
      · have h1 := ih h.tail hl' (List.mem_cons_self (a := b))
        have := h.1; omega
      · exact ih h.tail hl' hx

theorem Cons.head_le {L : List LogId} (h : Cons L) {x a : LogId} (ha : L.head? = some a) (hx : x ∈ L) :
    a.index ≤ x.index := by
  cases L with
  | nil => cases hx
  | cons b r =>
    simp at ha; subst ha
    rcases List.mem_cons.1 hx with rfl | hx
    · exact Nat.le_refl _
    · exact Nat.le_of_lt (h.spec x hx).1

end Openraft.Engine
