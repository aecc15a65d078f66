import Verif.Cluster.Model
import Mathlib.Data.List.Infix
import Mathlib.Data.List.TakeDrop

/-!
# Helper lemmas: prefixes and the last membership of a log
-/

set_option autoImplicit false

namespace Openraft.Cluster

variable {α : Type}

theorem pre_take_of_le {a b : List α} {n : Nat} (h : a <+: b) (hn : a.length ≤ n) : a <+: b.take n :=
  List.prefix_take_iff.2 ⟨h, hn⟩

theorem pre_of_pre_take {a b : List α} {n : Nat} (h : a <+: b.take n) : a <+: b :=
  h.trans (List.take_prefix _ _)

theorem take_pre_take {a : List α} {i j : Nat} (h : i ≤ j) : a.take i <+: a.take j :=
  List.prefix_take_iff.2 ⟨List.take_prefix _ _, by rw [List.length_take]; omega⟩

theorem take_pre {a b : List α} (h : a <+: b) (n : Nat) : a.take n <+: b.take n := by
  obtain ⟨t, rfl⟩ := h
  by_cases hn : n ≤ a.length
  · rw [List.take_append_of_le_length hn]
  · rw [List.take_of_length_le (by omega)]
    exact pre_take_of_le (List.prefix_append _ _) (by omega)

theorem take_eq_of_pre {a b : List α} (h : a <+: b) {n : Nat} (hn : n ≤ a.length) : b.take n = a.take n := by
  obtain ⟨t, rfl⟩ := h
  rw [List.take_append_of_le_length hn]

theorem get_of_pre {a b : List α} (h : a <+: b) {i : Nat} (hi : i < a.length) : b[i]? = a[i]? := by
  obtain ⟨t, rfl⟩ := h
  rw [List.getElem?_append_left hi]

theorem get_of_pre_some {a b : List α} (h : a <+: b) {i : Nat} {x : α} (hi : a[i]? = some x) : b[i]? = some x := by
  rw [get_of_pre h (List.getElem?_eq_some_iff.1 hi).1, hi]

theorem lt_of_get {a : List α} {i : Nat} {x : α} (hi : a[i]? = some x) : i < a.length :=
  (List.getElem?_eq_some_iff.1 hi).1

theorem pre_total {a b c : List α} (h1 : a <+: c) (h2 : b <+: c) : a <+: b ∨ b <+: a :=
  List.prefix_or_prefix_of_prefix h1 h2

theorem pre_of_le {a b c : List α} (h1 : a <+: c) (h2 : b <+: c) (hl : a.length ≤ b.length) : a <+: b :=
  List.prefix_of_prefix_length_le h1 h2 hl

theorem eq_of_pre_len {a b : List α} (h : a <+: b) (hl : b.length ≤ a.length) : a = b :=
  h.eq_of_length_le hl

theorem get_take {a : List α} {i n : Nat} (h : i < n) : (a.take n)[i]? = a[i]? := by
  rw [List.getElem?_take, if_pos h]

/-- common prefix length -/
def cpl [DecidableEq α] : List α → List α → Nat
  | a :: as, b :: bs => if a = b then cpl as bs + 1 else 0
  | _, _ => 0

theorem cpl_le [DecidableEq α] (a b : List α) : cpl a b ≤ a.length ∧ cpl a b ≤ b.length := by
  induction a generalizing b with
  | nil => simp [cpl]
  | cons x a ih =>
    cases b with
    | nil => simp [cpl]
    | cons y b =>
      simp only [cpl]
      split
      · have := ih b; simp only [List.length_cons]; omega
      · simp

theorem take_cpl [DecidableEq α] (a b : List α) : a.take (cpl a b) = b.take (cpl a b) := by
  induction a generalizing b with
  | nil => simp [cpl]
  | cons x a ih =>
    cases b with
    | nil => simp [cpl]
    | cons y b =>
      simp only [cpl]
      split
      · rename_i h; subst h; simp [ih b]
      · simp

theorem le_cpl [DecidableEq α] {a b l : List α} (h1 : l <+: a) (h2 : l <+: b) : l.length ≤ cpl a b := by
  induction l generalizing a b with
  | nil => simp
  | cons x l ih =>
    obtain ⟨t1, rfl⟩ := h1
    obtain ⟨t2, rfl⟩ := h2
    simp only [List.cons_append, cpl, if_pos, List.length_cons]
    have := ih (List.prefix_append l t1) (List.prefix_append l t2)
    omega

/-! ## The last membership -/

theorem lastCfgFrom_none {l : Log} {i : Nat} : lastCfgFrom i l = none ↔ ∀ e ∈ l, e.cfg = none := by
  induction l generalizing i with
  | nil => simp [lastCfgFrom]
  | cons x l ih =>
    simp only [lastCfgFrom, List.mem_cons, forall_eq_or_imp]
    rw [← ih (i := i + 1)]
    cases h : lastCfgFrom (i + 1) l with
    | some r => simp
    | none => simp

theorem lastCfgFrom_some {l : Log} {i k : Nat} {m : Membership} :
    lastCfgFrom i l = some (k, m) ↔
      i ≤ k ∧ (∃ e, l[k - i]? = some e ∧ e.cfg = some m) ∧ ∀ j e, k < i + j → l[j]? = some e → e.cfg = none := by
  induction l generalizing i k m with
  | nil => simp [lastCfgFrom]
  | cons x l ih =>
    simp only [lastCfgFrom]
    cases h : lastCfgFrom (i + 1) l with
    | some r =>
      obtain ⟨k', m'⟩ := r
      obtain ⟨h1, ⟨e, h2, h3⟩, h4⟩ := ih.1 h
      simp only [Option.some.injEq, Prod.mk.injEq]
      constructor
      · rintro ⟨rfl, rfl⟩
        refine ⟨by omega, ⟨e, ?_, h3⟩, ?_⟩
        · rw [show k' - i = (k' - (i + 1)) + 1 by omega, List.getElem?_cons_succ]; exact h2
        · intro j e' hj he'
          cases j with
          | zero => omega
          | succ j =>
            rw [List.getElem?_cons_succ] at he'
            exact h4 j e' (by omega) he'
      · rintro ⟨g1, ⟨e', g2, g3⟩, g4⟩
        rcases Nat.lt_trichotomy k k' with hk | hk | hk
        · have := g4 (k' - i) e (by omega) (by
            rw [show k' - i = (k' - (i + 1)) + 1 by omega, List.getElem?_cons_succ]; exact h2)
          rw [h3] at this; cases this
        · subst hk
          rw [show k - i = (k - (i + 1)) + 1 by omega, List.getElem?_cons_succ, h2] at g2
          cases g2; rw [h3] at g3; cases g3; exact ⟨rfl, rfl⟩
        · rw [show k - i = (k - (i + 1)) + 1 by omega, List.getElem?_cons_succ] at g2
          have := h4 _ e' (by omega) g2
          rw [g3] at this; cases this
    | none =>
      have hn := lastCfgFrom_none.1 h
      simp only [Option.map_eq_some_iff, Prod.mk.injEq]
      constructor
      · rintro ⟨m', hm, rfl, rfl⟩
        refine ⟨le_refl _, ⟨x, by simp, hm⟩, ?_⟩
        intro j e hj he
        cases j with
        | zero => omega
        | succ j =>
          rw [List.getElem?_cons_succ] at he
          exact hn e (List.mem_of_getElem? he)
      · rintro ⟨g1, ⟨e, g2, g3⟩, g4⟩
        rcases Nat.eq_or_lt_of_le g1 with hk | hk
        · subst hk
          simp only [Nat.sub_self, List.getElem?_cons_zero, Option.some.injEq] at g2
          subst g2
          exact ⟨m, g3, rfl, rfl⟩
        · rw [show k - i = (k - (i + 1)) + 1 by omega, List.getElem?_cons_succ] at g2
          have := hn e (List.mem_of_getElem? g2)
          rw [g3] at this; cases this

theorem lastCfg_some {l : Log} {k : Nat} {m : Membership} :
    lastCfg l = some (k, m) ↔
      (∃ e, l[k]? = some e ∧ e.cfg = some m) ∧ ∀ j e, k < j → l[j]? = some e → e.cfg = none := by
  unfold lastCfg
  rw [lastCfgFrom_some]
  simp

theorem lastCfg_none {l : Log} : lastCfg l = none ↔ ∀ e ∈ l, e.cfg = none := lastCfgFrom_none

/-- A log with a membership entry has a last one. -/
theorem lastCfg_exists {l : Log} {e : Entry} {m : Membership} (he : e ∈ l) (hm : e.cfg = some m) :
    ∃ k m', lastCfg l = some (k, m') := by
  cases h : lastCfg l with
  | some r => exact ⟨r.1, r.2, rfl⟩
  | none => rw [lastCfg_none.1 h e he] at hm; cases hm

theorem lastCfg_lt {l : Log} {k : Nat} {m : Membership} (h : lastCfg l = some (k, m)) : k < l.length := by
  obtain ⟨⟨e, he, _⟩, _⟩ := lastCfg_some.1 h
  exact lt_of_get he

/-- If the last membership of a longer log lies in a prefix, it is the last one of the prefix. -/
theorem lastCfg_pre {a b : Log} {k : Nat} {m : Membership} (h : a <+: b) (hb : lastCfg b = some (k, m))
    (hk : k < a.length) : lastCfg a = some (k, m) := by
  obtain ⟨⟨e, he, hm⟩, hmax⟩ := lastCfg_some.1 hb
  refine lastCfg_some.2 ⟨⟨e, ?_, hm⟩, ?_⟩
  · rw [← get_of_pre h hk]; exact he
  · intro j e' hj he'
    exact hmax j e' hj (get_of_pre_some h he')

theorem effMembership_of {l : Log} {k : Nat} {m : Membership} (h : lastCfg l = some (k, m)) :
    effMembership l = m := by simp [effMembership, h]

theorem lastCfg_snoc_cfg (l : Log) (e : Entry) (m : Membership) (h : e.cfg = some m) :
    lastCfg (l ++ [e]) = some (l.length, m) := by
  refine lastCfg_some.2 ⟨⟨e, by simp, h⟩, ?_⟩
  intro j e' hj he'
  have := lt_of_get he'
  simp at this; omega

theorem lastCfg_snoc_none (l : Log) (e : Entry) (h : e.cfg = none) : lastCfg (l ++ [e]) = lastCfg l := by
  cases hl : lastCfg l with
  | none =>
    rw [lastCfg_none] at *
    intro x hx
    rcases List.mem_append.1 hx with hx | hx
    · exact hl x hx
    · simp at hx; rw [hx]; exact h
  | some r =>
    obtain ⟨k, m⟩ := r
    have hlt := lastCfg_lt hl
    obtain ⟨⟨e', he', hm⟩, hmax⟩ := lastCfg_some.1 hl
    refine lastCfg_some.2 ⟨⟨e', ?_, hm⟩, ?_⟩
    · rw [List.getElem?_append_left hlt]; exact he'
    · intro j e2 hj he2
      by_cases hj2 : j < l.length
      · rw [List.getElem?_append_left hj2] at he2; exact hmax j e2 hj he2
      · have := lt_of_get he2
        simp at this
        have : j = l.length := by omega
        subst this
        simp at he2; subst he2; exact h

/-! ## Log ids -/

theorem idAt_some {l : Log} {i : Nat} {x : LogId} : idAt l i = some x ↔ ∃ e, l[i]? = some e ∧ x = ⟨e.lid, i⟩ := by
  simp only [idAt, Option.map_eq_some_iff]
  constructor
  · rintro ⟨e, h, rfl⟩; exact ⟨e, h, rfl⟩
  · rintro ⟨e, h, rfl⟩; exact ⟨e, h, rfl⟩

theorem idAt_none {l : Log} {i : Nat} : idAt l i = none ↔ l.length ≤ i := by
  simp [idAt]

theorem lastId_none {l : Log} : lastId l = none ↔ l = [] := by
  simp only [lastId, idAt_none]
  cases l <;> simp

theorem lastId_nil : lastId [] = none := rfl

theorem lastId_some {l : Log} (h : l ≠ []) : ∃ e, l[l.length - 1]? = some e ∧ lastId l = some ⟨e.lid, l.length - 1⟩ := by
  have hlt : l.length - 1 < l.length := by
    have := List.length_pos_iff.2 h; omega
  refine ⟨l[l.length - 1], List.getElem?_eq_getElem hlt, ?_⟩
  simp [lastId, idAt, List.getElem?_eq_getElem hlt]

end Openraft.Cluster
