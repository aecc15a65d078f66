import Verif.Base.Ids
import Mathlib.Data.List.Pairwise
import Mathlib.Tactic.Tauto

/-!
# Ordered sets and maps with natural-number keys

`BTreeSet<NodeId>` and `BTreeMap<NodeId, V>` of the Rust standard library, as strictly sorted
lists. Only the operations the membership code uses are modelled.
-/

set_option autoImplicit false

namespace Openraft

/-! ## `BTreeSet` -/
namespace BSet

/-- `BTreeSet::insert` on the sorted element list. -/
def insert (x : Nat) : List Nat → List Nat
  | [] => [x]
  | y :: ys => if x < y then x :: y :: ys else if x = y then y :: ys else y :: insert x ys

/-- `a.union(&b).copied().collect()` -/
def union (a b : List Nat) : List Nat := b.foldl (fun s x => insert x s) a

/-- `a.difference(&b).copied().collect()` -/
def diff (a b : List Nat) : List Nat := a.filter fun x => !b.contains x

/-- `iter.collect::<BTreeSet<_>>()` -/
def ofList (l : List Nat) : List Nat := union [] l

/-- strictly sorted: the shape of every `BTreeSet` -/
def Sorted (l : List Nat) : Prop := l.Pairwise (· < ·)

theorem mem_insert {x y : Nat} {l : List Nat} : y ∈ insert x l ↔ y = x ∨ y ∈ l := by
  induction l with
  | nil => simp [insert]
  | cons a l ih =>
    unfold insert
    split
    · simp
    · split
      · rename_i h; subst h; simp
      · simp only [List.mem_cons, ih]; tauto

theorem sorted_insert {x : Nat} {l : List Nat} (h : Sorted l) : Sorted (insert x l) := by
  induction l with
  | nil => simp [insert, Sorted]
  | cons a l ih =>
    unfold insert
    have h' := List.pairwise_cons.1 h
    split
    · rename_i hx
      refine List.pairwise_cons.2 ⟨?_, h⟩
      intro b hb
      rcases List.mem_cons.1 hb with rfl | hb
      · exact hx
      · have := h'.1 b hb; show _ < b; omega
    · split
      · exact h
      · rename_i h1 h2
        refine List.pairwise_cons.2 ⟨?_, ih h'.2⟩
        intro b hb
        rcases mem_insert.1 hb with rfl | hb
        · omega
        · exact h'.1 b hb

theorem mem_union {x : Nat} {a b : List Nat} : x ∈ union a b ↔ x ∈ a ∨ x ∈ b := by
  unfold union
  induction b generalizing a with
  | nil => simp
  | cons y b ih => simp only [List.foldl_cons, ih, mem_insert, List.mem_cons]; tauto

theorem sorted_union {a b : List Nat} (h : Sorted a) : Sorted (union a b) := by
  unfold union
  induction b generalizing a with
  | nil => simpa
  | cons y b ih => exact ih (sorted_insert h)

theorem mem_diff {x : Nat} {a b : List Nat} : x ∈ diff a b ↔ x ∈ a ∧ x ∉ b := by
  simp [diff, List.mem_filter]

theorem sorted_diff {a b : List Nat} (h : Sorted a) : Sorted (diff a b) := List.Pairwise.filter _ h

theorem mem_ofList {x : Nat} {l : List Nat} : x ∈ ofList l ↔ x ∈ l := by simp [ofList, mem_union]
theorem sorted_ofList (l : List Nat) : Sorted (ofList l) := sorted_union List.Pairwise.nil

theorem nodup_of_sorted {l : List Nat} (h : Sorted l) : l.Nodup :=
  List.Pairwise.imp (fun {_ _} hab => Nat.ne_of_lt hab) h

/-- Two sorted lists with the same elements are equal. -/
theorem sorted_ext {a b : List Nat} (ha : Sorted a) (hb : Sorted b) (h : ∀ x, x ∈ a ↔ x ∈ b) : a = b := by
  induction a generalizing b with
  | nil =>
    cases b with
    | nil => rfl
    | cons y b => exact absurd ((h y).2 (by simp)) (by simp)
  | cons x a ih =>
    cases b with
    | nil => exact absurd ((h x).1 (by simp)) (by simp)
    | cons y b =>
      have ha' := List.pairwise_cons.1 ha
      have hb' := List.pairwise_cons.1 hb
      have hxy : x = y := by
        have h1 := (h x).1 (by simp)
        have h2 := (h y).2 (by simp)
        rcases List.mem_cons.1 h1 with h1 | h1
        · exact h1
        · rcases List.mem_cons.1 h2 with h2 | h2
          · exact h2.symm
          · have := hb'.1 x h1; have := ha'.1 y h2; omega
      subst hxy
      congr 1
      apply ih ha'.2 hb'.2
      intro z
      have hz := h z
      simp only [List.mem_cons] at hz
      constructor
      · intro hza
        rcases hz.1 (Or.inr hza) with rfl | hzb
        · exact absurd (ha'.1 z hza) (Nat.lt_irrefl _)
        · exact hzb
      · intro hzb
        rcases hz.2 (Or.inr hzb) with rfl | hza
        · exact absurd (hb'.1 z hzb) (Nat.lt_irrefl _)
        · exact hza

end BSet

/-! ## `BTreeMap` -/
namespace BMap
variable {V : Type}

/-- `BTreeMap::insert` -/
def insert (k : Nat) (v : V) : List (Nat × V) → List (Nat × V)
  | [] => [(k, v)]
  | (k', v') :: m =>
    if k < k' then (k, v) :: (k', v') :: m
    else if k = k' then (k, v) :: m else (k', v') :: insert k v m

/-- `BTreeMap::get` -/
def get (m : List (Nat × V)) (k : Nat) : Option V := (m.find? fun p => p.1 == k).map (·.2)

/-- `BTreeMap::contains_key` -/
def containsKey (m : List (Nat × V)) (k : Nat) : Bool := m.any fun p => p.1 == k

/-- `BTreeMap::remove` -/
def remove (m : List (Nat × V)) (k : Nat) : List (Nat × V) := m.filter fun p => p.1 != k

/-- `BTreeMap::keys` -/
def keys (m : List (Nat × V)) : List Nat := m.map (·.1)

/-- strictly sorted by key: the shape of every `BTreeMap` -/
def Sorted (m : List (Nat × V)) : Prop := BSet.Sorted (keys m)

theorem containsKey_iff {m : List (Nat × V)} {k : Nat} : containsKey m k = true ↔ k ∈ keys m := by
  simp [containsKey, keys, List.any_eq_true]

theorem get_insert_self (k : Nat) (v : V) (m : List (Nat × V)) : get (insert k v m) k = some v := by
  induction m with
  | nil => simp [insert, get]
  | cons p m ih =>
    obtain ⟨k', v'⟩ := p
    unfold insert
    split
    · simp [get]
    · split
      · simp [get]
      · rename_i h1 h2
        have : (k' == k) = false := by simp; omega
        simp [get, this] at ih ⊢; exact ih

theorem get_insert_ne {k k' : Nat} (v : V) (m : List (Nat × V)) (h : k' ≠ k) :
    get (insert k v m) k' = get m k' := by
  induction m with
  | nil => have : (k == k') = false := by simp; omega
           simp [insert, get, this]
  | cons p m ih =>
    obtain ⟨a, w⟩ := p
    unfold insert
    have hk : (k == k') = false := by simp; omega
    split
    · simp [get, hk]
    · split
      · rename_i h1 h2; subst h2
        simp [get, hk]
      · simp only [get, List.find?_cons] at ih ⊢
        split
        · rfl
        · exact ih

theorem mem_keys_insert {k j : Nat} {v : V} {m : List (Nat × V)} :
    j ∈ keys (insert k v m) ↔ j = k ∨ j ∈ keys m := by
  induction m with
  | nil => simp [insert, keys]
  | cons p m ih =>
    obtain ⟨a, w⟩ := p
    unfold insert
    split
    · simp [keys]
    · split
      · rename_i h; subst h; simp [keys]
      · simp only [keys, List.map_cons, List.mem_cons] at ih ⊢; rw [ih]; tauto

theorem sorted_insert {k : Nat} {v : V} {m : List (Nat × V)} (h : Sorted m) : Sorted (insert k v m) := by
  induction m with
  | nil => simp [insert, Sorted, keys, BSet.Sorted]
  | cons p m ih =>
    obtain ⟨a, w⟩ := p
    unfold insert
    have h' := List.pairwise_cons.1 (show List.Pairwise (· < ·) (a :: keys m) from h)
    split
    · rename_i hx
      refine List.pairwise_cons.2 ⟨?_, h⟩
      intro b hb
      rcases List.mem_cons.1 hb with rfl | hb
      · exact hx
      · have := h'.1 b hb; show k < b; omega
    · split
      · rename_i h2; subst h2; exact h
      · rename_i h1 h2
        refine List.pairwise_cons.2 ⟨?_, ih h'.2⟩
        intro b hb
        rcases mem_keys_insert.1 hb with rfl | hb
        · show a < b; omega
        · exact h'.1 b hb

theorem mem_keys_remove {k j : Nat} {m : List (Nat × V)} :
    j ∈ keys (remove m k) ↔ j ≠ k ∧ j ∈ keys m := by
  simp only [keys, remove, List.mem_map, List.mem_filter, bne_iff_ne]
  constructor
  · rintro ⟨p, ⟨hp, hk⟩, rfl⟩; exact ⟨hk, p, hp, rfl⟩
  · rintro ⟨hk, p, hp, rfl⟩; exact ⟨p, ⟨hp, hk⟩, rfl⟩

theorem get_remove_ne {k j : Nat} {m : List (Nat × V)} (h : j ≠ k) : get (remove m k) j = get m j := by
  induction m with
  | nil => rfl
  | cons p m ih =>
    obtain ⟨a, w⟩ := p
    simp only [get, remove, List.filter_cons, List.find?_cons] at ih ⊢
    by_cases hak : a = k
    · subst hak
      have : (a == j) = false := by simp; omega
      simp [this] at ih ⊢; exact ih
    · have h1 : (a != k) = true := by simp [hak]
      rw [if_pos h1, List.find?_cons]
      simp only
      split
      · rfl
      · exact ih

theorem sorted_remove {k : Nat} {m : List (Nat × V)} (h : Sorted m) : Sorted (remove m k) := by
  have : keys (remove m k) = (keys m).filter (fun x => x != k) := by
    simp [keys, remove, List.filter_map, Function.comp_def]
  unfold Sorted; rw [this]; exact List.Pairwise.filter _ h

theorem get_isSome_iff {m : List (Nat × V)} {k : Nat} : (get m k).isSome = true ↔ k ∈ keys m := by
  induction m with
  | nil => simp [get, keys]
  | cons p m ih =>
    obtain ⟨a, w⟩ := p
    simp only [get, keys, List.find?_cons, List.map_cons, List.mem_cons] at ih ⊢
    by_cases h : a = k
    · subst h; simp
    · have : (a == k) = false := by simp [h]
      rw [this]; simp only [ih]; constructor
      · exact Or.inr
      · rintro (rfl | h'); exact absurd rfl h; exact h'

end BMap

end Openraft
