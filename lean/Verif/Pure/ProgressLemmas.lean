import Mathlib.Data.List.Induction
import Verif.Pure.Progress

/-!
# Lemmas about `VecProgress`
-/

set_option autoImplicit false

namespace Openraft
namespace VecProgress
variable {α : Type} [LinearOrder α]

/-- `move_up` inserts the element before the maximal run of smaller predecessors. -/
theorem moveUp_append (pre : List (NodeId × α)) (x : NodeId × α) (post : List (NodeId × α)) :
    ∃ p1 p2, pre = p1 ++ p2 ∧ moveUp (pre ++ x :: post) pre.length = (p1 ++ x :: (p2 ++ post), p1.length) ∧
      (∀ e ∈ p2, e.2 < x.2) ∧ (∀ e, p1.getLast? = some e → ¬ e.2 < x.2) := by
  induction pre using List.reverseRecOn generalizing post with
  | nil => exact ⟨[], [], rfl, by simp [moveUp], by simp, by simp⟩
  | append_singleton pre a ih =>
    have h1 : (pre ++ [a] ++ x :: post)[pre.length]? = some a := by simp
    have h2 : (pre ++ [a] ++ x :: post)[pre.length + 1]? = some x := by
      rw [List.getElem?_append_right (by simp)]; simp
    by_cases hlt : a.2 < x.2
    · have hs : ((pre ++ [a] ++ x :: post).set pre.length x).set (pre.length + 1) a
          = pre ++ x :: (a :: post) := by
        simp [List.set_append]
      obtain ⟨p1, p2, hp, hm, hlt2, hlast⟩ := ih (a :: post)
      refine ⟨p1, p2 ++ [a], by rw [hp]; simp, ?_, ?_, hlast⟩
      · rw [List.length_append, List.length_singleton, moveUp, h1, h2]
        simp only [hlt, if_true, hs, hm]; simp
      · intro e he
        rcases List.mem_append.1 he with he | he
        · exact hlt2 e he
        · rw [List.mem_singleton] at he; rw [he]; exact hlt
    · refine ⟨pre ++ [a], [], by simp, ?_, by simp, ?_⟩
      · rw [List.length_append, List.length_singleton, moveUp, h1, h2]
        simp only [hlt, if_false]; simp
      · intro e he; simp at he; rw [← he]; exact hlt

/-- ids of a list of progress elements -/
def ids (l : List (NodeId × α)) : List NodeId := l.map (·.1)

omit [LinearOrder α] in
theorem ids_append (a b : List (NodeId × α)) : ids (a ++ b) = ids a ++ ids b := by simp [ids]

/-- Result of `scan` on a vector whose part above `g` is `A` and comes first. -/
theorem scan_spec (configs : List (List NodeId)) (g : α) (A B L : List (NodeId × α))
    (hA : ∀ e ∈ A, g < e.2) (hB : ∀ e ∈ B, e.2 ≤ g) (i : Nat) (hi : i ≤ A.length) :
    (∃ j, ∃ h : j < A.length, i ≤ j ∧ scan configs g (A ++ B).length (A ++ B ++ L) i = (A[j]).2 ∧
        isQuorum configs (ids (A.take (j + 1))) = true ∧
        ∀ k, i ≤ k → k < j → isQuorum configs (ids (A.take (k + 1))) = false) ∨
    (scan configs g (A ++ B).length (A ++ B ++ L) i = g ∧
        ∀ k, i ≤ k → k < A.length → isQuorum configs (ids (A.take (k + 1))) = false) := by
  induction hn : A.length - i generalizing i with
  | zero =>
    right
    refine ⟨?_, fun k h1 h2 => by omega⟩
    rw [scan_eq]
    split
    · rename_i hlt
      have hi' : i = A.length := by omega
      rw [List.append_assoc, List.getElem?_append_right (by omega)]
      cases hb : (B ++ L)[i - A.length]? with
      | none => rfl
      | some e =>
        have hBlen : i - A.length < B.length := by simp at hlt; omega
        rw [List.getElem?_append_left hBlen] at hb
        have := hB e (List.mem_of_getElem? hb)
        simp [this]
    · rfl
  | succ n ih =>
    have hlt : i < A.length := by omega
    have hget : (A ++ B ++ L)[i]? = some A[i] := by
      rw [List.append_assoc, List.getElem?_append_left hlt, List.getElem?_eq_getElem hlt]
    have htake : (A ++ B ++ L).take (i + 1) = A.take (i + 1) := by
      rw [List.append_assoc, List.take_append_of_le_length (by omega)]
    have hng : ¬ (A[i]).2 ≤ g := not_le_of_gt (hA _ (List.getElem_mem hlt))
    have hunf : scan configs g (A ++ B).length (A ++ B ++ L) i =
        if isQuorum configs (ids (A.take (i + 1))) then (A[i]).2
        else scan configs g (A ++ B).length (A ++ B ++ L) (i + 1) := by
      rw [scan_eq]
      rw [if_pos (by simp; omega), hget]
      simp only [hng, if_false, htake]
      rfl
    by_cases hq : isQuorum configs (ids (A.take (i + 1))) = true
    · left
      refine ⟨i, hlt, Nat.le_refl _, by rw [hunf, if_pos hq], hq, fun k h1 h2 => by omega⟩
    · have hq' : isQuorum configs (ids (A.take (i + 1))) = false := by simpa using hq
      rw [hunf, if_neg hq]
      rcases ih (i + 1) (by omega) (by omega) with ⟨j, hj, h1, h2, h3, h4⟩ | ⟨h1, h2⟩
      · left
        refine ⟨j, hj, by omega, h2, h3, ?_⟩
        intro k hk1 hk2
        by_cases hki : k = i
        · rw [hki]; exact hq'
        · exact h4 k (by omega) hk2
      · right
        refine ⟨h1, ?_⟩
        intro k hk1 hk2
        by_cases hki : k = i
        · rw [hki]; exact hq'
        · exact h2 k (by omega) hk2

/-- The invariant documented in `progress/mod.rs:130-138` together with maximality of `granted`:
voters above `granted` come first, in descending order, and no value above `granted` is reached by
a quorum. -/
structure Ok (p : VecProgress α) : Prop where
  split : ∃ A B L, p.vector = A ++ B ++ L ∧ (A ++ B).length = p.voterCount ∧
    (∀ e ∈ A, p.granted < e.2) ∧ A.Pairwise (fun a b => b.2 ≤ a.2) ∧ (∀ e ∈ B, e.2 ≤ p.granted)
  nodup : (ids p.vector).Nodup
  maximal : ∀ y, p.granted < y → isQuorum p.configs (p.reached y) = false
  nonempty : p.configs ≠ []

theorem reached_eq {p : VecProgress α} {A B L : List (NodeId × α)} (hv : p.vector = A ++ B ++ L)
    (hc : (A ++ B).length = p.voterCount) (hB : ∀ e ∈ B, e.2 ≤ p.granted) {y : α} (hy : p.granted < y) :
    p.reached y = ids (A.filter fun e => decide (y ≤ e.2)) := by
  unfold reached ids
  rw [hv, ← hc, List.take_left', List.filter_append]
  · have : B.filter (fun e => decide (y ≤ e.2)) = [] := by
      rw [List.filter_eq_nil_iff]
      intro e he
      simp only [decide_eq_true_eq, not_le]
      exact lt_of_le_of_lt (hB e he) hy
    rw [this]; simp
  · rfl

/-- In a descending list, the elements at or above `y` form a prefix. -/
theorem filter_ge_prefix {A : List (NodeId × α)} (hs : A.Pairwise (fun a b => b.2 ≤ a.2)) {y : α}
    {j : Nat} (hj : ∀ h : j < A.length, (A[j]).2 < y) :
    ∀ e ∈ A.filter (fun e => decide (y ≤ e.2)), e ∈ A.take j := by
  intro e he
  rw [List.mem_filter] at he
  obtain ⟨he, hye⟩ := he
  obtain ⟨k, hk, rfl⟩ := List.getElem_of_mem he
  simp only [decide_eq_true_eq] at hye
  by_cases hkj : k < j
  · rw [List.mem_take_iff_getElem]
    exact ⟨k, by omega, rfl⟩
  · exfalso
    have hjl : j < A.length := by omega
    have h1 := hj hjl
    by_cases hjk : j = k
    · subst hjk; exact absurd hye (not_le_of_gt h1)
    · have := List.pairwise_iff_getElem.1 hs j k hjl hk (by omega)
      exact absurd (le_trans hye this) (not_le_of_gt h1)

/-- Core of `update` for the case `prev ≤ granted < value` of a voter. -/
theorem update_core {p : VecProgress α} (hok : p.Ok) {id : NodeId} {idx : Nat} {prev value : α}
    (hidx : p.vector[idx]? = some (id, prev)) (hvoter : idx < p.voterCount)
    (hprev : prev ≤ p.granted) (hval : p.granted < value)
    {v : List (NodeId × α)} {ni : Nat} (hmv : moveUp (p.vector.set idx (id, value)) idx = (v, ni)) :
    let p' : VecProgress α := { p with vector := v, granted := scan p.configs p.granted p.voterCount v ni }
    p'.Ok ∧ p.granted ≤ p'.granted ∧ (p'.granted ≠ p.granted → isQuorum p'.configs (p'.reached p'.granted) = true) ∧
      v.Perm (p.vector.set idx (id, value)) ∧ v.drop p.voterCount = p.vector.drop p.voterCount := by
  obtain ⟨A, B, L, hv, hc, hA, hs, hB⟩ := hok.split
  -- the element is in `B`
  have hidxA : A.length ≤ idx := by
    by_contra hlt
    have hlt : idx < A.length := by omega
    rw [hv, List.append_assoc, List.getElem?_append_left hlt] at hidx
    exact absurd hprev (not_le_of_gt (hA _ (List.mem_of_getElem? hidx)))
  have hidxB : idx - A.length < B.length := by simp at hc; omega
  obtain ⟨B1, b, B2, hBsplit, hB1⟩ : ∃ B1 b B2, B = B1 ++ b :: B2 ∧ B1.length = idx - A.length :=
    ⟨B.take (idx - A.length), B[idx - A.length], B.drop (idx - A.length + 1), by
      rw [List.getElem_cons_drop, List.take_append_drop], by simp; omega⟩
  have hlen : (A ++ B1).length = idx := by simp; omega
  have hset : p.vector.set idx (id, value) = (A ++ B1) ++ (id, value) :: (B2 ++ L) := by
    rw [hv, hBsplit, ← hlen]
    simp [List.set_append]
  have hb1 : b = (id, prev) := by
    have : p.vector[idx]? = some b := by
      rw [hv, hBsplit, ← hlen]
      have : A ++ (B1 ++ b :: B2) ++ L = (A ++ B1) ++ b :: (B2 ++ L) := by simp
      rw [this]; simp
    rw [this] at hidx; exact Option.some.inj hidx
  obtain ⟨p1, p2, hp, hm, hlt2, hlast⟩ := moveUp_append (A ++ B1) (id, value) (B2 ++ L)
  rw [hset, ← hlen, hm] at hmv
  obtain ⟨rfl, rfl⟩ := Prod.mk.inj hmv
  -- `p1` is a prefix of `A`
  obtain ⟨A2, hA2, hp2⟩ : ∃ A2, A = p1 ++ A2 ∧ p2 = A2 ++ B1 := by
    rcases List.append_eq_append_iff.1 hp with ⟨c, h1, h2⟩ | ⟨c, h1, h2⟩
    · -- p1 = A ++ c, B1 = c ++ p2
      rcases List.eq_nil_or_concat c with rfl | ⟨c', e, rfl⟩
      · exact ⟨[], by simpa using h1.symm, by simpa using h2.symm⟩
      · exfalso
        have hl : p1.getLast? = some e := by rw [h1]; simp
        have heB : e ∈ B := by rw [hBsplit, h2]; simp
        exact hlast e hl (lt_of_le_of_lt (hB e heB) hval)
    · exact ⟨c, h1, h2⟩
  have hp1ge : ∀ e ∈ p1, value ≤ e.2 := by
    intro e he
    rcases List.eq_nil_or_concat p1 with rfl | ⟨q, l, rfl⟩
    · cases he
    · have hl := hlast l (by simp)
      have hl : value ≤ l.2 := le_of_not_gt hl
      have hsp : (q ++ [l]).Pairwise (fun a b => b.2 ≤ a.2) := by
        rw [hA2] at hs; simpa using (List.pairwise_append.1 hs).1
      simp only [List.concat_eq_append, List.mem_append, List.mem_singleton] at he
      rcases he with he | rfl
      · exact le_trans hl ((List.pairwise_append.1 hsp).2.2 e he l (by simp))
      · exact hl
  have hA2lt : ∀ e ∈ A2, e.2 < value := fun e he => hlt2 e (by rw [hp2]; simp [he])
  -- the new sorted part
  set A' := p1 ++ (id, value) :: A2 with hA'
  set B' := B1 ++ B2 with hB'
  have hvec : p1 ++ (id, value) :: (p2 ++ (B2 ++ L)) = A' ++ B' ++ L := by
    rw [hA', hB', hp2]; simp
  have hcount : (A' ++ B').length = p.voterCount := by
    rw [← hc, hA', hB', hA2, hBsplit]; simp; omega
  have hA'gt : ∀ e ∈ A', p.granted < e.2 := by
    intro e he
    rw [hA'] at he
    rcases List.mem_append.1 he with he | he
    · exact hA e (by rw [hA2]; simp [he])
    · rcases List.mem_cons.1 he with rfl | he
      · exact hval
      · exact hA e (by rw [hA2]; simp [he])
  have hB'le : ∀ e ∈ B', e.2 ≤ p.granted := by
    intro e he
    apply hB; rw [hBsplit]
    rw [hB'] at he
    rcases List.mem_append.1 he with he | he <;> simp [he]
  have hsA : A'.Pairwise (fun a b => b.2 ≤ a.2) := by
    rw [hA2] at hs
    obtain ⟨s1, s2, s3⟩ := List.pairwise_append.1 hs
    rw [hA']
    refine List.pairwise_append.2 ⟨s1, List.pairwise_cons.2 ⟨fun e he => le_of_lt (hA2lt e he), s2⟩, ?_⟩
    intro e he f hf
    rcases List.mem_cons.1 hf with rfl | hf
    · exact hp1ge e he
    · exact s3 e he f hf
  have hperm : (A' ++ B' ++ L).Perm (p.vector.set idx (id, value)) := by
    rw [← hvec, hset]
    rw [hp]
    have : p1 ++ p2 ++ (id, value) :: (B2 ++ L) = p1 ++ (p2 ++ (id, value) :: (B2 ++ L)) := by simp
    rw [this]
    exact List.Perm.append_left _ List.perm_middle.symm
  have hidsPerm : (ids (A' ++ B' ++ L)).Perm (ids p.vector) := by
    have h1 : (ids (A' ++ B' ++ L)).Perm (ids (p.vector.set idx (id, value))) := hperm.map _
    have h2 : ids (p.vector.set idx (id, value)) = ids p.vector := by
      unfold ids
      rw [List.map_set]
      apply List.ext_getElem?
      intro k
      rw [List.getElem?_set]
      split
      · rename_i hk
        subst hk
        split
        · rw [List.getElem?_map, hidx]; rfl
        · rename_i hk2
          rw [List.getElem?_eq_none (by simpa using hk2)]
      · rfl
    rw [h2] at h1; exact h1
  have hnodup' : (ids (A' ++ B' ++ L)).Nodup := hidsPerm.nodup_iff.2 hok.nodup
  have hnodupA : (ids A').Nodup := by
    rw [ids_append, ids_append] at hnodup'
    exact (List.nodup_append.1 (List.nodup_append.1 hnodup').1).1
  -- prefixes before the insertion point are no quorum
  have hpre : ∀ k, k < p1.length → isQuorum p.configs (ids (A'.take (k + 1))) = false := by
    intro k hk
    by_contra hq
    have hq : isQuorum p.configs (ids (A'.take (k + 1))) = true := by simpa using hq
    have htk : A'.take (k + 1) = A.take (k + 1) := by
      rw [hA', hA2, List.take_append_of_le_length (by omega), List.take_append_of_le_length (by omega)]
    rw [htk] at hq
    have hkA : k < A.length := by rw [hA2]; simp; omega
    have hmax := hok.maximal (A[k]).2 (hA _ (List.getElem_mem hkA))
    rw [reached_eq hv hc hB (hA _ (List.getElem_mem hkA))] at hmax
    have : isQuorum p.configs (ids (A.filter fun e => decide ((A[k]).2 ≤ e.2))) = true := by
      simp only [isQuorum, List.all_eq_true] at hq ⊢
      intro c hcm
      refine majority_mono ?_ ?_ (hq c hcm)
      · have : (ids (A.take (k+1))).Sublist (ids A') := by
          rw [← htk]; exact (List.take_sublist _ _).map _
        exact this.nodup hnodupA
      · intro x hx
        simp only [ids, List.mem_map] at hx ⊢
        obtain ⟨e, he, rfl⟩ := hx
        refine ⟨e, ?_, rfl⟩
        rw [List.mem_filter]
        refine ⟨List.mem_of_mem_take he, ?_⟩
        obtain ⟨m, hm1, rfl⟩ := List.mem_take_iff_getElem.1 he
        simp only [decide_eq_true_eq]
        by_cases hmk : m = k
        · subst hmk; exact le_refl _
        · exact List.pairwise_iff_getElem.1 hs m k (by omega) hkA (by omega)
    rw [this] at hmax; cases hmax
  have hni : p1.length ≤ A'.length := by rw [hA']; simp
  have hscan := scan_spec p.configs p.granted A' B' L hA'gt hB'le p1.length hni
  rw [hcount] at hscan
  intro p'
  have hp'v : p'.vector = A' ++ B' ++ L := hvec
  have hp'g : p'.granted = scan p.configs p.granted p.voterCount (A' ++ B' ++ L) p1.length := by
    show scan _ _ _ _ _ = _; rw [hvec]
  have hp'c : p'.configs = p.configs := rfl
  have hp'n : p'.voterCount = p.voterCount := rfl
  refine ⟨?_, ?_, ?_, ?_, ?_⟩
  · -- Ok
    rcases hscan with ⟨j, hj, hij, hr, hq, hnq⟩ | ⟨hr, hnq⟩
    · have hg : p'.granted = (A'[j]).2 := by rw [hp'g, hr]
      have hgg : p.granted < p'.granted := by rw [hg]; exact hA'gt _ (List.getElem_mem hj)
      -- split A' at the new granted value
      have hsplit : A' = A'.filter (fun e => decide (p'.granted < e.2)) ++
          A'.filter (fun e => !decide (p'.granted < e.2)) := by
        clear_value A'
        clear hA' hnq hq hr hg hj hij hni hpre hnodupA hnodup' hidsPerm hperm hcount hvec hp'v hp'g hA'gt
        generalize p'.granted = g
        induction A' with
        | nil => simp
        | cons a l ih =>
          have hs' := List.pairwise_cons.1 hsA
          by_cases ha : g < a.2
          · rw [List.filter_cons_of_pos (by simpa using ha), List.filter_cons_of_neg (by simpa using ha),
              List.cons_append, ← ih hs'.2]
          · have hall : ∀ e ∈ l, ¬ g < e.2 := fun e he hlt => ha (lt_of_lt_of_le hlt (hs'.1 e he))
            have hf : (a :: l).filter (fun e => decide (g < e.2)) = [] := by
              rw [List.filter_eq_nil_iff]
              intro e he
              rcases List.mem_cons.1 he with rfl | he
              · simpa using ha
              · simpa using hall e he
            have hf2 : (a :: l).filter (fun e => !decide (g < e.2)) = a :: l := by
              rw [List.filter_eq_self]
              intro e he
              rcases List.mem_cons.1 he with rfl | he
              · simpa using ha
              · simpa using hall e he
            rw [hf, hf2]; rfl
      have hB'' : ∀ e ∈ A'.filter (fun e => !decide (p'.granted < e.2)) ++ B', e.2 ≤ p'.granted := by
        intro e he
        rcases List.mem_append.1 he with he | he
        · simpa using (List.mem_filter.1 he).2
        · exact le_trans (hB'le e he) (le_of_lt hgg)
      refine ⟨⟨A'.filter (fun e => decide (p'.granted < e.2)), A'.filter (fun e => !decide (p'.granted < e.2)) ++ B', L, ?_, ?_, ?_, ?_, hB''⟩, ?_, ?_, hok.nonempty⟩
      · rw [hp'v]; conv => lhs; rw [hsplit]
        simp
      · rw [hp'n, ← hcount]; conv => rhs; rw [hsplit]
        simp
      · intro e he; simpa using (List.mem_filter.1 he).2
      · exact hsA.filter _
      · rw [hp'v]; exact hnodup'
      · intro y hy
        have hgy : p.granted < y := lt_trans hgg hy
        have hr' : p'.reached y = ids (A'.filter fun e => decide (y ≤ e.2)) := by
          unfold reached ids
          rw [hp'v, hp'n, ← hcount, List.take_left' rfl, List.filter_append]
          have : B'.filter (fun e => decide (y ≤ e.2)) = [] := by
            rw [List.filter_eq_nil_iff]
            intro e he
            simp only [decide_eq_true_eq, not_le]
            exact lt_of_le_of_lt (hB'le e he) hgy
          rw [this]; simp
        rw [hr', hp'c]
        by_contra hqy
        have hqy : isQuorum p.configs (ids (A'.filter fun e => decide (y ≤ e.2))) = true := by simpa using hqy
        have hsub := filter_ge_prefix hsA (y := y) (j := j) (fun h => by rw [← hg]; exact hy)
        have hqj : isQuorum p.configs (ids (A'.take j)) = true := by
          simp only [isQuorum, List.all_eq_true] at hqy ⊢
          intro c hcm
          refine majority_mono ?_ ?_ (hqy c hcm)
          · exact ((List.filter_sublist (l := A')).map _).nodup hnodupA
          · intro x hx
            simp only [ids, List.mem_map] at hx ⊢
            obtain ⟨e, he, rfl⟩ := hx
            exact ⟨e, hsub e he, rfl⟩
        cases j with
        | zero =>
          obtain ⟨c, cs, hcs⟩ := List.exists_cons_of_ne_nil hok.nonempty
          rw [hcs] at hqj
          simp [isQuorum, ids, isMajority, majorityLoop] at hqj
        | succ j' =>
          have : isQuorum p.configs (ids (A'.take (j' + 1))) = false := by
            by_cases h : j' < p1.length
            · exact hpre j' h
            · exact hnq j' (by omega) (by omega)
          rw [this] at hqj; cases hqj
    · have hg : p'.granted = p.granted := by rw [hp'g, hr]
      refine ⟨⟨A', B', L, hp'v, hcount, ?_, hsA, ?_⟩, ?_, ?_, hok.nonempty⟩
      · rw [hg]; exact hA'gt
      · rw [hg]; exact hB'le
      · rw [hp'v]; exact hnodup'
      · intro y hy
        rw [hg] at hy
        rw [reached_eq hp'v hcount (by rw [hg]; exact hB'le) (by rw [hg]; exact hy), hp'c]
        by_contra hqy
        have hqy : isQuorum p.configs (ids (A'.filter fun e => decide (y ≤ e.2))) = true := by simpa using hqy
        have hqj : isQuorum p.configs (ids A') = true := by
          simp only [isQuorum, List.all_eq_true] at hqy ⊢
          intro c hcm
          refine majority_mono ?_ ?_ (hqy c hcm)
          · exact ((List.filter_sublist (l := A')).map _).nodup hnodupA
          · intro x hx
            simp only [ids, List.mem_map] at hx ⊢
            obtain ⟨e, he, rfl⟩ := hx
            exact ⟨e, (List.mem_filter.1 he).1, rfl⟩
        have hne : 0 < A'.length := by rw [hA', List.length_append, List.length_cons]; omega
        have : isQuorum p.configs (ids (A'.take (A'.length - 1 + 1))) = false := by
          by_cases h : A'.length - 1 < p1.length
          · exact hpre _ h
          · exact hnq _ (by omega) (by omega)
        rw [show A'.length - 1 + 1 = A'.length by omega, List.take_length] at this
        rw [this] at hqj; cases hqj
  · rcases hscan with ⟨j, hj, hij, hr, hq, hnq⟩ | ⟨hr, hnq⟩
    · rw [hp'g, hr]; exact le_of_lt (hA'gt _ (List.getElem_mem hj))
    · rw [hp'g, hr]
  · intro hne
    rcases hscan with ⟨j, hj, hij, hr, hq, hnq⟩ | ⟨hr, hnq⟩
    · have hg : p'.granted = (A'[j]).2 := by rw [hp'g, hr]
      rw [hp'c]
      simp only [isQuorum, List.all_eq_true] at hq ⊢
      intro c hcm
      refine majority_mono ?_ ?_ (hq c hcm)
      · exact ((List.take_sublist _ _).map _).nodup hnodupA
      · intro x hx
        simp only [ids, List.mem_map] at hx
        obtain ⟨e, he, rfl⟩ := hx
        unfold reached
        rw [List.mem_map]
        refine ⟨e, ?_, rfl⟩
        rw [List.mem_filter, hp'v, hp'n, ← hcount, List.take_left' rfl]
        refine ⟨by simp [List.mem_of_mem_take he], ?_⟩
        obtain ⟨m, hm1, rfl⟩ := List.mem_take_iff_getElem.1 he
        simp only [decide_eq_true_eq]
        rw [hg]
        by_cases hmj : m = j
        · subst hmj; exact le_refl _
        · exact List.pairwise_iff_getElem.1 hsA m j (by omega) hj (by omega)
    · exact absurd (show p'.granted = p.granted by rw [hp'g, hr]) hne
  · rw [hvec]; exact hperm
  · rw [hvec, ← hcount, List.drop_left' rfl, hcount, ← hc, hv, List.drop_left' rfl]

end VecProgress
end Openraft
