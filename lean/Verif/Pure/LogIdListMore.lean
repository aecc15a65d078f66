import Verif.Pure.LogIdListLemmas
import Mathlib.Data.List.Chain
import Mathlib.Data.List.TakeDrop

/-!
# `LogIdList`: `extend`, compactness and loading
-/

set_option autoImplicit false

namespace Openraft
namespace LogIdList

/-- `new` continues a list at index `n`: consecutive indexes. -/
def ConsecutiveFrom (n : Nat) (new : List LogId) : Prop := ∀ i (h : i < new.length), (new[i]).index = n + i

theorem ConsecutiveFrom.tail {n : Nat} {x : LogId} {new : List LogId} (h : ConsecutiveFrom n (x :: new)) :
    x.index = n ∧ ConsecutiveFrom (n + 1) new := by
  refine ⟨h 0 (by simp), ?_⟩
  intro i hi
  have := h (i + 1) (by simp; omega)
  simp at this; omega

theorem consecutive_same_leader {new : List LogId} {x : LogId} {n : Nat} (hc : ConsecutiveFrom n (x :: new))
    (hl : ∀ y ∈ new, y.leaderId = x.leaderId) : x :: new = fill x (n + (new.length + 1)) := by
  have hx := hc.tail.1
  apply List.ext_getElem
  · simp [fill]; omega
  · intro i h1 h2
    have hi := hc i h1
    simp only [fill, List.getElem_map, List.getElem_range']
    have hli : ((x :: new)[i]).leaderId = x.leaderId := by
      cases i with
      | zero => rfl
      | succ i => exact hl _ (by simp)
    rw [LogId.ext_iff']
    exact ⟨hli, by rw [hi]; simp; omega⟩

theorem expand_extendFromSameLeader {ks : LogIdList} {new : List LogId} (hs : SortedIdx ks)
    (hc : ks ≠ [] → ConsecutiveFrom (nextIndex ks.getLast?) new)
    (hc' : ∀ x, new.head? = some x → ConsecutiveFrom x.index new)
    (hl : ∀ x ∈ new, ∀ y ∈ new, x.leaderId = y.leaderId) :
    ∃ ks', extendFromSameLeader ks new = some ks' ∧ expand ks' = expand ks ++ new ∧ SortedIdx ks' := by
  cases new with
  | nil => exact ⟨ks, by simp [extendFromSameLeader], by simp, hs⟩
  | cons first rest =>
    unfold extendFromSameLeader
    obtain ⟨last, hlast⟩ : ∃ last, (first :: rest).getLast? = some last := by
      rw [List.getLast?_cons]; exact ⟨_, rfl⟩
    rw [hlast]
    simp only [List.head?_cons]
    have hm : last ∈ first :: rest := List.mem_of_getLast? hlast
    rw [if_pos (hl last hm first (by simp))]
    have hx : ks = [] ∨ first.index = nextIndex ks.getLast? := by
      by_cases h : ks = []
      · exact Or.inl h
      · exact Or.inr (hc h).tail.1
    obtain ⟨a1, a2, a3⟩ := expand_append (x := first) hs hx
    have hfill := consecutive_same_leader (hc' first rfl) (fun y hy => hl y (List.mem_cons_of_mem _ hy) first (by simp))
    have hli : last.index = first.index + rest.length := by
      have h1 := hc' first rfl rest.length (by simp)
      rw [List.getLast?_eq_getElem?] at hlast
      simp only [List.length_cons, Nat.add_sub_cancel] at hlast
      obtain ⟨hlt, he⟩ := List.getElem?_eq_some_iff.1 hlast
      rw [he] at h1; exact h1
    by_cases hne : last = first
    · rw [if_neg (by simpa using hne)]
      refine ⟨_, rfl, ?_, a2⟩
      rw [a1]
      have : rest = [] := by
        rw [hne] at hli
        exact List.length_eq_zero_iff.1 (by omega)
      rw [this]
    · rw [if_pos hne]
      have hlen : 0 < rest.length := by
        rcases rest with _ | ⟨r, rs⟩
        · simp at hlast; exact absurd hlast.symm hne
        · simp
      have hlt : ∀ k ∈ append ks first, k.index < last.index := by
        intro k hk
        have := le_nextIndex_last a2 k hk
        rw [a3] at this; simp at this; omega
      obtain ⟨b1, b2, _⟩ := expand_append_gap a2 hlt
      refine ⟨_, rfl, ?_, b2⟩
      rw [b1]
      rcases List.eq_nil_or_concat (append ks first) with hnil | ⟨p, l, hp⟩
      · rw [hnil] at a3; cases a3
      · rw [List.concat_eq_append] at hp
        have hl1 : l = first := by rw [hp] at a3; simpa using a3
        subst hl1
        have e1 : seg (append ks l) last.index = expand (append ks l) ++ fill ⟨l.leaderId, l.index + 1⟩ last.index := by
          unfold expand
          rw [a3, hp, seg_extend (n := l.index + 1) (m := last.index) (by omega) (by omega)]
          rfl
        rw [e1, a1]
        have e2 : l :: rest = [l] ++ (fill ⟨l.leaderId, l.index + 1⟩ last.index ++ [last]) := by
          rw [hfill]
          have hlastf : [last] = fill last (last.index + 1) := (fill_succ last).symm
          have e3 := fill_append (a := ⟨l.leaderId, l.index + 1⟩) (b := last) (n := last.index + 1)
            (hl l (by simp) last hm) (by simp; omega) (by omega)
          have e4 := fill_append (a := l) (b := ⟨l.leaderId, l.index + 1⟩) (n := last.index + 1) rfl (by simp) (by simp; omega)
          simp only [fill_succ l] at e4
          rw [hlastf, e3, e4, hli]
          congr 1
        rw [e2]; simp

/-- Invariant of the `extend` loop: the ids `done` are covered when extended with the last leader. -/
theorem extendLoop_spec {new : List LogId} : ∀ {ks : LogIdList} {prev : Option LeaderId} {n : Nat} {S : List LogId},
    SortedIdx ks → (∀ k ∈ ks, k.index < n) → (ks = [] → S = []) → seg ks n = S → prev = ks.getLast?.map (·.leaderId) →
    ConsecutiveFrom n new →
    SortedIdx (extendLoop ks prev new) ∧ (∀ k ∈ extendLoop ks prev new, k.index < n + new.length) ∧
      seg (extendLoop ks prev new) (n + new.length) = S ++ new ∧
      (extendLoop ks prev new).getLast?.map (·.leaderId) = (match new.getLast? with
        | some l => some l.leaderId
        | none => prev) := by
  induction new with
  | nil => intro ks prev n S hs hlt _ hseg hprev _; exact ⟨hs, by simpa [extendLoop] using hlt, by simpa [extendLoop] using hseg, by simp [extendLoop, hprev]⟩
  | cons x xs ih =>
    intro ks prev n S hs hlt hnil hseg hprev hc
    obtain ⟨hx, hc'⟩ := hc.tail
    have hlen : n + (x :: xs).length = n + 1 + xs.length := by simp; omega
    have hlastLeader : ∀ p : Option LeaderId, p = some x.leaderId →
        (match xs.getLast? with | some l => some l.leaderId | none => p) =
        (match (x :: xs).getLast? with | some l => some l.leaderId | none => prev) := by
      intro p hp
      cases xs with
      | nil => simp [hp]
      | cons y ys => simp [List.getLast?_cons]
    unfold extendLoop
    by_cases hp : prev = some x.leaderId
    · rw [if_neg (by simpa using hp)]
      -- covered by the last leader
      rw [hprev] at hp
      rcases List.eq_nil_or_concat ks with hk | ⟨p, l, hk⟩
      · rw [hk] at hp; cases hp
      · rw [List.concat_eq_append] at hk
        have hl : l.leaderId = x.leaderId := by rw [hk] at hp; simpa using hp
        have hln : l.index < n := hlt l (by rw [hk]; simp)
        have hseg' : seg ks (n + 1) = S ++ [x] := by
          rw [hk, seg_extend (n := n) (m := n + 1) (by omega) (by omega), ← hk, hseg]
          congr 1
          have := fill_succ ⟨l.leaderId, n⟩
          simp only at this
          rw [this, hl, ← hx]
        have := ih (ks := ks) (prev := prev) (n := n + 1) (S := S ++ [x]) hs
          (fun k hk => by have := hlt k hk; omega) (fun h => by rw [h] at hk; simp at hk) hseg' hprev hc'
        rw [hlen]
        refine ⟨this.1, this.2.1, by rw [this.2.2.1]; simp, ?_⟩
        rw [this.2.2.2]
        exact hlastLeader _ (by rw [hprev]; exact hp)
    · rw [if_pos hp]
      have hlt' : ∀ k ∈ ks, k.index < x.index := fun k hk => by rw [hx]; exact hlt k hk
      obtain ⟨a1, a2, a3⟩ := expand_append_gap hs hlt'
      have hseg' : seg (append ks x) (n + 1) = S ++ [x] := by
        have : expand (append ks x) = seg (append ks x) (n + 1) := by
          unfold expand; rw [a3]; simp [hx]
        rw [← this, a1, hx, hseg]
      have hlt2 : ∀ k ∈ append ks x, k.index < n + 1 := by
        intro k hk
        have := le_nextIndex_last a2 k hk
        rw [a3] at this; simp at this; omega
      have := ih (ks := append ks x) (prev := some x.leaderId) (n := n + 1) (S := S ++ [x]) a2 hlt2
        (fun h => by rw [h] at a3; cases a3) hseg' (by rw [a3]; rfl) hc'
      rw [hlen]
      refine ⟨this.1, this.2.1, by rw [this.2.2.1]; simp, ?_⟩
      rw [this.2.2.2]
      exact hlastLeader _ rfl

theorem expand_extend {ks : LogIdList} {new : List LogId} (hs : SortedIdx ks)
    (hc : ks ≠ [] → ConsecutiveFrom (nextIndex ks.getLast?) new)
    (hc' : ∀ x, new.head? = some x → ConsecutiveFrom x.index new) :
    expand (extend ks new) = expand ks ++ new ∧ SortedIdx (extend ks new) := by
  cases hnew : new with
  | nil => simp [extend, extendLoop, hs]
  | cons first rest =>
    obtain ⟨last, hlast⟩ : ∃ last, (first :: rest).getLast? = some last := by
      rw [List.getLast?_cons]; exact ⟨_, rfl⟩
    -- the start index
    have hn : ∃ n, ConsecutiveFrom n new ∧ (∀ k ∈ ks, k.index < n) ∧ seg ks n = expand ks := by
      by_cases h : ks = []
      · refine ⟨first.index, hc' first (by rw [hnew]; rfl), by rw [h]; simp, by rw [h]; rfl⟩
      · exact ⟨nextIndex ks.getLast?, hc h, le_nextIndex_last hs, rfl⟩
    obtain ⟨n, hcn, hltn, hsegn⟩ := hn
    obtain ⟨r1, r2, r3, r4⟩ := extendLoop_spec hs hltn (fun h => by rw [h]; rfl) hsegn rfl hcn
    rw [← hnew]
    rw [← hnew] at hlast
    unfold extend
    simp only
    rw [hlast]
    simp only
    set K := extendLoop ks (ks.getLast?.map (·.leaderId)) new with hK
    have hli : last.index + 1 = n + new.length := by
      have hlen : 0 < new.length := by rw [hnew]; simp
      have h1 := hcn (new.length - 1) (by omega)
      rw [List.getLast?_eq_getElem?] at hlast
      obtain ⟨hlt, he⟩ := List.getElem?_eq_some_iff.1 hlast
      rw [he] at h1; omega
    rw [hlast] at r4
    rcases List.eq_nil_or_concat K with hk | ⟨p, l, hk⟩
    · rw [hk] at r4; cases r4
    · rw [List.concat_eq_append] at hk
      have hl : l.leaderId = last.leaderId := by rw [hk] at r4; simpa using r4
      have hlidx : l.index < n + new.length := r2 l (by rw [hk]; simp)
      by_cases hlk : K.getLast? = some last
      · rw [if_neg (by simpa using hlk)]
        refine ⟨?_, r1⟩
        have : expand K = seg K (n + new.length) := by
          unfold expand; rw [hlk]; simp [hli]
        rw [this, r3]
      · rw [if_pos hlk]
        have hlast2 : K.getLast? = some l := by rw [hk]; simp
        have hlt2 : ∀ k ∈ K, k.index < last.index := by
          intro k hkm
          have h1 := le_nextIndex_last r1 k hkm
          rw [hlast2] at h1; simp at h1
          have : l.index ≠ last.index := by
            intro h
            apply hlk; rw [hlast2]
            congr 1
            rw [LogId.ext_iff']; exact ⟨hl, h⟩
          omega
        obtain ⟨a1, a2, _⟩ := expand_append_gap r1 hlt2
        refine ⟨?_, a2⟩
        rw [a1, ← r3, ← hli, hk, seg_extend (n := last.index) (m := last.index + 1) (by
          have := hlt2 l (by rw [hk]; simp)
          omega) (by omega)]
        congr 1
        have := fill_succ ⟨l.leaderId, last.index⟩
        simp only at this
        rw [this, hl]

/-! ## Compactness -/

/-- Apart from the last one, adjacent keys are of different leaders. -/
def Compact (ks : LogIdList) : Prop := List.IsChain (fun a b => a.leaderId ≠ b.leaderId) ks.dropLast

theorem compact_append {ks : LogIdList} {x : LogId} (hc : Compact ks) : Compact (append ks x) := by
  have hpush : (ks.length = 0 ∨ ks.length = 1 ∨ List.IsChain (fun a b : LogId => a.leaderId ≠ b.leaderId) ks) →
      Compact (ks ++ [x]) := by
    intro h
    unfold Compact
    simp only [List.dropLast_concat]
    rcases h with h | h | h
    · rw [List.length_eq_zero_iff.1 h]; exact List.IsChain.nil
    · obtain ⟨a, rfl⟩ := List.length_eq_one_iff.1 h; exact List.IsChain.singleton _
    · exact h
  unfold append
  simp only
  split
  · rename_i h; exact hpush (Or.inl h)
  · split
    · rename_i h; exact hpush (Or.inr (Or.inl h))
    · rename_i h0 h1
      rcases List.eq_nil_or_concat ks with rfl | ⟨p, b, hp⟩
      · simp at h0
      · rw [List.concat_eq_append] at hp
        split
        · -- replaced
          have : ks.set (ks.length - 1) x = p ++ [x] := by rw [hp]; simp
          rw [this]; unfold Compact; rw [List.dropLast_concat]
          unfold Compact at hc; rw [hp, List.dropLast_concat] at hc; exact hc
        · rename_i hne
          refine hpush (Or.inr (Or.inr ?_))
          rcases List.eq_nil_or_concat p with rfl | ⟨q, a, hq⟩
          · rw [hp]; exact List.IsChain.singleton _
          · rw [List.concat_eq_append] at hq
            unfold Compact at hc; rw [hp, List.dropLast_concat] at hc
            have hks : ks = q ++ [a, b] := by rw [hp, hq]; simp
            have hlen : ks.length = q.length + 2 := by rw [hks]; simp
            have e1 : ks[ks.length - 2]? = some a := by rw [hlen, hks]; simp
            have e2 : ks[ks.length - 1]? = some b := by
              rw [hlen, hks, show q.length + 2 - 1 = q.length + 1 by omega]; simp
            rw [e1, e2] at hne
            rw [hp, List.isChain_append]
            refine ⟨hc, List.IsChain.singleton _, ?_⟩
            intro y hy z hz
            rw [hq] at hy; simp at hy hz
            subst hy; subst hz
            intro h; exact hne (by simp [h])

theorem compact_take {ks : LogIdList} (hc : Compact ks) (i : Nat) : Compact (ks.take i) := by
  unfold Compact at *
  rw [List.dropLast_take_eq_take_dropLast]
  exact hc.take _

theorem compact_truncate {ks : LogIdList} (hc : Compact ks) (at_ : Nat) : Compact (truncate ks at_) := by
  have hcut : ∀ i, Compact (match (ks.take i).getLast? with
    | some last => if last.index < at_ - 1 then append (ks.take i) ⟨last.leaderId, at_ - 1⟩ else ks.take i
    | none => ks.take i) := by
    intro i
    split
    · split
      · exact compact_append (compact_take hc i)
      · exact compact_take hc i
    · exact compact_take hc i
  unfold truncate
  simp only
  split
  · exact hcut _
  · split
    · exact hc
    · exact hcut _

theorem compact_drop {ks : LogIdList} (hc : Compact ks) (i : Nat) : Compact (ks.drop i) := by
  unfold Compact at *
  rw [List.dropLast_drop_eq_drop_dropLast]
  exact hc.drop _

theorem compact_purge {ks : LogIdList} (hc : Compact ks) (upto : LogId) : Compact (purge ks upto) := by
  unfold purge
  split
  · unfold Compact; exact List.IsChain.nil
  · split
    · exact hc
    · split
      · exact hc
      · split
        · split
          · exact compact_drop hc _
          · exact hc
        · rename_i i _
          have := compact_drop hc (i - 1)
          split
          · exact List.IsChain.nil
          · rename_i k r heq
            rw [heq] at this
            unfold Compact at *
            cases r with
            | nil => exact List.IsChain.nil
            | cons b r =>
              simp only [List.dropLast_cons_cons] at *
              cases hr : (b :: r).dropLast with
              | nil => exact List.IsChain.singleton _
              | cons c r' =>
                rw [hr] at this
                rw [List.isChain_cons_cons] at this ⊢
                exact this

theorem compact_extendFromSameLeader {ks ks' : LogIdList} {new : List LogId} (hc : Compact ks)
    (h : extendFromSameLeader ks new = some ks') : Compact ks' := by
  unfold extendFromSameLeader at h
  split at h
  · simp only at h
    split at h
    · split at h
      · rw [← Option.some.inj h]; exact compact_append (compact_append hc)
      · rw [← Option.some.inj h]; exact compact_append hc
    · cases h
  · rw [← Option.some.inj h]; exact hc

theorem compact_extend {ks : LogIdList} {new : List LogId} (hc : Compact ks) : Compact (extend ks new) := by
  have hloop : ∀ (new : List LogId) (ks : LogIdList) (p : Option LeaderId), Compact ks → Compact (extendLoop ks p new) := by
    intro new
    induction new with
    | nil => intro ks p h; exact h
    | cons x xs ih =>
      intro ks p h
      unfold extendLoop
      split
      · exact ih _ _ (compact_append h)
      · exact ih _ _ h
  unfold extend
  simp only
  split
  · split
    · exact compact_append (hloop _ _ _ hc)
    · exact hloop _ _ _ hc
  · exact hloop _ _ _ hc

end LogIdList
end Openraft
