import Verif.Pure.LogIdList
import Mathlib.Data.List.Induction

/-!
# Lemmas about `LogIdList`: what the compressed list stands for
-/

set_option autoImplicit false

namespace Openraft
namespace LogIdList

/-- log ids of `a`'s leader from `a.index` up to but excluding `n` -/
def fill (a : LogId) (n : Nat) : List LogId := (List.range' a.index (n - a.index)).map fun i => ⟨a.leaderId, i⟩

/-- the log ids covered by the keys, below index `n` -/
def seg : LogIdList → Nat → List LogId
  | [], _ => []
  | [a], n => fill a n
  | a :: b :: r, n => fill a b.index ++ seg (b :: r) n

/-- The log ids a compressed list stands for. -/
def expand (ks : LogIdList) : List LogId := seg ks (nextIndex ks.getLast?)

/-- the indexes strictly increase -/
def SortedIdx (ks : LogIdList) : Prop := ks.Pairwise (fun a b => a.index < b.index)

theorem fill_succ (a : LogId) : fill a (a.index + 1) = [a] := by
  simp [fill, List.range']

theorem fill_self (a : LogId) : fill a a.index = [] := by simp [fill]

theorem mem_fill {a x : LogId} {n : Nat} : x ∈ fill a n ↔ x.leaderId = a.leaderId ∧ a.index ≤ x.index ∧ x.index < n := by
  simp only [fill, List.mem_map, List.mem_range'_1]
  constructor
  · rintro ⟨i, hi, rfl⟩; simp; omega
  · rintro ⟨h1, h2, h3⟩
    exact ⟨x.index, by omega, by cases x; simp_all⟩

theorem fill_append {a b : LogId} {n : Nat} (hl : a.leaderId = b.leaderId) (h1 : a.index ≤ b.index) (h2 : b.index ≤ n) :
    fill a b.index ++ fill b n = fill a n := by
  unfold fill
  rw [hl, ← List.map_append]
  congr 1
  have : n - a.index = (b.index - a.index) + (n - b.index) := by omega
  rw [this, ← List.range'_append_1, show a.index + (b.index - a.index) = b.index by omega]

theorem seg_cons_cons (a b : LogId) (r : LogIdList) (n : Nat) :
    seg (a :: b :: r) n = fill a b.index ++ seg (b :: r) n := rfl

theorem seg_append (pre : LogIdList) (b : LogId) (post : LogIdList) (n : Nat) :
    seg (pre ++ b :: post) n = seg pre b.index ++ seg (b :: post) n := by
  induction pre with
  | nil => rfl
  | cons a pre ih =>
    cases pre with
    | nil => rfl
    | cons c pre =>
      simp only [List.cons_append, seg_cons_cons, List.append_assoc]
      simp only [List.cons_append] at ih
      rw [ih]

theorem expand_snoc (ks : LogIdList) (x : LogId) : expand (ks ++ [x]) = seg ks x.index ++ [x] := by
  unfold expand
  rw [seg_append]
  simp [seg, fill_succ]

theorem mem_seg {ks : LogIdList} {n : Nat} {x : LogId} (hs : SortedIdx ks) (hn : ∀ k ∈ ks, k.index ≤ n) :
    x ∈ seg ks n → x.index < n ∧ (∃ k ∈ ks, k.leaderId = x.leaderId ∧ k.index ≤ x.index) ∧
      (∀ k, ks.head? = some k → k.index ≤ x.index) := by
  induction ks with
  | nil => simp [seg]
  | cons a r ih =>
    have hs' := List.pairwise_cons.1 hs
    cases r with
    | nil =>
      intro h
      rw [seg, mem_fill] at h
      refine ⟨h.2.2, ⟨a, by simp, h.1.symm, h.2.1⟩, ?_⟩
      intro k hk; simp at hk; subst hk; exact h.2.1
    | cons b r =>
      intro h
      rw [seg_cons_cons, List.mem_append] at h
      have hab := hs'.1 b (by simp)
      rcases h with h | h
      · rw [mem_fill] at h
        have := hn b (by simp)
        refine ⟨by omega, ⟨a, by simp, h.1.symm, h.2.1⟩, ?_⟩
        intro k hk; simp at hk; subst hk; exact h.2.1
      · obtain ⟨h1, ⟨k, hk, h2⟩, h3⟩ := ih hs'.2 (fun k hk => hn k (List.mem_cons_of_mem _ hk)) h
        refine ⟨h1, ⟨k, List.mem_cons_of_mem _ hk, h2⟩, ?_⟩
        intro k hk; simp at hk; subst hk
        have := h3 b rfl
        omega

/-- indexes of the covered ids are consecutive -/
theorem seg_map_index {ks : LogIdList} {n : Nat} {a : LogId} (hs : SortedIdx (a :: ks)) (hn : ∀ k ∈ a :: ks, k.index ≤ n) :
    (seg (a :: ks) n).map (·.index) = List.range' a.index (n - a.index) := by
  induction ks generalizing a with
  | nil => simp [seg, fill, List.map_map, Function.comp_def]
  | cons b r ih =>
    have hs' := List.pairwise_cons.1 hs
    have hab := hs'.1 b (by simp)
    rw [seg_cons_cons, List.map_append, ih hs'.2 (fun k hk => hn k (List.mem_cons_of_mem _ hk))]
    simp only [fill, List.map_map, Function.comp_def, List.map_id']
    have hbn := hn b (by simp)
    have : n - a.index = (b.index - a.index) + (n - b.index) := by omega
    rw [this, ← List.range'_append_1, show a.index + (b.index - a.index) = b.index by omega]

theorem le_nextIndex_last {ks : LogIdList} (hs : SortedIdx ks) : ∀ k ∈ ks, k.index < nextIndex ks.getLast? := by
  intro k hk
  rcases List.eq_nil_or_concat ks with rfl | ⟨p, l, rfl⟩
  · cases hk
  · simp only [List.concat_eq_append, List.getLast?_append, List.getLast?_singleton, Option.some_or, nextIndex_some]
    simp only [List.concat_eq_append, List.mem_append, List.mem_singleton] at hk
    rcases hk with hk | rfl
    · rw [List.concat_eq_append] at hs
      have := (List.pairwise_append.1 hs).2.2 k hk l (by simp)
      omega
    · omega

/-- `append` of a greater index: the ids below it are covered by the old last leader. -/
theorem expand_append_gap {ks : LogIdList} {x : LogId} (hs : SortedIdx ks) (hlt : ∀ k ∈ ks, k.index < x.index) :
    expand (append ks x) = seg ks x.index ++ [x] ∧ SortedIdx (append ks x) ∧ (append ks x).getLast? = some x := by
  have hpush : expand (ks ++ [x]) = seg ks x.index ++ [x] ∧ SortedIdx (ks ++ [x]) ∧ (ks ++ [x]).getLast? = some x :=
    ⟨expand_snoc ks x, List.pairwise_append.2 ⟨hs, by simp, fun a ha b hb => by simp at hb; subst hb; exact hlt a ha⟩,
      by simp⟩
  unfold append
  simp only
  split
  · exact hpush
  · split
    · exact hpush
    · split
      · rename_i h0 h1 h2
        rcases List.eq_nil_or_concat ks with rfl | ⟨p, b, hp⟩
        · simp at h0
        · rcases List.eq_nil_or_concat p with rfl | ⟨q, a, hq⟩
          · subst hp; simp at h1
          · have hks : ks = q ++ [a, b] := by rw [hp, hq]; simp
            have hlen : ks.length = q.length + 2 := by rw [hks]; simp
            have e1 : ks[ks.length - 2]? = some a := by rw [hlen, hks]; simp
            have e2 : ks[ks.length - 1]? = some b := by
              rw [hlen, hks, show q.length + 2 - 1 = q.length + 1 by omega]; simp
            rw [e1, e2] at h2
            have hl : a.leaderId = b.leaderId := by simpa using h2
            have hset : ks.set (ks.length - 1) x = (q ++ [a]) ++ [x] := by
              rw [hlen, hks, show q.length + 2 - 1 = q.length + 1 by omega]; simp
            have hs2 : SortedIdx (q ++ [a, b]) := hks ▸ hs
            have hab : a.index < b.index := by
              have := (List.pairwise_append.1 hs2).2.1
              simpa using this
            have hbx : b.index < x.index := hlt b (by rw [hks]; simp)
            rw [hset]
            refine ⟨?_, ?_, by simp⟩
            · rw [expand_snoc, hks, show q ++ [a, b] = (q ++ [a]) ++ b :: [] by simp, seg_append (q ++ [a]) b []]
              rw [seg_append, seg_append]
              simp only [seg]
              rw [List.append_assoc (seg q a.index) (fill a b.index), fill_append hl (by omega) (by omega)]
            · refine List.pairwise_append.2 ⟨?_, by simp, ?_⟩
              · exact hs2.sublist (by simp)
              · intro c hc d hd
                simp at hd; subst hd
                exact hlt c (by rw [hks]; simp at hc ⊢; tauto)
      · exact hpush

/-- `append` of the next index extends the covered ids by one. -/
theorem expand_append {ks : LogIdList} {x : LogId} (hs : SortedIdx ks)
    (hx : ks = [] ∨ x.index = nextIndex ks.getLast?) :
    expand (append ks x) = expand ks ++ [x] ∧ SortedIdx (append ks x) ∧ (append ks x).getLast? = some x := by
  have hlt : ∀ k ∈ ks, k.index < x.index := by
    intro k hk
    rcases hx with rfl | hx
    · cases hk
    · rw [hx]; exact le_nextIndex_last hs k hk
  have h := expand_append_gap hs hlt
  refine ⟨?_, h.2⟩
  rw [h.1]
  rcases hx with rfl | hx
  · simp [seg, expand]
  · rw [hx]; rfl

theorem seg_eq_nil {n : Nat} : ∀ {ks : LogIdList}, SortedIdx ks → (∀ k ∈ ks, n ≤ k.index) → ∀ m ≤ n, seg ks m = [] ∨ 2 ≤ ks.length
  | [], _, _, _, _ => Or.inl rfl
  | [a], _, h, m, hm => by
    left; have := h a (by simp); simp [seg, fill]; omega
  | _ :: _ :: _, _, _, _, _ => by right; simp

/-- The covered ids below `n ≥ last`, extended with the last leader, up to `m`. -/
theorem seg_extend {p : LogIdList} {b : LogId} {n m : Nat} (hb : b.index ≤ n) (hnm : n ≤ m) :
    seg (p ++ [b]) m = seg (p ++ [b]) n ++ fill ⟨b.leaderId, n⟩ m := by
  rw [seg_append, seg_append, List.append_assoc]
  congr 1
  simp only [seg]
  exact (fill_append (a := b) (b := ⟨b.leaderId, n⟩) rfl hb hnm).symm

theorem search_spec {ks : LogIdList} (hs : SortedIdx ks) (index : Nat) :
    ∃ pre post, ks = pre ++ post ∧ (∀ k ∈ pre, k.index < index) ∧ (∀ k ∈ post, index ≤ k.index) ∧
      search ks index = (match post with
        | k :: _ => if k.index = index then .ok pre.length else .error pre.length
        | [] => .error pre.length) := by
  refine ⟨ks.take (ks.findIdx fun k => index ≤ k.index), ks.drop (ks.findIdx fun k => index ≤ k.index),
    (List.take_append_drop _ _).symm, ?_, ?_, ?_⟩
  · intro k hk
    obtain ⟨i, hi, rfl⟩ := List.mem_take_iff_getElem.1 hk
    have := List.not_of_lt_findIdx (p := fun k : LogId => decide (index ≤ k.index)) (xs := ks) (i := i) (by omega)
    simpa using this
  · intro k hk
    by_cases hlt : ks.findIdx (fun k => index ≤ k.index) < ks.length
    · have h0 := List.findIdx_getElem (p := fun k : LogId => decide (index ≤ k.index)) (xs := ks) (w := hlt)
      obtain ⟨i, hi, rfl⟩ := List.getElem_of_mem hk
      rw [List.getElem_drop]
      simp only [decide_eq_true_eq] at h0
      by_cases hi0 : i = 0
      · subst hi0; simpa using h0
      · rw [List.length_drop] at hi
        have := List.pairwise_iff_getElem.1 hs (ks.findIdx fun k => index ≤ k.index)
          (ks.findIdx (fun k => index ≤ k.index) + i) hlt (by omega) (by omega)
        omega
    · rw [List.drop_eq_nil_of_le (by omega)] at hk; cases hk
  · unfold search
    simp only
    have hle : ks.findIdx (fun k => decide (index ≤ k.index)) ≤ ks.length := List.findIdx_le_length
    have hpl : (ks.take (ks.findIdx fun k => decide (index ≤ k.index))).length = ks.findIdx fun k => decide (index ≤ k.index) := by
      rw [List.length_take]; omega
    rw [hpl]
    by_cases hlt : ks.findIdx (fun k => decide (index ≤ k.index)) < ks.length
    · rw [List.getElem?_eq_getElem hlt, List.drop_eq_getElem_cons hlt]
    · rw [List.getElem?_eq_none (by omega), List.drop_eq_nil_of_le (by omega)]

theorem sorted_filter_take {pre post : LogIdList} (hs : SortedIdx (pre ++ post)) : SortedIdx pre ∧ SortedIdx post :=
  ⟨(List.pairwise_append.1 hs).1, (List.pairwise_append.1 hs).2.1⟩

/-- Covered ids below `at`, when `at` separates the keys. -/
theorem seg_filter_lt {pre post : LogIdList} {n at_ : Nat} (hs : SortedIdx (pre ++ post))
    (hn : ∀ k ∈ pre ++ post, k.index ≤ n) (hpre : ∀ k ∈ pre, k.index < at_) (hpost : ∀ k ∈ post, at_ ≤ k.index) :
    (seg (pre ++ post) n).filter (fun x => decide (x.index < at_)) = if post = [] then (seg pre n).filter (fun x => decide (x.index < at_)) else seg pre at_ := by
  cases post with
  | nil => simp
  | cons b post =>
    simp only [List.cons_ne_nil, if_false]
    rw [seg_append, List.filter_append]
    have hs2 := (List.pairwise_append.1 hs).2.1
    have h2 : (seg (b :: post) n).filter (fun x => decide (x.index < at_)) = [] := by
      rw [List.filter_eq_nil_iff]
      intro x hx
      have := (mem_seg hs2 (fun k hk => hn k (by simp at hk ⊢; tauto)) hx).2.2 b rfl
      have := hpost b (by simp)
      simp; omega
    rw [h2, List.append_nil]
    have hb := hpost b (by simp)
    rcases List.eq_nil_or_concat pre with rfl | ⟨p, l, hp⟩
    · simp [seg]
    · rw [List.concat_eq_append] at hp
      subst hp
      have hl := hpre l (by simp)
      rw [seg_extend (n := at_) (m := b.index) (by omega) hb, List.filter_append]
      have h3 : (fill ⟨l.leaderId, at_⟩ b.index).filter (fun x => decide (x.index < at_)) = [] := by
        rw [List.filter_eq_nil_iff]
        intro x hx
        rw [mem_fill] at hx
        have := hx.2.1
        simp at this ⊢; omega
      rw [h3, List.append_nil, List.filter_eq_self]
      intro x hx
      have hs1 := (List.pairwise_append.1 hs).1
      have := (mem_seg hs1 (fun k hk => Nat.le_of_lt (hpre k hk)) hx).1
      simpa using this

theorem expand_truncate {ks : LogIdList} (hs : SortedIdx ks) (at_ : Nat) :
    expand (truncate ks at_) = (expand ks).filter (fun x => decide (x.index < at_)) ∧ SortedIdx (truncate ks at_) := by
  obtain ⟨pre, post, hks, hpre, hpost, hsr⟩ := search_spec hs at_
  have hs' : SortedIdx (pre ++ post) := hks ▸ hs
  have hnk : ∀ k ∈ pre ++ post, k.index ≤ nextIndex ks.getLast? := by
    intro k hk; rw [← hks] at hk; exact Nat.le_of_lt (le_nextIndex_last hs k hk)
  have hspre := (List.pairwise_append.1 hs').1
  -- the cut at `pre.length`
  have hcut : post ≠ [] →
      (let ks1 := ks.take pre.length
       let r := match ks1.getLast? with
        | some last => if last.index < at_ - 1 then append ks1 ⟨last.leaderId, at_ - 1⟩ else ks1
        | none => ks1
       expand r = (expand ks).filter (fun x => decide (x.index < at_)) ∧ SortedIdx r) := by
    intro hne
    have htk : ks.take pre.length = pre := by rw [hks]; simp
    have hfil : (expand ks).filter (fun x => decide (x.index < at_)) = seg pre at_ := by
      unfold expand
      conv => lhs; rw [hks]
      rw [seg_filter_lt (by exact hs') (by rw [← hks]; rw [← hks] at hnk; exact hnk) hpre hpost, if_neg hne]
    simp only
    rw [htk, hfil]
    rcases List.eq_nil_or_concat pre with rfl | ⟨p, l, hp⟩
    · simp [seg, expand, SortedIdx]
    · rw [List.concat_eq_append] at hp
      have hl := hpre l (by rw [hp]; simp)
      have hlast : pre.getLast? = some l := by rw [hp]; simp
      rw [hlast]
      simp only
      split
      · rename_i hgap
        have hlt : ∀ k ∈ pre, k.index < at_ - 1 := by
          intro k hk
          have := le_nextIndex_last hspre k hk
          rw [hlast] at this; simp at this; omega
        obtain ⟨a1, a2, _⟩ := expand_append_gap (x := ⟨l.leaderId, at_ - 1⟩) hspre hlt
        refine ⟨?_, a2⟩
        rw [a1, hp, seg_extend (n := at_ - 1) (m := at_) (by omega) (by omega)]
        congr 1
        have := fill_succ ⟨l.leaderId, at_ - 1⟩
        simp only at this
        rw [show at_ - 1 + 1 = at_ by omega] at this
        exact this.symm
      · rename_i hgap
        refine ⟨?_, hspre⟩
        unfold expand
        rw [hlast]; simp only [nextIndex_some]
        rw [show l.index + 1 = at_ by omega]
  unfold truncate
  simp only
  rw [hsr]
  cases post with
  | nil =>
    simp only
    have hle : ks.length = pre.length := by rw [hks]; simp
    rw [if_pos hle.symm]
    refine ⟨?_, hs⟩
    rw [eq_comm, List.filter_eq_self]
    intro x hx
    have h1 := (mem_seg hs (fun k hk => Nat.le_of_lt (le_nextIndex_last hs k hk)) hx).1
    rcases List.eq_nil_or_concat ks with hnil | ⟨p, l, hp⟩
    · rw [hnil] at hx; simp [expand, seg] at hx
    · rw [hp] at h1; simp at h1
      have : l ∈ pre := by
        have : l ∈ ks := by rw [hp]; simp
        rw [hks] at this; simpa using this
      have := hpre l this
      simp; omega
  | cons b post =>
    simp only
    by_cases hb : b.index = at_
    · rw [if_pos hb]; exact hcut (by simp)
    · rw [if_neg hb]
      simp only
      rw [if_neg (by rw [hks]; simp)]
      exact hcut (by simp)

theorem expand_purge {ks : LogIdList} (hs : SortedIdx ks) (upto : LogId) :
    expand (purge ks upto) = (if upto.index ≥ nextIndex ks.getLast? then [upto]
      else (expand ks).filter (fun x => decide (upto.index ≤ x.index))) ∧ SortedIdx (purge ks upto) := by
  unfold purge
  by_cases h0 : upto.index ≥ nextIndex ks.getLast?
  · rw [if_pos h0, if_pos h0]
    exact ⟨by simp [expand, seg, fill_succ], by simp [SortedIdx]⟩
  · rw [if_neg h0, if_neg h0]
    cases ks with
    | nil => simp at h0
    | cons k0 ks' =>
      set ks := k0 :: ks' with hkd
      simp only [List.head?_cons, hkd]
      rw [← hkd]
      have hmem : ∀ x ∈ expand ks, k0.index ≤ x.index := fun x hx =>
        (mem_seg hs (fun k hk => Nat.le_of_lt (le_nextIndex_last hs k hk)) hx).2.2 k0 rfl
      by_cases h1 : upto.index < k0.index
      · rw [if_pos h1]
        refine ⟨?_, hs⟩
        rw [eq_comm, List.filter_eq_self]
        intro x hx
        have := hmem x hx
        simp; omega
      · rw [if_neg h1]
        obtain ⟨pre, post, hks, hpre, hpost, hsr⟩ := search_spec hs upto.index
        have hs' : SortedIdx (pre ++ post) := hks ▸ hs
        have hspre := (List.pairwise_append.1 hs').1
        have hspost := (List.pairwise_append.1 hs').2.1
        rw [hsr]
        cases post with
        | nil =>
          -- all keys below: the last key is below upto, so upto is the last index + 1 at least
          exfalso
          rcases List.eq_nil_or_concat pre with hp | ⟨p, l, hp⟩
          · rw [hp] at hks; simp [hkd] at hks
          · have : l.index < upto.index := hpre l (by rw [hp]; simp)
            rw [hks, hp] at h0
            simp at h0; omega
        | cons b post =>
          have hn : nextIndex ks.getLast? = nextIndex (b :: post).getLast? := by
            rw [hks, List.getLast?_append]
            simp [List.getLast?_cons]
          have hpe : ∀ x ∈ seg pre b.index, x.index < b.index := fun x hx =>
            (mem_seg hspre (fun k hk => by
              have := (List.pairwise_append.1 hs').2.2 k hk b (by simp)
              omega) hx).1
          have hpo : ∀ x ∈ seg (b :: post) (nextIndex ks.getLast?), b.index ≤ x.index := fun x hx =>
            (mem_seg hspost (fun k hk => Nat.le_of_lt (by rw [hn]; exact le_nextIndex_last hspost k hk)) hx).2.2 b rfl
          have hex : expand ks = seg pre b.index ++ seg (b :: post) (nextIndex ks.getLast?) := by
            unfold expand
            conv => lhs; arg 1; rw [hks]
            rw [seg_append]
          simp only
          by_cases hb : b.index = upto.index
          · rw [if_pos hb]
            have hdrop : (if pre.length > 0 then ks.drop pre.length else ks) = b :: post := by
              split
              · rw [hks]; simp
              · rename_i h
                have : pre = [] := List.length_eq_zero_iff.1 (by omega)
                rw [hks, this]; rfl
            simp only
            rw [hdrop]
            refine ⟨?_, hspost⟩
            rw [hex, List.filter_append]
            have f1 : (seg pre b.index).filter (fun x => decide (upto.index ≤ x.index)) = [] := by
              rw [List.filter_eq_nil_iff]; intro x hx; have := hpe x hx; simp; omega
            have f2 : (seg (b :: post) (nextIndex ks.getLast?)).filter (fun x => decide (upto.index ≤ x.index))
                = seg (b :: post) (nextIndex ks.getLast?) := by
              rw [List.filter_eq_self]; intro x hx; have := hpo x hx; simp; omega
            rw [f1, f2, List.nil_append, hn]; rfl
          · rw [if_neg hb]
            have hbu := hpost b (by simp)
            simp only
            rcases List.eq_nil_or_concat pre with hp | ⟨p, a, hp⟩
            · exfalso
              rw [hp] at hks
              have : k0 = b := by rw [hkd] at hks; simp at hks; exact hks.1
              subst this; omega
            · rw [List.concat_eq_append] at hp
              have hdrop : ks.drop (pre.length - 1) = a :: b :: post := by
                rw [hks, hp]; simp
              rw [hdrop]
              simp only
              have ha := hpre a (by rw [hp]; simp)
              constructor
              · rw [hex, List.filter_append]
                have f2 : (seg (b :: post) (nextIndex ks.getLast?)).filter (fun x => decide (upto.index ≤ x.index))
                    = seg (b :: post) (nextIndex ks.getLast?) := by
                  rw [List.filter_eq_self]; intro x hx; have := hpo x hx; simp; omega
                rw [f2, hp, seg_extend (n := upto.index) (m := b.index) (by omega) hbu, List.filter_append]
                have f3 : (seg (p ++ [a]) upto.index).filter (fun x => decide (upto.index ≤ x.index)) = [] := by
                  rw [List.filter_eq_nil_iff]; intro x hx
                  have := (mem_seg (hp ▸ hspre) (fun k hk => Nat.le_of_lt (hpre k (hp ▸ hk))) hx).1
                  simp; omega
                have f4 : (fill ⟨a.leaderId, upto.index⟩ b.index).filter (fun x => decide (upto.index ≤ x.index))
                    = fill ⟨a.leaderId, upto.index⟩ b.index := by
                  rw [List.filter_eq_self]; intro x hx
                  rw [mem_fill] at hx
                  simpa using hx.2.1
                rw [f3, f4, List.nil_append]
                unfold expand
                rw [seg_cons_cons, hn]
                simp [List.getLast?_cons]
              · refine List.pairwise_cons.2 ⟨?_, hspost⟩
                intro k hk
                simp only
                rcases List.mem_cons.1 hk with rfl | hk
                · omega
                · have := (List.pairwise_cons.1 hspost).1 k hk; omega

/-- `get` finds exactly the covered ids. -/
theorem get_iff {ks : LogIdList} (hs : SortedIdx ks) {i : Nat} {x : LogId} :
    get ks i = some x ↔ x ∈ expand ks ∧ x.index = i := by
  obtain ⟨pre, post, hks, hpre, hpost, hsr⟩ := search_spec hs i
  have hs' : SortedIdx (pre ++ post) := hks ▸ hs
  have hspre := (List.pairwise_append.1 hs').1
  have hspost := (List.pairwise_append.1 hs').2.1
  unfold get
  rw [hsr]
  cases post with
  | nil =>
    simp only
    have hle : ks.length = pre.length := by rw [hks]; simp
    rw [if_pos (Or.inr hle.symm)]
    constructor
    · intro h; cases h
    · rintro ⟨h1, h2⟩
      exfalso
      rcases List.eq_nil_or_concat ks with hnil | ⟨p, l, hp⟩
      · rw [hnil] at h1; simp [expand, seg] at h1
      · have h1 := (mem_seg hs (fun k hk => Nat.le_of_lt (le_nextIndex_last hs k hk)) h1).1
        rw [hp] at h1; simp at h1
        have : l ∈ pre := by
          have : l ∈ ks := by rw [hp]; simp
          rw [hks] at this; simpa using this
        have := hpre l this
        omega
  | cons b post =>
    have hn : nextIndex ks.getLast? = nextIndex (b :: post).getLast? := by
      rw [hks, List.getLast?_append]
      simp [List.getLast?_cons]
    have hpo : ∀ x ∈ seg (b :: post) (nextIndex ks.getLast?), b.index ≤ x.index := fun x hx =>
      (mem_seg hspost (fun k hk => Nat.le_of_lt (by rw [hn]; exact le_nextIndex_last hspost k hk)) hx).2.2 b rfl
    have hpe : ∀ x ∈ seg pre b.index, x.index < b.index := fun x hx =>
      (mem_seg hspre (fun k hk => by
        have := (List.pairwise_append.1 hs').2.2 k hk b (by simp)
        omega) hx).1
    have hex : expand ks = seg pre b.index ++ seg (b :: post) (nextIndex ks.getLast?) := by
      unfold expand
      conv => lhs; arg 1; rw [hks]
      rw [seg_append]
    have hbi := hpost b (by simp)
    simp only
    by_cases hb : b.index = i
    · rw [if_pos hb]
      simp only
      have hg : ks[pre.length]? = some b := by rw [hks]; simp
      rw [hg]
      simp only [Option.map_some, Option.some.injEq]
      rw [hex, List.mem_append]
      constructor
      · rintro rfl
        refine ⟨Or.inr ?_, rfl⟩
        have hbn := le_nextIndex_last hspost b (by simp)
        cases post with
        | nil => rw [seg, mem_fill, hn]; exact ⟨rfl, by simp; omega, by simp at hbn ⊢; omega⟩
        | cons c post =>
          rw [seg_cons_cons, List.mem_append]; left
          have := (List.pairwise_cons.1 hspost).1 c (by simp)
          rw [mem_fill]; exact ⟨rfl, by simp; omega, by simp; omega⟩
      · rintro ⟨h1, h2⟩
        rcases h1 with h1 | h1
        · have := hpe x h1; omega
        · cases post with
          | nil =>
            simp only [seg, mem_fill] at h1
            cases x; simp_all
          | cons c post =>
            rw [seg_cons_cons, List.mem_append] at h1
            rcases h1 with h1 | h1
            · rw [mem_fill] at h1; cases x; simp_all
            · have hbc := (List.pairwise_cons.1 hspost).1 c (by simp)
              have hs3 := (List.pairwise_cons.1 hspost).2
              have := (mem_seg hs3 (fun k hk => Nat.le_of_lt (by
                rw [hn]; exact le_nextIndex_last hspost k (List.mem_cons_of_mem _ hk))) h1).2.2 c rfl
              omega
    · rw [if_neg hb]
      simp only
      rcases List.eq_nil_or_concat pre with hp | ⟨p, a, hp⟩
      · rw [if_pos (by rw [hp]; simp)]
        constructor
        · intro h; cases h
        · rintro ⟨h1, h2⟩
          exfalso
          rw [hex, hp] at h1
          simp only [seg, List.nil_append] at h1
          have := hpo x h1; omega
      · rw [List.concat_eq_append] at hp
        have hlen : pre.length = p.length + 1 := by rw [hp]; simp
        rw [if_neg (by rw [hks, hlen]; simp; omega)]
        have hg : ks[pre.length - 1]? = some a := by rw [hks, hlen, hp]; simp
        rw [hg]
        simp only [Option.map_some, Option.some.injEq]
        have ha := hpre a (by rw [hp]; simp)
        have hseg : seg pre b.index = seg p a.index ++ fill a b.index := by
          rw [hp, seg_append]; rfl
        rw [hex, List.mem_append, hseg, List.mem_append]
        constructor
        · rintro rfl
          refine ⟨Or.inl (Or.inr ?_), rfl⟩
          rw [mem_fill]; exact ⟨rfl, by simp; omega, by simp; omega⟩
        · rintro ⟨h1, h2⟩
          rcases h1 with (h1 | h1) | h1
          · have hsp : SortedIdx (p ++ [a]) := hp ▸ hspre
            have := (mem_seg (List.pairwise_append.1 hsp).1 (fun k hk =>
              Nat.le_of_lt ((List.pairwise_append.1 hsp).2.2 k hk a (by simp))) h1).1
            omega
          · rw [mem_fill] at h1; cases x; simp_all
          · have := hpo x h1; omega

end LogIdList
end Openraft
