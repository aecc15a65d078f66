import Verif.Pure.LogIdListMore

/-!
# `LogIdList::load_log_ids`: the bisection
-/

set_option autoImplicit false

namespace Openraft
namespace LogIdList

section
variable (ids : Nat → LogId) (F : Nat)

/-- the ids of indexes in `[F, n)` -/
def idsTo (n : Nat) : List LogId := (List.range' F (n - F)).map ids

/-- `res` covers `[F, n)` -/
structure Cov (res : LogIdList) (n : Nat) : Prop where
  sorted : SortedIdx res
  le : ∀ k ∈ res, k.index ≤ n
  real : ∀ k ∈ res, k = ids k.index
  leaders : res.Pairwise (fun a b => a.leaderId < b.leaderId)
  seg : seg res n = idsTo ids F n

end

section
variable {ids : Nat → LogId} {F L : Nat}
  (hidx : ∀ i, F ≤ i → i ≤ L → (ids i).index = i)
  (hmono : ∀ i j, F ≤ i → i ≤ j → j ≤ L → (ids i).leaderId ≤ (ids j).leaderId)

theorem idsTo_append {n m : Nat} (hn : F ≤ n) (hm : n ≤ m) :
    idsTo ids F m = idsTo ids F n ++ (List.range' n (m - n)).map ids := by
  unfold idsTo
  rw [← List.map_append]
  congr 1
  rw [show m - F = (n - F) + (m - n) by omega, ← List.range'_append_1, show F + (n - F) = n by omega]

include hidx hmono in
theorem range_same_leader {n m : Nat} {l : LeaderId} (hn : F ≤ n) (hm : m ≤ L) (h1 : (ids n).leaderId = l)
    (h2 : (ids m).leaderId = l) : (List.range' n (m - n)).map ids = fill ⟨l, n⟩ m := by
  unfold fill
  apply List.map_congr_left
  intro i hi
  rw [List.mem_range'_1] at hi
  rw [LogId.ext_iff']
  refine ⟨?_, hidx i (by omega) (by omega)⟩
  apply le_antisymm
  · rw [← h2]; exact hmono i m (by omega) (by omega) (by omega)
  · rw [← h1]; exact hmono n i (by omega) (by omega) (by omega)

include hidx hmono in
theorem Cov.extend {res : LogIdList} {n m : Nat} (hc : Cov ids F res n) (hn : F ≤ n) (hnm : n ≤ m) (hm : m ≤ L)
    {l : LogId} (hl : res.getLast? = some l) (h1 : (ids n).leaderId = l.leaderId) (h2 : (ids m).leaderId = l.leaderId) :
    Cov ids F res m := by
  refine ⟨hc.sorted, fun k hk => by have := hc.le k hk; omega, hc.real, hc.leaders, ?_⟩
  rcases List.eq_nil_or_concat res with rfl | ⟨p, b, hp⟩
  · cases hl
  · rw [List.concat_eq_append] at hp
    have hb : b = l := by rw [hp] at hl; simpa using hl
    subst hb
    rw [hp, seg_extend (n := n) (m := m) (hc.le b (by rw [hp]; simp)) hnm, ← hp, hc.seg, idsTo_append hn hnm,
      range_same_leader hidx hmono hn hm h1 h2]

include hmono in
theorem Cov.push {res : LogIdList} {n : Nat} (hc : Cov ids F res n) (hn : F ≤ n) (hnL : n ≤ L)
    (hr : ∀ k ∈ res, F ≤ k.index) (hni : (ids n).index = n) :
    Cov ids F (pushIfNewLeader res (ids n)) n ∧
      (∃ l, (pushIfNewLeader res (ids n)).getLast? = some l ∧ l.leaderId = (ids n).leaderId) ∧
      (∀ k ∈ pushIfNewLeader res (ids n), F ≤ k.index) := by
  unfold pushIfNewLeader
  split
  · rename_i hlt
    have hall : ∀ k ∈ res, k.leaderId < (ids n).leaderId := by
      intro k hk
      rcases List.eq_nil_or_concat res with rfl | ⟨p, b, hp⟩
      · cases hk
      · rw [List.concat_eq_append] at hp
        have hb : b.leaderId < (ids n).leaderId := by rw [hp] at hlt; simpa using hlt
        rw [hp] at hk
        rcases List.mem_append.1 hk with hk | hk
        · have := (List.pairwise_append.1 (hp ▸ hc.leaders)).2.2 k hk b (by simp)
          exact lt_trans this hb
        · rw [List.mem_singleton] at hk; rw [hk]; exact hb
    have hidxlt : ∀ k ∈ res, k.index < n := by
      intro k hk
      have h1 := hc.le k hk
      have : k.index ≠ n := by
        intro h
        have h2 := hall k hk
        rw [hc.real k hk, h] at h2
        exact absurd h2 (lt_irrefl _)
      omega
    refine ⟨⟨?_, ?_, ?_, ?_, ?_⟩, ⟨ids n, by simp, rfl⟩, ?_⟩
    · exact List.pairwise_append.2 ⟨hc.sorted, by simp, fun a ha b hb => by
        simp at hb; subst hb; rw [hni]; exact hidxlt a ha⟩
    · intro k hk
      rcases List.mem_append.1 hk with hk | hk
      · exact hc.le k hk
      · simp at hk; subst hk; omega
    · intro k hk
      rcases List.mem_append.1 hk with hk | hk
      · exact hc.real k hk
      · simp at hk; subst hk; rw [hni]
    · exact List.pairwise_append.2 ⟨hc.leaders, by simp, fun a ha b hb => by
        simp at hb; subst hb; exact hall a ha⟩
    · rw [seg_append, hni, hc.seg]
      simp only [LogIdList.seg]
      have := fill_self (ids n)
      rw [hni] at this; rw [this]; simp
    · intro k hk
      rcases List.mem_append.1 hk with hk | hk
      · exact hr k hk
      · simp at hk; subst hk; omega
  · rename_i hnlt
    refine ⟨hc, ?_, hr⟩
    rcases List.eq_nil_or_concat res with rfl | ⟨p, b, hp⟩
    · exact absurd OptOrd.none_lt_some' hnlt
    · rw [List.concat_eq_append] at hp
      have hb : ¬ b.leaderId < (ids n).leaderId := by rw [hp] at hnlt; simpa using hnlt
      refine ⟨b, by rw [hp]; simp, ?_⟩
      have hbm : b ∈ res := by rw [hp]; simp
      apply le_antisymm
      · rw [hc.real b hbm]; exact hmono _ _ (hr b hbm) (hc.le b hbm) hnL
      · exact le_of_not_gt hb

/-- The recursion stack: the segments follow each other; between two of them the leader is constant. -/
def Linked (ids : Nat → LogId) (L : Nat) : Nat → List (LogId × LogId) → Prop
  | b, [] => b ≤ L ∧ (ids b).leaderId = (ids L).leaderId
  | b, (x, y) :: r => b ≤ x.index ∧ (ids b).leaderId = x.leaderId ∧ x = ids x.index ∧ y = ids y.index ∧
      x.index ≤ y.index ∧ Linked ids L y.index r

theorem Linked.le {b : Nat} {st : List (LogId × LogId)} (h : Linked ids L b st) : b ≤ L := by
  induction st generalizing b with
  | nil => exact h.1
  | cons s st ih =>
    obtain ⟨x, y⟩ := s
    have := ih h.2.2.2.2.2
    have := h.1; have := h.2.2.2.2.1
    omega

/-- weight of a segment in the termination measure -/
def weight (s : LogId × LogId) : Nat := 2 * (s.2.index - s.1.index) - 1 + (if s.2.index = s.1.index then 1 else 0)

include hidx hmono in
theorem loadLoop_spec : ∀ (fuel : Nat) (st : List (LogId × LogId)) (res : LogIdList) (n : Nat),
    (st.map weight).sum < fuel → Cov ids F res n → F ≤ n → (∀ k ∈ res, F ≤ k.index) →
    (match st with
      | [] => n = L ∧ ∃ l, res.getLast? = some l ∧ l.leaderId = (ids L).leaderId
      | (x, y) :: r => x.index = n ∧ x = ids x.index ∧ y = ids y.index ∧ x.index ≤ y.index ∧ Linked ids L y.index r) →
    ∃ res', loadLoop ids fuel st res = some res' ∧ Cov ids F res' L ∧
      ∃ l, res'.getLast? = some l ∧ l.leaderId = (ids L).leaderId := by
  intro fuel
  induction fuel with
  | zero => intro st res n h; omega
  | succ fuel ih =>
    intro st res n hw hc hFn hFr hst
    cases st with
    | nil =>
      obtain ⟨rfl, hl⟩ := hst
      exact ⟨res, rfl, hc, hl⟩
    | cons s st =>
      obtain ⟨x, y⟩ := s
      obtain ⟨hxn, hx, hy, hxy, hlink⟩ := hst
      have hyL := hlink.le
      rw [hxn] at hx
      have hw' : weight (x, y) + (st.map weight).sum < fuel + 1 := by simpa using hw
      have hni : (ids n).index = n := hidx n hFn (by omega)
      obtain ⟨hp1, ⟨l, hp2, hp2'⟩, hp3⟩ := hc.push hmono hFn (by omega) hFr hni
      -- continue after covering up to `m` with last key leader `ids m`
      have cont : ∀ (res' : LogIdList), Cov ids F res' y.index → (∀ k ∈ res', F ≤ k.index) →
          (∃ l, res'.getLast? = some l ∧ l.leaderId = (ids y.index).leaderId) → (st.map weight).sum < fuel →
          ∃ r, loadLoop ids fuel st res' = some r ∧ Cov ids F r L ∧
            ∃ l, r.getLast? = some l ∧ l.leaderId = (ids L).leaderId := by
        intro res' hc' hF' hl' hw2
        obtain ⟨l', hl1, hl2⟩ := hl'
        cases st with
        | nil =>
          refine ih [] res' L hw2 (hc'.extend hidx hmono (by omega) hlink.1 (le_refl _) hl1 hl2.symm ?_) (by omega) hF' ⟨rfl, l', hl1, ?_⟩
          · rw [hl2, ← hlink.2]
          · rw [hl2, ← hlink.2]
        | cons s' st' =>
          obtain ⟨x', y'⟩ := s'
          obtain ⟨k1, k2, k3, k4, k5, k6⟩ := hlink
          have := k6.le
          refine ih _ res' x'.index hw2 (hc'.extend hidx hmono (by omega) k1 (by omega) hl1 hl2.symm ?_) (by omega) hF' ⟨rfl, k3, k4, k5, k6⟩
          rw [hl2, k2, ← k3]
      have hwpos : 0 < weight (x, y) := by unfold weight; simp only; split <;> omega
      unfold loadLoop
      by_cases h1 : x.leaderId = y.leaderId
      · rw [if_pos h1, hx]
        refine cont _ ?_ hp3 ⟨l, hp2, ?_⟩ (by omega)
        · refine hp1.extend hidx hmono hFn (by omega) hyL hp2 hp2'.symm ?_
          rw [hp2', ← hy, ← h1, hx]
        · rw [hp2', ← hy, ← h1, hx]
      · rw [if_neg h1]
        have hlt : x.index < y.index := by
          rcases Nat.lt_or_ge x.index y.index with h | h
          · exact h
          · exfalso; apply h1
            have : x.index = y.index := by omega
            rw [hx, hy, ← this, hxn]
        have hleL : x.leaderId < y.leaderId := by
          refine lt_of_le_of_ne ?_ h1
          rw [hx, hy]; exact hmono _ _ hFn (by omega) hyL
        by_cases h2 : x.index + 1 = y.index
        · rw [if_pos h2, hx]
          -- adjacent
          have hyi : (ids y.index).index = y.index := hidx _ (by omega) hyL
          have hall : ∀ k ∈ pushIfNewLeader res (ids n), k.leaderId < y.leaderId := by
            intro k hk
            refine lt_of_le_of_lt ?_ hleL
            rw [hp1.real k hk, hx]
            exact hmono _ _ (hp3 k hk) (hp1.le k hk) (by omega)
          have hcov : Cov ids F (pushIfNewLeader res (ids n) ++ [y]) y.index := by
            refine ⟨?_, ?_, ?_, ?_, ?_⟩
            · exact List.pairwise_append.2 ⟨hp1.sorted, by simp, fun a ha b hb => by
                simp at hb; subst hb; have := hp1.le a ha; omega⟩
            · intro k hk
              rcases List.mem_append.1 hk with hk | hk
              · have := hp1.le k hk; omega
              · simp at hk; subst hk; omega
            · intro k hk
              rcases List.mem_append.1 hk with hk | hk
              · exact hp1.real k hk
              · simp at hk; subst hk; exact hy
            · exact List.pairwise_append.2 ⟨hp1.leaders, by simp, fun a ha b hb => by
                simp at hb; subst hb; exact hall a ha⟩
            · rw [seg_append]
              simp only [LogIdList.seg, fill_self, List.append_nil]
              rcases List.eq_nil_or_concat (pushIfNewLeader res (ids n)) with hnil | ⟨p, b, hp⟩
              · rw [hnil] at hp2; cases hp2
              · rw [List.concat_eq_append] at hp
                have hb : b = l := by rw [hp] at hp2; simpa using hp2
                subst hb
                rw [hp, seg_extend (n := n) (m := y.index) (hp1.le b (by rw [hp]; simp)) (by omega), ← hp, hp1.seg,
                  idsTo_append hFn (by omega : n ≤ y.index)]
                congr 1
                rw [show y.index - n = 1 by omega, show y.index = n + 1 by omega]
                have := fill_succ ⟨b.leaderId, n⟩
                simp only at this
                rw [this]
                simp only [List.range'_one, List.map_cons, List.map_nil]
                congr 1
                rw [LogId.ext_iff']
                exact ⟨hp2', hni.symm⟩
          refine cont _ hcov ?_ ⟨y, by simp, by rw [← hy]⟩ (by omega)
          intro k hk
          rcases List.mem_append.1 hk with hk | hk
          · exact hp3 k hk
          · simp at hk; subst hk; omega
        · rw [if_neg h2]
          simp only
          generalize hmd : (x.index + y.index) / 2 = mi
          have hm1 : x.index < mi := by omega
          have hm2 : mi < y.index := by omega
          have hmi : (ids mi).index = mi := hidx _ (by omega) (by omega)
          have hwm1 : weight (x, ids mi) + weight (ids mi, y) < weight (x, y) := by
            unfold weight; simp only [hmi]
            rw [if_neg (by omega), if_neg (by omega), if_neg (by omega)]; omega
          have hwp1 : 0 < weight (x, ids mi) := by unfold weight; simp only; split <;> omega
          have hwp2 : 0 < weight (ids mi, y) := by unfold weight; simp only; split <;> omega
          by_cases h3 : x.leaderId = (ids mi).leaderId
          · rw [if_pos h3]
            have hpx : pushIfNewLeader res x = pushIfNewLeader res (ids n) := by rw [hx]
            rw [hpx]
            refine ih _ _ mi (by simp; omega) ?_ (by omega) hp3 ?_
            · refine hp1.extend hidx hmono hFn (by omega) (by omega) hp2 hp2'.symm ?_
              rw [hp2', ← h3, hx]
            · refine ⟨hmi, by rw [hmi], hy, by omega, hlink⟩
          · rw [if_neg h3]
            by_cases h4 : (ids mi).leaderId = y.leaderId
            · rw [if_pos h4]
              refine ih _ _ n (by simp; omega) hc hFn hFr ⟨hxn, by rw [hxn]; exact hx, by rw [hmi], by omega, ?_⟩
              rw [hmi]
              cases st with
              | nil => exact ⟨by omega, by rw [h4, hy]; exact hlink.2⟩
              | cons s' st' =>
                obtain ⟨x', y'⟩ := s'
                obtain ⟨k1, k2, k3, k4, k5, k6⟩ := hlink
                exact ⟨by omega, by rw [h4, hy]; exact k2, k3, k4, k5, k6⟩
            · rw [if_neg h4]
              refine ih _ _ n (by simp; omega) hc hFn hFr ⟨hxn, by rw [hxn]; exact hx, by rw [hmi], by omega, ?_⟩
              rw [hmi]
              exact ⟨by rw [hmi], rfl, by rw [hmi], hy, by omega, hlink⟩

end

end LogIdList
end Openraft
