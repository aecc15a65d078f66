import Verif.Pure.LogIdListLoad
import Verif.Spec.LogIds

/-!
# C14, C15: the in-memory index of log ids
-/

set_option autoImplicit false

namespace Openraft.Props
open Openraft Openraft.LogIdList Openraft.Spec

/-- The code's operation for a specification operation. `none`: the code panics. -/
def runOp (ks : LogIdList) : LogOp → Option LogIdList
  | .appendSameLeader ids => extendFromSameLeader ks ids
  | .extend ids => some (extend ks ids)
  | .truncate since => some (truncate ks since)
  | .purge upto => some (purge ks upto)

/-- The code's operations for a history. -/
def runOps : LogIdList → List LogOp → Option LogIdList
  | ks, [] => some ks
  | ks, o :: os => match runOp ks o with
    | none => none
    | some ks' => runOps ks' os

theorem expand_getLast? {ks : LogIdList} : (expand ks).getLast? = ks.getLast? := by
  rcases List.eq_nil_or_concat ks with rfl | ⟨p, b, rfl⟩
  · rfl
  · rw [List.concat_eq_append, expand_snoc]; simp

theorem expand_eq_nil {ks : LogIdList} (h : expand ks = []) : ks = [] := by
  have := expand_getLast? (ks := ks)
  rw [h] at this
  exact List.getLast?_eq_none_iff.1 this.symm

theorem seg_head? {a : LogId} {r : LogIdList} {n : Nat} (hs : SortedIdx (a :: r)) (hn : a.index < n) :
    (seg (a :: r) n).head? = some a := by
  have hf : ∀ m, a.index < m → (fill a m).head? = some a := by
    intro m hm
    unfold fill
    rw [List.head?_map, List.head?_range', if_neg (by omega)]; rfl
  cases r with
  | nil => exact hf n hn
  | cons b r =>
    rw [seg_cons_cons, List.head?_append, hf _ ((List.pairwise_cons.1 hs).1 b (by simp))]; rfl

theorem expand_head? {ks : LogIdList} (hs : SortedIdx ks) : (expand ks).head? = ks.head? := by
  cases ks with
  | nil => rfl
  | cons a r => exact seg_head? hs (le_nextIndex_last hs a (by simp))

theorem continues_consecutive {S ids : List LogId} (h : Continues S ids) {x : LogId} (hx : ids.head? = some x) :
    ConsecutiveFrom x.index ids := by
  intro i hi
  induction i with
  | zero =>
    cases ids with
    | nil => cases hx
    | cons y ys => simp at hx; subst hx; rfl
  | succ i ih =>
    rw [h.1 i hi, ih (by omega)]; omega

theorem runOp_ok {ks : LogIdList} {S : List LogId} {o : LogOp} (hs : SortedIdx ks) (hS : expand ks = S)
    (ho : ValidOp S o) : ∃ ks', runOp ks o = some ks' ∧ SortedIdx ks' ∧ expand ks' = applyOp S o := by
  have hcont : ∀ ids, Continues S ids → (ks ≠ [] → ConsecutiveFrom (nextIndex ks.getLast?) ids) ∧
      (∀ x, ids.head? = some x → ConsecutiveFrom x.index ids) := by
    intro ids hc
    refine ⟨?_, fun x hx => continues_consecutive hc hx⟩
    intro hne
    obtain ⟨l, hl⟩ : ∃ l, ks.getLast? = some l := by
      cases h : ks.getLast? with
      | none => exact absurd (List.getLast?_eq_none_iff.1 h) hne
      | some l => exact ⟨l, rfl⟩
    rw [hl]
    cases hids : ids with
    | nil => intro i hi; simp at hi
    | cons x xs =>
      have h1 := hc.2 l (by rw [← hS, expand_getLast?, hl]) x (by rw [hids]; rfl)
      have h2 := continues_consecutive hc (x := x) (by rw [hids]; rfl)
      simp only [nextIndex_some]
      rw [← h1, ← hids]; exact h2
  cases o with
  | appendSameLeader ids =>
    obtain ⟨hc, hl⟩ := ho
    obtain ⟨h1, h2⟩ := hcont ids hc
    obtain ⟨ks', r1, r2, r3⟩ := expand_extendFromSameLeader hs h1 h2 hl
    exact ⟨ks', r1, r3, by rw [r2, hS]; rfl⟩
  | extend ids =>
    obtain ⟨h1, h2⟩ := hcont ids ho
    obtain ⟨r1, r2⟩ := expand_extend hs h1 h2
    exact ⟨_, rfl, r2, by rw [r1, hS]; rfl⟩
  | truncate since =>
    obtain ⟨r1, r2⟩ := expand_truncate hs since
    exact ⟨_, rfl, r2, by rw [r1, hS]; rfl⟩
  | purge upto =>
    obtain ⟨r1, r2⟩ := expand_purge hs upto
    refine ⟨_, rfl, r2, ?_⟩
    rw [r1]
    unfold applyOp
    have hiff : (upto.index ≥ nextIndex ks.getLast?) ↔ S.all (fun x => decide (x.index < upto.index)) = true := by
      rw [List.all_eq_true, ← hS]
      constructor
      · intro h x hx
        have := (mem_seg hs (fun k hk => Nat.le_of_lt (le_nextIndex_last hs k hk)) hx).1
        simp; omega
      · intro h
        cases hl : ks.getLast? with
        | none => simp
        | some l =>
          have hm : l ∈ expand ks := by
            have : (expand ks).getLast? = some l := by rw [expand_getLast?, hl]
            exact List.mem_of_getLast? this
          have := h l hm
          simp at this ⊢; omega
    simp only [hiff, hS]

theorem runOps_ok {ops : List LogOp} {ks : LogIdList} {S : List LogId} (hs : SortedIdx ks) (hS : expand ks = S)
    (ho : ValidOps S ops) : ∃ ks', runOps ks ops = some ks' ∧ SortedIdx ks' ∧ expand ks' = applyOps S ops := by
  induction ops generalizing ks S with
  | nil => exact ⟨ks, rfl, hs, hS⟩
  | cons o ops ih =>
    obtain ⟨ks1, r1, r2, r3⟩ := runOp_ok hs hS ho.1
    obtain ⟨ks2, q1, q2, q3⟩ := ih r2 r3 ho.2
    refine ⟨ks2, ?_, q2, ?_⟩
    · simp only [runOps, r1]; exact q1
    · rw [q3]; rfl

theorem get_eq_find {ks : LogIdList} (hs : SortedIdx ks) (i : Nat) :
    get ks i = (expand ks).find? (fun x => decide (x.index = i)) := by
  cases hf : (expand ks).find? (fun x => decide (x.index = i)) with
  | some x =>
    rw [get_iff hs]
    exact ⟨List.mem_of_find?_eq_some hf, by simpa using List.find?_some hf⟩
  | none =>
    cases hg : get ks i with
    | none => rfl
    | some x =>
      obtain ⟨h1, h2⟩ := (get_iff hs).1 hg
      rw [List.find?_eq_none] at hf
      exact absurd (by simpa using h2) (hf x h1)

/-- C14: after every history of valid operations the code has not panicked, and looking up any index
in the compressed list gives exactly the stored id of this index; the first and the last id agree. -/
theorem C14_lookup_exact {ops : List LogOp} (h : ValidOps [] ops) :
    ∃ ks, runOps [] ops = some ks ∧
      (∀ i, get ks i = (applyOps [] ops).find? (fun x => decide (x.index = i))) ∧
      ks.head? = (applyOps [] ops).head? ∧ ks.getLast? = (applyOps [] ops).getLast? := by
  obtain ⟨ks, r1, r2, r3⟩ := runOps_ok (ks := []) (S := []) (by simp [SortedIdx]) rfl h
  refine ⟨ks, r1, fun i => ?_, ?_, ?_⟩
  · rw [get_eq_find r2, r3]
  · rw [← r3, expand_head? r2]
  · rw [← r3, expand_getLast?]

/-- a history with two leaders, a conflict, and a purge -/
def sampleOps : List LogOp :=
  [.appendSameLeader [⟨⟨1, 1⟩, 0⟩, ⟨⟨1, 1⟩, 1⟩, ⟨⟨1, 1⟩, 2⟩], .extend [⟨⟨1, 1⟩, 3⟩, ⟨⟨2, 2⟩, 4⟩, ⟨⟨2, 2⟩, 5⟩],
    .truncate 3, .appendSameLeader [⟨⟨3, 1⟩, 3⟩, ⟨⟨3, 1⟩, 4⟩], .purge ⟨⟨1, 1⟩, 1⟩]

theorem sampleOps_valid : ValidOps [] sampleOps := by
  refine ⟨⟨⟨?_, ?_⟩, ?_⟩, ⟨?_, ?_⟩, trivial, ⟨⟨?_, ?_⟩, ?_⟩, trivial, trivial⟩
  · intro i h; rcases i with _ | _ | i
    · rfl
    · rfl
    · simp at h; omega
  · intro l hl; cases hl
  · decide
  · intro i h; rcases i with _ | _ | i
    · rfl
    · rfl
    · simp at h; omega
  · intro l hl x hx; simp [applyOp] at hl hx; subst hl; subst hx; rfl
  · intro i h; rcases i with _ | i
    · rfl
    · simp at h; omega
  · intro l hl x hx; simp [applyOp] at hl hx; subst hl; subst hx; rfl
  · decide

example : ∃ ks, runOps [] sampleOps = some ks ∧ get ks 2 = some ⟨⟨1, 1⟩, 2⟩ ∧ get ks 0 = none := by
  obtain ⟨ks, h1, h2, _⟩ := C14_lookup_exact sampleOps_valid
  exact ⟨ks, h1, by rw [h2]; decide, by rw [h2]; decide⟩

theorem runOp_compact {ks ks' : LogIdList} {o : LogOp} (hc : Compact ks) (h : runOp ks o = some ks') : Compact ks' := by
  cases o with
  | appendSameLeader ids => exact compact_extendFromSameLeader hc h
  | extend ids => rw [← Option.some.inj h]; exact compact_extend hc
  | truncate s => rw [← Option.some.inj h]; exact compact_truncate hc s
  | purge u => rw [← Option.some.inj h]; exact compact_purge hc u

theorem runOps_compact {ops : List LogOp} {ks ks' : LogIdList} (hc : Compact ks) (h : runOps ks ops = some ks') :
    Compact ks' := by
  induction ops generalizing ks with
  | nil => rw [← Option.some.inj h]; exact hc
  | cons o ops ih =>
    simp only [runOps] at h
    cases ho : runOp ks o with
    | none => rw [ho] at h; cases h
    | some k1 => rw [ho] at h; exact ih (runOp_compact hc ho) h

theorem mem_expand_of_mem {ks : LogIdList} (hs : SortedIdx ks) {k : LogId} (hk : k ∈ ks) : k ∈ expand ks := by
  have : get ks k.index = some k := by
    obtain ⟨pre, post, rfl⟩ := List.append_of_mem hk
    obtain ⟨p, q, hks, hp, hq, hsr⟩ := search_spec hs k.index
    have h1 := List.pairwise_append.1 hs
    have h2 := List.pairwise_cons.1 h1.2.1
    have hpe : p = pre ∧ q = k :: post := by
      have hlen : p.length = pre.length := by
        rcases Nat.lt_trichotomy p.length pre.length with h | h | h
        · exfalso
          -- an element of pre is in q
          have hx : pre[p.length] ∈ q := by
            have e : (pre ++ k :: post)[p.length]'(by simp; omega) = pre[p.length] := by
              rw [List.getElem_append_left h]
            have e2 : (p ++ q)[p.length]'(by rw [← hks]; simp; omega) ∈ q := by
              rw [List.getElem_append_right (by omega)]; exact List.getElem_mem _
            rw [← e]
            have e3 : (pre ++ k :: post)[p.length]'(by simp; omega) = (p ++ q)[p.length]'(by rw [← hks]; simp; omega) := by
              congr 1
            rw [e3]; exact e2
          have := hq _ hx
          have := h1.2.2 _ (List.getElem_mem h) k (by simp)
          omega
        · exact h
        · exfalso
          have hx : k ∈ p := by
            have e : (pre ++ k :: post)[pre.length]'(by simp) = k := by
              simp
            have e2 : (p ++ q)[pre.length]'(by rw [← hks]; simp) = p[pre.length] := by
              rw [List.getElem_append_left h]
            have e3 : (pre ++ k :: post)[pre.length]'(by simp) = (p ++ q)[pre.length]'(by rw [← hks]; simp) := by
              congr 1
            rw [e3, e2] at e
            rw [← e]; exact List.getElem_mem _
          have := hp k hx
          omega
      exact (List.append_inj hks hlen.symm).imp Eq.symm Eq.symm
    obtain ⟨rfl, rfl⟩ := hpe
    unfold LogIdList.get
    rw [hsr]
    simp
  exact ((get_iff hs).1 this).1

/-- `by_last_leader` starts with the first stored id of the last leader (used to find the first log a
restarted leader has proposed). -/
theorem C14_by_last_leader {ops : List LogOp} (h : ValidOps [] ops)
    (hmono : (applyOps [] ops).Pairwise fun a b => a.leaderId ≤ b.leaderId)
    {l : LogId} (hl : (applyOps [] ops).getLast? = some l) :
    ∃ ks, runOps [] ops = some ks ∧
      (byLastLeader ks).head? = (applyOps [] ops).find? (fun x => decide (x.leaderId = l.leaderId)) := by
  obtain ⟨ks, r1, r2, r3⟩ := runOps_ok (ks := []) (S := []) (by simp [SortedIdx]) rfl h
  have hcmp : Compact ks := runOps_compact (by unfold Compact; exact List.IsChain.nil) r1
  refine ⟨ks, r1, ?_⟩
  rw [← r3] at hmono hl ⊢
  rw [expand_getLast?] at hl
  -- the ids before position of key `a` have a smaller leader
  have key : ∀ (p : LogIdList) (a : LogId) (post : LogIdList), ks = p ++ a :: post → a.leaderId = l.leaderId →
      (∀ b, p.getLast? = some b → b.leaderId ≠ a.leaderId) →
      (expand ks).find? (fun x => decide (x.leaderId = l.leaderId)) = some a := by
    intro p a post hks hal hpb
    have hs' : SortedIdx (p ++ a :: post) := hks ▸ r2
    have hspre := (List.pairwise_append.1 hs').1
    have hple : ∀ k ∈ p, k.index ≤ a.index := fun k hk =>
      Nat.le_of_lt ((List.pairwise_append.1 hs').2.2 k hk a (by simp))
    have hn : nextIndex ks.getLast? = nextIndex (a :: post).getLast? := by
      rw [hks, List.getLast?_append]; simp [List.getLast?_cons]
    have hex : expand ks = seg p a.index ++ seg (a :: post) (nextIndex ks.getLast?) := by
      unfold expand
      conv => lhs; arg 1; rw [hks]
      rw [seg_append]
    have hspost := (List.pairwise_append.1 hs').2.1
    have hhead : (seg (a :: post) (nextIndex ks.getLast?)).head? = some a :=
      seg_head? hspost (by rw [hn]; exact le_nextIndex_last hspost a (by simp))
    -- leaders in `seg p` are smaller
    have hlt : ∀ x ∈ seg p a.index, x.leaderId ≠ l.leaderId := by
      intro x hx hxl
      obtain ⟨_, ⟨k, hk, hkl, _⟩, _⟩ := mem_seg hspre hple hx
      rcases List.eq_nil_or_concat p with rfl | ⟨q, b, hq⟩
      · cases hk
      · rw [List.concat_eq_append] at hq
        have hb := hpb b (by rw [hq]; simp)
        -- k ≤ b ≤ a in leader order, k's leader = a's leader, so b's leader too
        have hkm : k ∈ expand ks := mem_expand_of_mem r2 (by rw [hks]; simp [hk])
        have hbm : b ∈ expand ks := mem_expand_of_mem r2 (by rw [hks, hq]; simp)
        have ham : a ∈ expand ks := mem_expand_of_mem r2 (by rw [hks]; simp)
        -- use monotone leaders via keys being a sublist: compare by index
        have mono_idx : ∀ u ∈ expand ks, ∀ v ∈ expand ks, u.index < v.index → u.leaderId ≤ v.leaderId := by
          intro u hu v hv huv
          obtain ⟨i, hi, rfl⟩ := List.getElem_of_mem hu
          obtain ⟨j, hj, rfl⟩ := List.getElem_of_mem hv
          have hidx : ∀ (m : Nat) (hm : m < (expand ks).length), ((expand ks)[m]).index = ((expand ks).map (·.index))[m]'(by simpa using hm) := by
            intro m hm; simp
          obtain ⟨k0, ks0, hk0⟩ : ∃ k0 ks0, ks = k0 :: ks0 := by
            cases hkk : ks with
            | nil => rw [hkk] at hks; simp at hks
            | cons k0 ks0 => exact ⟨k0, ks0, rfl⟩
          have hmi : (expand ks).map (·.index) = List.range' k0.index (nextIndex ks.getLast? - k0.index) := by
            have r2' : SortedIdx (k0 :: ks0) := hk0 ▸ r2
            have := seg_map_index (n := nextIndex ks.getLast?) r2' (fun k hk => Nat.le_of_lt (by
              rw [hk0]; exact le_nextIndex_last r2' k hk))
            unfold expand
            conv => lhs; arg 2; arg 1; rw [hk0]
            exact this
          rw [hidx i hi, hidx j hj] at huv
          simp only [hmi, List.getElem_range'] at huv
          exact List.pairwise_iff_getElem.1 hmono i j hi hj (by omega)
        have hba : b.leaderId ≤ a.leaderId := mono_idx b hbm a ham
          ((List.pairwise_append.1 hs').2.2 b (by rw [hq]; simp) a (by simp))
        have hkb : k.leaderId ≤ b.leaderId := by
          rw [hq] at hk
          rcases List.mem_append.1 hk with hk | hk
          · have hsq : SortedIdx (q ++ [b]) := hq ▸ hspre
            exact mono_idx k hkm b hbm ((List.pairwise_append.1 hsq).2.2 k hk b (by simp))
          · simp at hk; rw [hk]
        apply hb
        apply le_antisymm hba
        rw [hal, ← hxl, ← hkl]; exact hkb
    rw [hex, List.find?_append]
    have h1 : (seg p a.index).find? (fun x => decide (x.leaderId = l.leaderId)) = none := by
      rw [List.find?_eq_none]; intro x hx; simpa using hlt x hx
    rw [h1, Option.none_or]
    cases hsg : seg (a :: post) (nextIndex ks.getLast?) with
    | nil => rw [hsg] at hhead; cases hhead
    | cons y ys =>
      rw [hsg] at hhead; simp at hhead; subst hhead
      rw [List.find?_cons_of_pos]; simpa using hal
  unfold byLastLeader
  simp only
  rcases List.eq_nil_or_concat ks with hk | ⟨p, b, hk⟩
  · rw [hk] at hl; cases hl
  · rw [List.concat_eq_append] at hk
    have hbl : b = l := by rw [hk] at hl; simpa using hl
    rcases List.eq_nil_or_concat p with hp | ⟨q, a, hp⟩
    · have hks : ks = [b] := by rw [hk, hp]; rfl
      rw [if_pos (by rw [hks]; simp)]
      rw [key [] b [] (by rw [hks]; rfl) (by rw [hbl]) (by intro b hb; cases hb), hks]; rfl
    · rw [List.concat_eq_append] at hp
      have hks : ks = q ++ [a, b] := by rw [hk, hp]; simp
      have hlen : ks.length = q.length + 2 := by rw [hks]; simp
      rw [if_neg (by omega)]
      have e1 : ks[ks.length - 2]? = some a := by rw [hlen, hks]; simp
      have e2 : ks[ks.length - 1]? = some b := by
        rw [hlen, hks, show q.length + 2 - 1 = q.length + 1 by omega]; simp
      rw [e1, e2]
      by_cases hab : b.leaderId = a.leaderId
      · rw [if_pos (by simp [hab])]
        have hd : ks.drop (ks.length - 2) = [a, b] := by rw [hlen, hks]; simp
        rw [hd, key q a [b] hks (by rw [← hab, hbl])]
        · rfl
        · intro c hc
          unfold Compact at hcmp
          rw [hk, List.dropLast_concat, hp] at hcmp
          rw [List.isChain_append] at hcmp
          exact hcmp.2.2 c hc a (by simp)
      · rw [if_neg (by simp [hab])]
        have hd : ks.drop (ks.length - 1) = [b] := by
          rw [hlen, hks, show q.length + 2 - 1 = q.length + 1 by omega]; simp
        rw [hd, key (q ++ [a]) b [] (by rw [hks]; simp) (by rw [hbl])]
        · rfl
        · intro c hc
          simp at hc; subst hc
          exact fun h => hab h.symm

example : ∃ ks, runOps [] sampleOps = some ks ∧ (byLastLeader ks).head? = some ⟨⟨3, 1⟩, 3⟩ := by
  obtain ⟨ks, h1, h2⟩ := C14_by_last_leader sampleOps_valid (l := ⟨⟨3, 1⟩, 4⟩) (by decide) (by decide)
  exact ⟨ks, h1, by rw [h2]; decide⟩

/-! ## C15 -/

/-- the loaded list stands for exactly the stored ids -/
theorem load_expand {ids : Nat → LogId} {purged : Option LogId} {first last : LogId}
    (hfirst : match purged with
      | none => first.index = 0
      | some p => first = p)
    (hle : first.index ≤ last.index)
    (hf : ids first.index = first) (hl : ids last.index = last)
    (hidx : ∀ i, first.index ≤ i → i ≤ last.index → (ids i).index = i)
    (hmono : ∀ i j, first.index ≤ i → i ≤ j → j ≤ last.index → (ids i).leaderId ≤ (ids j).leaderId)
    {fuel : Nat} (hfuel : 2 * (last.index - first.index) + 2 ≤ fuel) :
    ∃ ks, loadLogIds purged (some last) ids fuel = some ks ∧ SortedIdx ks ∧ Compact ks ∧
      expand ks = idsTo ids first.index (last.index + 1) := by
  have hcov0 : Cov ids first.index [] first.index :=
    ⟨by simp [SortedIdx], by simp, by simp, by simp, by simp [seg, idsTo]⟩
  obtain ⟨res, h1, h2, l, h3, h4⟩ := loadLoop_spec (F := first.index) (L := last.index) hidx hmono fuel
    [(first, last)] [] first.index (by
      simp only [List.map_cons, List.map_nil, List.sum_cons, List.sum_nil]
      unfold weight; simp only; split <;> omega) hcov0 (le_refl _) (by simp)
    ⟨rfl, hf.symm, hl.symm, hle, le_refl _, rfl⟩
  have hfst : purged.getD (ids 0) = first := by
    cases purged with
    | none => simp only at hfirst; rw [Option.getD_none, ← hfirst]; exact hf
    | some p => exact hfirst.symm
  rw [hl] at h4
  -- the final list
  have hfinal : ∃ ks, (if res.getLast? ≠ some last then res ++ [last] else res) = ks ∧ SortedIdx ks ∧ Compact ks ∧
      expand ks = idsTo ids first.index (last.index + 1) := by
    have hends : idsTo ids first.index (last.index + 1) = idsTo ids first.index last.index ++ [last] := by
      rw [idsTo_append hle (by omega : last.index ≤ last.index + 1)]
      simp [hl]
    have hchain : List.IsChain (fun a b : LogId => a.leaderId ≠ b.leaderId) res :=
      (h2.leaders.imp (fun h => ne_of_lt h)).isChain
    by_cases hlast : res.getLast? = some last
    · rw [if_neg (by simpa using hlast)]
      refine ⟨res, rfl, h2.sorted, ?_, ?_⟩
      · unfold Compact; exact hchain.prefix (List.dropLast_prefix _)
      · rcases List.eq_nil_or_concat res with hn | ⟨p, b, hp⟩
        · rw [hn] at hlast; cases hlast
        · rw [List.concat_eq_append] at hp
          have hb : b = last := by rw [hp] at hlast; simpa using hlast
          subst hb
          rw [hends, ← h2.seg, hp, expand_snoc, seg_append]
          simp [seg, fill_self]
    · rw [if_pos hlast]
      refine ⟨_, rfl, ?_, ?_, ?_⟩
      · refine List.pairwise_append.2 ⟨h2.sorted, by simp, ?_⟩
        intro a ha b hb
        simp only [List.mem_singleton] at hb
        have h5 := h2.le a ha
        have : a.index ≠ last.index := by
          intro h
          have ha' : a = last := by rw [h2.real a ha, h, hl]
          -- then `last` is in `res`, so it is its last element
          rcases List.eq_nil_or_concat res with hn | ⟨p, b, hp⟩
          · rw [hn] at ha; cases ha
          · rw [List.concat_eq_append] at hp
            rw [hp] at ha
            rcases List.mem_append.1 ha with ha2 | ha2
            · have hs2 : SortedIdx (p ++ [b]) := hp ▸ h2.sorted
              have h6 := (List.pairwise_append.1 hs2).2.2 a ha2 b (by simp)
              have h7 := h2.le b (by rw [hp]; simp)
              omega
            · simp at ha2
              apply hlast
              rw [hp, ← ha', ha2]; simp
        rw [hb]; omega
      · unfold Compact; rw [List.dropLast_concat]; exact hchain
      · rw [expand_snoc, h2.seg, hends]
  obtain ⟨ks, hk1, hk2, hk3, hk4⟩ := hfinal
  refine ⟨ks, ?_, hk2, hk3, hk4⟩
  have : loadLogIds purged (some last) ids fuel = match loadLoop ids fuel [(purged.getD (ids 0), last)] [] with
      | none => none
      | some res => some (if res.getLast? ≠ some last then res ++ [last] else res) := by
    unfold loadLogIds; cases purged <;> rfl
  rw [this, hfst, h1]
  simp only [hk1]

/-- C15: for any stored log whose leader ids do not decrease, the bisection terminates (within
`2 * (last - first) + 2` iterations) and the loaded list answers every lookup with the stored id;
outside the stored range it answers nothing. `first` is the last purged id, or the id at index 0. -/
theorem C15_load_exact {ids : Nat → LogId} {purged : Option LogId} {first last : LogId}
    (hfirst : match purged with
      | none => first.index = 0
      | some p => first = p)
    (hle : first.index ≤ last.index)
    (hf : ids first.index = first) (hl : ids last.index = last)
    (hidx : ∀ i, first.index ≤ i → i ≤ last.index → (ids i).index = i)
    (hmono : ∀ i j, first.index ≤ i → i ≤ j → j ≤ last.index → (ids i).leaderId ≤ (ids j).leaderId)
    {fuel : Nat} (hfuel : 2 * (last.index - first.index) + 2 ≤ fuel) :
    ∃ ks, loadLogIds purged (some last) ids fuel = some ks ∧
      (∀ i, get ks i = if first.index ≤ i ∧ i ≤ last.index then some (ids i) else none) ∧
      SortedIdx ks ∧ Compact ks := by
  obtain ⟨ks, hk1, hk2, hk3, hk4⟩ := load_expand hfirst hle hf hl hidx hmono hfuel
  refine ⟨ks, hk1, ?_, hk2, hk3⟩
  · intro i
    split
    · rename_i hi
      rw [get_iff hk2, hk4]
      unfold idsTo
      refine ⟨List.mem_map.2 ⟨i, ?_, rfl⟩, hidx i hi.1 hi.2⟩
      rw [List.mem_range'_1]; omega
    · rename_i hi
      cases hg : get ks i with
      | none => rfl
      | some x =>
        obtain ⟨g1, g2⟩ := (get_iff hk2).1 hg
        rw [hk4] at g1
        unfold idsTo at g1
        obtain ⟨j, hj, rfl⟩ := List.mem_map.1 g1
        rw [List.mem_range'_1] at hj
        rw [hidx j (by omega) (by omega)] at g2
        omega

/-- an empty log store loads as the empty list -/
theorem C15_load_empty (purged : Option LogId) (ids : Nat → LogId) (fuel : Nat) :
    loadLogIds purged none ids fuel = some [] := rfl

/-- ids of a log with five leaders, purged up to index 2 -/
def sampleIds (i : Nat) : LogId := ⟨⟨i / 3, 0⟩, i⟩

example : ∃ ks, loadLogIds (some ⟨⟨0, 0⟩, 2⟩) (some ⟨⟨4, 0⟩, 13⟩) sampleIds 30 = some ks ∧
    get ks 7 = some ⟨⟨2, 0⟩, 7⟩ ∧ get ks 14 = none := by
  obtain ⟨ks, h1, h2, _⟩ := C15_load_exact (ids := sampleIds) (purged := some ⟨⟨0, 0⟩, 2⟩) (first := ⟨⟨0, 0⟩, 2⟩)
    (last := ⟨⟨4, 0⟩, 13⟩) rfl (by decide) (by decide) (by decide) (fun i _ _ => rfl)
    (by
      intro i j _ hij _
      rw [LeaderId.le_def]
      simp only [sampleIds]
      have : i / 3 ≤ j / 3 := Nat.div_le_div_right hij
      omega) (fuel := 30) (by decide)
  exact ⟨ks, h1, by rw [h2]; decide, by rw [h2]; decide⟩

end Openraft.Props
