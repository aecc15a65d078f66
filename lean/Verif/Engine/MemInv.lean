import Verif.Engine.Ghost

/-!
# The membership state agrees with the log
-/

set_option autoImplicit false

namespace Openraft.Engine
open LogIdList

theorem stored?_logId {e : Ent} {m : StoredMem} (h : e.stored? = some m) : m.logId = some e.id := by
  unfold Ent.stored? at h
  cases hm : e.membership? with
  | none => rw [hm] at h; cases h
  | some x => rw [hm] at h; cases h; rfl

theorem mem_stored {es : List Ent} {m : StoredMem} (h : m ∈ es.filterMap (·.stored?)) :
    ∃ e ∈ es, m.logId = some e.id := by
  obtain ⟨e, he, h1⟩ := List.mem_filterMap.1 h
  exact ⟨e, he, stored?_logId h1⟩

theorem map_index_le {a b : Option LogId} : a.map (·.index) ≤ b.map (·.index) ↔ nextIndex a ≤ nextIndex b := by
  cases a with
  | none => simp [OptOrd.none_le']
  | some x =>
    cases b with
    | none => simp [opt_le_none]
    | some y => rw [Option.map_some, Option.map_some, OptOrd.some_le_some']; simp

theorem some_le_map_index {n : Nat} {b : Option LogId} : some n ≤ b.map (·.index) ↔ n < nextIndex b := by
  cases b with
  | none => simp [opt_le_none]
  | some y => rw [Option.map_some, OptOrd.some_le_some']; simp; omega

/-- The membership state is what the log says: the effective membership is the last one; the
committed one is the last or the one before; it is the last one if that is at or below the
committed position. -/
structure MemJ (ms : MemState) (v : LogV) (g : Gh) : Prop where
  eff : g.mems.getLast? = some ms.effective
  com : ms.committed = ms.effective ∨ g.mems.dropLast.getLast? = some ms.committed
  ce : nextIndex ms.effective.logId ≤ nextIndex v.committed → ms.committed = ms.effective
  base1 : g.base.logId ≤ v.lastPurged
  base2 : nextIndex g.base.logId ≤ v.purgedNext

namespace MemJ
variable {ms : MemState} {v : LogV} {g : Gh}

theorem eff_mem (h : MemJ ms v g) : ms.effective ∈ g.mems := List.mem_of_getLast? h.eff

theorem com_mem (h : MemJ ms v g) : ms.committed ∈ g.mems := by
  rcases h.com with h1 | h1
  · rw [h1]; exact h.eff_mem
  · exact List.dropLast_subset _ (List.mem_of_getLast? h1)

/-- for a membership of the log, the order of log ids and that of indexes agree -/
theorem le_iff (h : MemJ ms v g) (hL : LogJ v g) {m : StoredMem} (hm : m ∈ g.mems) {c : LogId} (hc : c ∈ v.L) :
    m.logId ≤ some c ↔ nextIndex m.logId ≤ c.index + 1 := by
  rcases List.mem_cons.1 hm with rfl | hm
  · have hp := hL.ge_purged hc
    have h2 := h.base2
    refine ⟨fun _ => by omega, fun _ => le_trans h.base1 ?_⟩
    cases hpu : v.lastPurged with
    | none => exact OptOrd.none_le' _
    | some p =>
      have : v.purgedNext = p.index + 1 := by rw [hL.pn, hpu]; rfl
      exact (hL.cons.le_iff (hL.purged_mem hpu) hc).2 (by omega)
  · obtain ⟨e, he, h1⟩ := mem_stored hm
    have hin := (hL.mem_ids.1 (show e.id ∈ g.ids from List.mem_map.2 ⟨e, he, rfl⟩)).1
    rw [h1, OptOrd.some_le_some', hL.cons.le_iff hin hc]; simp

theorem eff_le_last (h : MemJ ms v g) (hL : LogJ v g) : nextIndex ms.effective.logId ≤ nextIndex v.last := by
  rcases List.mem_cons.1 h.eff_mem with h1 | h1
  · rw [h1]
    have := h.base2; have := hL.ord1; have := hL.ord2; have := hL.ord3; have := hL.com_le_last
    omega
  · obtain ⟨e, he, h1⟩ := mem_stored h1
    have hin := (hL.mem_ids.1 (show e.id ∈ g.ids from List.mem_map.2 ⟨e, he, rfl⟩)).1
    rw [h1]; have := hL.le_last hin; simp; omega

/-- commit -/
theorem commit (h : MemJ ms v g) (hL : LogJ v g) {c : LogId} (hc : c ∈ v.L) {dbg : Bool} {ms' : MemState}
    {prev : Option LogId} (hlt : nextIndex v.committed ≤ c.index)
    (hr : RState.MemState.commit dbg ms (some c) = .ok ms') :
    MemJ ms' { v with committed := some c } (g.run (.apply prev c)) := by
  unfold RState.MemState.commit at hr
  split at hr
  · next hle =>
    rw [bind_ok] at hr
    obtain ⟨_, _, hr⟩ := hr
    rw [pure_ok] at hr; subst hr
    exact ⟨h.eff, Or.inl rfl, fun _ => rfl, h.base1, h.base2⟩
  · next hle =>
    rw [pure_ok] at hr; subst hr
    rw [h.le_iff hL h.eff_mem hc] at hle
    exact ⟨h.eff, h.com, fun hx => absurd hx (by simpa using hle), h.base1, h.base2⟩

/-- the memberships after entries are appended -/
theorem mems_append (g : Gh) (w : Vote) (es : List Ent) :
    (g.run (.append w es)).mems = g.mems ++ es.filterMap (·.stored?) := by
  simp [Gh.mems, Gh.run, LogStore.append]

/-- append entries without a membership -/
theorem append_none (h : MemJ ms v g) {w : Vote} {es : List Ent} {ks : LogIdList}
    (hn : es.filterMap (·.stored?) = []) (hp : LogV.lastPurged { v with logIds := ks } = v.lastPurged) :
    MemJ ms { v with logIds := ks } (g.run (.append w es)) := by
  refine ⟨?_, ?_, h.ce, by rw [hp]; exact h.base1, h.base2⟩
  · rw [mems_append, hn, List.append_nil]; exact h.eff
  · rw [mems_append, hn, List.append_nil]; exact h.com

/-- `appendMems` of the last two -/
theorem appendMems_spec {dbg : Bool} {ms ms' : MemState} {xs : List StoredMem}
    (h : Eng.appendMems dbg ms xs = .ok ms') :
    (xs = [] → ms' = ms) ∧ (∀ a, xs = [a] → ms' = ⟨ms.effective, a⟩) ∧ (∀ a b, xs = [a, b] → ms' = ⟨a, b⟩) := by
  refine ⟨?_, ?_, ?_⟩
  · rintro rfl; rw [Eng.appendMems, pure_ok] at h; exact h.symm
  · rintro a rfl
    simp only [Eng.appendMems, RState.MemState.append, bind_ok, pure_ok] at h
    obtain ⟨m1, ⟨_, _, _, _, h1⟩, h2⟩ := h
    rw [← h2, ← h1]
  · rintro a b rfl
    simp only [Eng.appendMems, RState.MemState.append, bind_ok, pure_ok] at h
    obtain ⟨m1, ⟨_, _, _, _, h1⟩, m2, ⟨_, _, _, _, h2⟩, h3⟩ := h
    rw [← h3, ← h2, ← h1]

/-- append entries with memberships, all above the committed position -/
theorem append_some (h : MemJ ms v g) {w : Vote} {es : List Ent} {ks : LogIdList} {dbg : Bool} {ms' : MemState}
    (hp : LogV.lastPurged { v with logIds := ks } = v.lastPurged)
    (hi : ∀ e ∈ es, nextIndex v.committed ≤ e.id.index)
    (hr : Eng.appendMems dbg ms (Eng.lastTwo es) = .ok ms') :
    MemJ ms' { v with logIds := ks } (g.run (.append w es)) := by
  have hspec := appendMems_spec hr
  have hlog : ∀ m ∈ es.filterMap (·.stored?), nextIndex v.committed < nextIndex m.logId := by
    intro m hm
    obtain ⟨e, he, h1⟩ := mem_stored hm
    rw [h1]; have := hi e he; simp; omega
  rcases List.eq_nil_or_concat (es.filterMap (·.stored?)) with h0 | ⟨pre, b, h0⟩
  · have : Eng.lastTwo es = [] := by simp [Eng.lastTwo, h0]
    rw [hspec.1 this]
    exact h.append_none h0 hp
  · rw [List.concat_eq_append] at h0
    rcases List.eq_nil_or_concat pre with h1 | ⟨pre2, a, h1⟩
    · subst h1
      have h2 : Eng.lastTwo es = [b] := by simp [Eng.lastTwo, h0]
      rw [hspec.2.1 b h2]
      have hb := hlog b (by rw [h0]; simp)
      refine ⟨?_, Or.inr ?_, fun hx => ?_, by rw [hp]; exact h.base1, h.base2⟩
      · rw [mems_append, h0]; simp
      · rw [mems_append, h0]; simp; exact h.eff
      · simp only at hx; omega
    · rw [List.concat_eq_append] at h1
      subst h1
      have h2 : Eng.lastTwo es = [a, b] := by
        simp only [Eng.lastTwo, h0]
        have e1 : (pre2 ++ [a] ++ [b]).length - 2 = pre2.length := by simp
        rw [e1, List.append_assoc, List.drop_left']
        · rfl
        · rfl
      rw [hspec.2.2 a b h2]
      have hb := hlog b (by rw [h0]; simp)
      refine ⟨?_, Or.inr ?_, fun hx => ?_, by rw [hp]; exact h.base1, h.base2⟩
      · rw [mems_append, h0]; simp
      · rw [mems_append, h0, ← List.append_assoc, List.dropLast_concat, ← List.append_assoc]; simp
      · simp only at hx; omega

theorem filter_split (hc : Cons g.ids) (n : Nat) :
    g.store.entries = (g.store.entries.filter fun e => decide (e.id.index < n)) ++
      (g.store.entries.filter fun e => decide (n ≤ e.id.index)) := by
  have : ∀ es : List Ent, Cons (es.map (·.id)) →
      es = (es.filter fun e => decide (e.id.index < n)) ++ (es.filter fun e => decide (n ≤ e.id.index)) := by
    intro es
    induction es with
    | nil => intro _; rfl
    | cons a r ih =>
      intro hc
      by_cases hlt : a.id.index < n
      · rw [List.filter_cons_of_pos (by simpa using hlt), List.filter_cons_of_neg (by simpa using hlt),
          List.cons_append, ← ih hc.tail]
      · have h1 : ∀ x ∈ a :: r, n ≤ x.id.index := by
          intro x hx
          rcases List.mem_cons.1 hx with rfl | hx
          · omega
          · have := (hc.spec x.id (List.mem_map.2 ⟨x, hx, rfl⟩)).1; simp only at this; omega
        rw [List.filter_eq_nil_iff.2, List.filter_eq_self.2, List.nil_append]
        · intro x hx; simpa using h1 x hx
        · intro x hx; have := h1 x hx; simp; omega
  exact this _ hc

theorem ids_cons (hL : LogJ v g) : Cons g.ids := by
  have := hL.cons
  rw [hL.cpl, cons_append] at this
  exact this.2.1

theorem stored_pairwise {es : List Ent} (hc : Cons (es.map (·.id))) :
    (es.filterMap (·.stored?)).Pairwise fun a b => a.logId < b.logId := by
  induction es with
  | nil => exact List.Pairwise.nil
  | cons a r ih =>
    cases ha : a.stored? with
    | none => rw [List.filterMap_cons_none ha]; exact ih hc.tail
    | some ma =>
      rw [List.filterMap_cons_some ha]
      refine List.pairwise_cons.2 ⟨?_, ih hc.tail⟩
      intro b hbm
      obtain ⟨e2, he2, hb2⟩ := mem_stored hbm
      rw [stored?_logId ha, hb2]
      have hm : e2.id ∈ (r.map (·.id)) := List.mem_map.2 ⟨e2, he2, rfl⟩
      rw [List.map_cons] at hc
      exact (hc.lt_iff (x := a.id) (y := e2.id) (by simp) (List.mem_cons_of_mem _ hm)).2 (hc.spec e2.id hm).1

/-- truncate above the committed position and above the committed membership -/
theorem truncate (h : MemJ ms v g) (hL : LogJ v g) {since : LogId} {dbg : Bool} {ms' : MemState}
    (hc : nextIndex v.committed ≤ since.index) (hm : nextIndex ms.committed.logId ≤ since.index)
    (hp : LogV.lastPurged { v with logIds := LogIdList.truncate v.logIds since.index } = v.lastPurged)
    (hr : RState.MemState.truncate dbg ms since.index = .ok ms') :
    MemJ ms' { v with logIds := LogIdList.truncate v.logIds since.index } (g.run (.truncate since)) := by
  unfold RState.MemState.truncate at hr
  rw [bind_ok] at hr
  obtain ⟨_, _, hr⟩ := hr
  have hpn : v.purgedNext ≤ since.index := by
    have := hL.ord1; have := hL.ord2; have := hL.ord3; omega
  have hsplit := filter_split (ids_cons hL) since.index
  generalize hA : (g.store.entries.filter fun e => decide (e.id.index < since.index)) = A at hsplit
  generalize hB : (g.store.entries.filter fun e => decide (since.index ≤ e.id.index)) = B at hsplit
  have hAi : ∀ m ∈ A.filterMap (·.stored?), nextIndex m.logId ≤ since.index := by
    intro m hm
    obtain ⟨e, he, h1⟩ := mem_stored hm
    rw [← hA] at he
    have := (List.mem_filter.1 he).2
    simp at this; rw [h1]; simp; omega
  have hBi : ∀ m ∈ B.filterMap (·.stored?), since.index < nextIndex m.logId := by
    intro m hm
    obtain ⟨e, he, h1⟩ := mem_stored hm
    rw [← hB] at he
    have := (List.mem_filter.1 he).2
    simp at this; rw [h1]; simp; omega
  have hbi : ∀ m ∈ g.base :: A.filterMap (·.stored?), nextIndex m.logId ≤ since.index := by
    intro m hm
    rcases List.mem_cons.1 hm with rfl | hm
    · have := h.base2; omega
    · exact hAi m hm
  have hms : g.mems = (g.base :: A.filterMap (·.stored?)) ++ B.filterMap (·.stored?) := by
    unfold Gh.mems; rw [hsplit, List.filterMap_append]; rfl
  have hms' : (g.run (.truncate since)).mems = g.base :: A.filterMap (·.stored?) := by
    simp only [Gh.run, Gh.mems, LogStore.truncate, hA]
  have hne : (g.base :: A.filterMap (·.stored?)) ≠ [] := by simp
  generalize hP : (g.base :: A.filterMap (·.stored?)) = P at hms hms' hne hbi
  generalize hQ : B.filterMap (·.stored?) = Q at hms hBi
  have heff := h.eff
  have hcom := h.com
  rcases List.eq_nil_or_concat Q with h0 | ⟨q, b, h0⟩
  · subst h0
    rw [List.append_nil] at hms
    have : ¬ some since.index ≤ ms.effective.logId.map (·.index) := by
      rw [some_le_map_index]
      have := hbi ms.effective (by rw [← hms]; exact h.eff_mem)
      omega
    rw [if_neg this, pure_ok] at hr
    subst hr
    exact ⟨by rw [hms', ← hms]; exact heff, by rw [hms', ← hms]; exact hcom, h.ce, by rw [hp]; exact h.base1, h.base2⟩
  · rw [List.concat_eq_append] at h0
    subst h0
    have hb : ms.effective = b := by
      rw [hms, ← List.append_assoc] at heff; simpa using heff.symm
    have hbb := hBi b (by simp)
    have : some since.index ≤ ms.effective.logId.map (·.index) := by
      rw [some_le_map_index, hb]; exact hbb
    rw [if_pos this, pure_ok] at hr
    subst hr
    have hcm : P.getLast? = some ms.committed := by
      rcases hcom with h1 | h1
      · rw [h1, hb] at hm; omega
      · rw [hms, ← List.append_assoc, List.dropLast_concat] at h1
        rcases List.eq_nil_or_concat q with h2 | ⟨q2, c, h2⟩
        · subst h2; rw [List.append_nil] at h1; exact h1
        · rw [List.concat_eq_append] at h2; subst h2
          rw [← List.append_assoc] at h1
          simp at h1
          subst h1
          have := hBi ms.committed (by simp)
          omega
    exact ⟨by rw [hms']; exact hcm, Or.inl rfl, fun _ => rfl, by rw [hp]; exact h.base1, h.base2⟩

theorem getD_getLast (b : StoredMem) (l : List StoredMem) : (b :: l).getLast? = some (l.getLast?.getD b) := by
  cases l with
  | nil => rfl
  | cons a r => simp [List.getLast?_cons_cons, List.getLast?_cons]

/-- the memberships after a purge inside the log -/
theorem mems_purge (hL : LogJ v g) {u : LogId} (hin : u ∈ v.L) : ∃ A B b',
    g.mems = (g.base :: A) ++ B ∧ (g.run (.purge u)).mems = b' :: B ∧ (g.base :: A).getLast? = some b' ∧
    (g.run (.purge u)).base = b' ∧ (∀ m ∈ A, nextIndex m.logId ≤ u.index + 1 ∧ m.logId ≤ some u) ∧
    (∀ m ∈ B, u.index + 1 < nextIndex m.logId) := by
  have hsplit := filter_split (ids_cons hL) (u.index + 1)
  have e1 : (g.store.entries.filter fun e => decide (e.id.index < u.index + 1)) =
      g.store.entries.filter fun e => decide (e.id.index ≤ u.index) := by
    apply List.filter_congr; intro x _; simp; omega
  have e2 : (g.store.entries.filter fun e => decide (u.index + 1 ≤ e.id.index)) =
      g.store.entries.filter fun e => decide (u.index < e.id.index) := by
    apply List.filter_congr; intro x _; simp; omega
  rw [e1, e2] at hsplit
  refine ⟨(g.store.entries.filter fun e => decide (e.id.index ≤ u.index)).filterMap (·.stored?),
    (g.store.entries.filter fun e => decide (u.index < e.id.index)).filterMap (·.stored?),
    (((g.store.entries.filter fun e => decide (e.id.index ≤ u.index)).filterMap (·.stored?)).getLast?.getD g.base),
    ?_, ?_, ?_, ?_, ?_, ?_⟩
  · unfold Gh.mems
    conv => lhs; rw [hsplit, List.filterMap_append]
    rfl
  · have hn : ¬ nextIndex g.store.lastLogId ≤ u.index := by
      rw [hL.store_last]; have := hL.le_last hin; omega
    simp only [Gh.run, Gh.purge, Gh.mems, if_neg hn, LogStore.purge]
  · exact getD_getLast _ _
  · have hn : ¬ nextIndex g.store.lastLogId ≤ u.index := by
      rw [hL.store_last]; have := hL.le_last hin; omega
    simp only [Gh.run, Gh.purge, if_neg hn]
  · intro m hm
    obtain ⟨e, he, h1⟩ := mem_stored hm
    have h2 := (List.mem_filter.1 he).2
    have h3 := (hL.mem_ids.1 (show e.id ∈ g.ids from List.mem_map.2 ⟨e, (List.mem_filter.1 he).1, rfl⟩)).1
    simp at h2
    rw [h1]
    exact ⟨by simp; omega, (hL.cons.le_iff h3 hin).2 h2⟩
  · intro m hm
    obtain ⟨e, he, h1⟩ := mem_stored hm
    have h2 := (List.mem_filter.1 he).2
    simp at h2
    rw [h1]; simp; omega

theorem base_le (h : MemJ ms v g) (hL : LogJ v g) {u : LogId} (hin : u ∈ v.L) :
    g.base.logId ≤ some u ∧ nextIndex g.base.logId ≤ u.index + 1 := by
  have h1 := hL.ge_purged hin
  have h2 := h.base2
  exact ⟨(h.le_iff hL (m := g.base) (by simp [Gh.mems]) hin).2 (by omega), by omega⟩

/-- purge inside the log -/
theorem purge (h : MemJ ms v g) (hL : LogJ v g) {u : LogId} {ks : LogIdList} (hin : u ∈ v.L)
    (hc : u.index < nextIndex v.committed)
    (hp : LogV.lastPurged { v with purgedNext := u.index + 1, logIds := ks } = some u) :
    MemJ ms { v with purgedNext := u.index + 1, logIds := ks } (g.run (.purge u)) := by
  obtain ⟨A, B, b', h1, h2, h3, h4, h5, h6⟩ := mems_purge hL hin
  have hb' : b'.logId ≤ some u ∧ nextIndex b'.logId ≤ u.index + 1 := by
    rcases List.mem_cons.1 (List.mem_of_getLast? h3) with h7 | h7
    · rw [h7]; exact h.base_le hL hin
    · exact ⟨(h5 b' h7).2, (h5 b' h7).1⟩
  have hne : (g.base :: A) ≠ [] := by simp
  have heff := h.eff
  have hcom := h.com
  rw [h1] at heff hcom
  refine ⟨?_, ?_, h.ce, by rw [hp, h4]; exact hb'.1, by rw [h4]; exact hb'.2⟩
  · rw [h2]
    cases B with
    | nil => rw [List.append_nil, h3] at heff; exact heff
    | cons x B =>
      rw [List.getLast?_append, List.getLast?_cons_cons] at *
      cases hx : (x :: B).getLast? with
      | none => simp at hx
      | some y => rw [hx] at heff; simpa using heff
  · rcases hcom with h7 | h7
    · exact Or.inl h7
    · rcases List.eq_nil_or_concat B with h8 | ⟨B', x, h8⟩
      · subst h8
        left
        rw [List.append_nil, h3] at heff
        have : ms.effective = b' := (Option.some.inj heff).symm
        exact h.ce (by rw [this]; have := hb'.2; omega)
      · rw [List.concat_eq_append] at h8
        subst h8
        right
        rw [← List.append_assoc, List.dropLast_concat] at h7
        rw [h2]
        show (b' :: (B' ++ [x])).dropLast.getLast? = _
        rw [← List.cons_append, List.dropLast_concat]
        cases B' with
        | nil => rw [List.append_nil, h3] at h7; exact h7
        | cons y B' =>
          rw [List.getLast?_append] at h7
          rw [List.getLast?_cons_cons]
          cases hx : (y :: B').getLast? with
          | none => simp at hx
          | some z => rw [hx] at h7; simpa using h7

/-- the result of `update_committed` of the membership state -/
theorem updateCommitted_spec {dbg : Bool} {ms ms' : MemState} {c : StoredMem}
    (h : RState.MemState.updateCommitted dbg ms c = .ok ms') :
    ms' = ⟨if ms.committed.logId < c.logId then c else ms.committed,
      if nextIndex ms.effective.logId ≤ nextIndex c.logId then c else ms.effective⟩ := by
  unfold RState.MemState.updateCommitted at h
  simp only [map_index_le] at h
  split at h
  · rw [bind_ok] at h
    obtain ⟨_, _, h⟩ := h
    rw [pure_ok] at h; exact h.symm
  · rw [pure_ok] at h; exact h.symm

/-- install a snapshot that ends beyond the log -/
theorem install_beyond (hL : LogJ v g) {m : SnapMeta} {io : IOId} {x : LogId} {dbg : Bool}
    {ms' : MemState} {v' : LogV}
    (hx : nextIndex v.last ≤ x.index)
    (hm1 : m.mem.logId ≤ some x) (hm2 : nextIndex m.mem.logId ≤ x.index + 1)
    (he : nextIndex ms.effective.logId ≤ nextIndex m.mem.logId)
    (hc : ms.committed.logId < m.mem.logId ∨ ms.committed = m.mem)
    (hp : v'.lastPurged = some x) (hn : v'.purgedNext = x.index + 1)
    (hr : RState.MemState.updateCommitted dbg ms m.mem = .ok ms') :
    MemJ ms' v' ((g.run (.sm (.install m io))).run (.purge x)) := by
  have hs := updateCommitted_spec hr
  rw [if_pos he] at hs
  have hs' : ms' = ⟨m.mem, m.mem⟩ := by
    rw [hs]
    split
    · rfl
    · next h1 => rcases hc with h2 | h2
                 · exact absurd h2 h1
                 · rw [h2]
  have hempty : (g.store.entries.filter fun e => decide (x.index < e.id.index)) = [] := by
    rw [List.filter_eq_nil_iff]
    intro e he
    have := hL.le_last (hL.mem_ids.1 (show e.id ∈ g.ids from List.mem_map.2 ⟨e, he, rfl⟩)).1
    simp; omega
  have hsl : nextIndex g.store.lastLogId ≤ x.index := by rw [hL.store_last]; exact hx
  have hb : ((g.run (.sm (.install m io))).run (.purge x)).base = m.mem := by
    simp [Gh.run, Gh.purge, hsl]
  have hms : ((g.run (.sm (.install m io))).run (.purge x)).mems = [m.mem] := by
    simp [Gh.run, Gh.purge, Gh.mems, hsl, LogStore.purge, hempty]
  subst hs'
  exact ⟨by rw [hms]; rfl, Or.inl rfl, fun _ => rfl, by rw [hb, hp]; exact hm1, by rw [hb, hn]; exact hm2⟩

/-- What a snapshot inside the log says about the membership is what the log says: it is the last
one at or below the snapshot's position, as far as the state knows it. -/
def SnapMemInside (ms : MemState) (x : LogId) (c : StoredMem) : Prop :=
  if nextIndex ms.effective.logId ≤ x.index + 1 then c = ms.effective
  else if nextIndex ms.committed.logId ≤ x.index + 1 then c = ms.committed
  else c.logId ≤ ms.committed.logId ∧ nextIndex c.logId ≤ nextIndex ms.effective.logId - 1

/-- install a snapshot whose last id is in the log -/
theorem install_inside (h : MemJ ms v g) (hL : LogJ v g) {m : SnapMeta} {io : IOId} {x : LogId} {dbg : Bool}
    {ms' : MemState} {ks : LogIdList}
    (hin : x ∈ v.L) (_hx : nextIndex v.committed ≤ x.index) (hi : SnapMemInside ms x m.mem)
    (hp : (⟨v.vote, some x, x.index + 1, ks, some x, some x⟩ : LogV).lastPurged = some x)
    (hr : RState.MemState.updateCommitted dbg ms m.mem = .ok ms') :
    MemJ ms' ⟨v.vote, some x, x.index + 1, ks, some x, some x⟩ ((g.run (.sm (.install m io))).run (.purge x)) := by
  have hs := updateCommitted_spec hr
  obtain ⟨A, B, b', h1, h2, h3, h4, h5, h6⟩ := mems_purge hL hin
  have h2' : ((g.run (.sm (.install m io))).run (.purge x)).mems = b' :: B := by
    rw [← h2]
    have hn : ¬ nextIndex g.store.lastLogId ≤ x.index := by
      rw [hL.store_last]; have := hL.le_last hin; omega
    simp [Gh.run, Gh.purge, Gh.mems, hn]
  have h4' : ((g.run (.sm (.install m io))).run (.purge x)).base = b' := by
    rw [← h4]
    have hn : ¬ nextIndex g.store.lastLogId ≤ x.index := by
      rw [hL.store_last]; have := hL.le_last hin; omega
    simp [Gh.run, Gh.purge, hn]
  have hb' : b'.logId ≤ some x ∧ nextIndex b'.logId ≤ x.index + 1 := by
    rcases List.mem_cons.1 (List.mem_of_getLast? h3) with h7 | h7
    · rw [h7]; exact h.base_le hL hin
    · exact ⟨(h5 b' h7).2, (h5 b' h7).1⟩
  have heff := h.eff
  have hcom := h.com
  rw [h1] at heff hcom
  have hcl : ms.committed = b' ∨ ms.committed ∈ B ∨ (ms.committed ∈ g.base :: A ∧ ms.committed ≠ b') := by
    by_cases hq : ms.committed = b'
    · exact Or.inl hq
    · rcases List.mem_append.1 (h1 ▸ h.com_mem) with h7 | h7
      · exact Or.inr (Or.inr ⟨h7, hq⟩)
      · exact Or.inr (Or.inl h7)
  unfold SnapMemInside at hi
  by_cases hB : B = []
  · subst hB
    rw [List.append_nil, h3] at heff
    have hb : ms.effective = b' := (Option.some.inj heff).symm
    rw [if_pos (by rw [hb]; exact hb'.2)] at hi
    rw [hi, if_pos (Nat.le_refl _)] at hs
    have hs2 : ms' = ⟨ms.effective, ms.effective⟩ := by
      rw [hs]
      split
      · rfl
      · next hlt =>
        rcases hcom with h7 | h7
        · rw [h7]
        · -- the one before the last has a smaller log id
          exfalso
          apply hlt
          rw [List.append_nil] at h7
          rcases List.eq_nil_or_concat A with h8 | ⟨A', y, h8⟩
          · subst h8; simp at h7
          · rw [List.concat_eq_append] at h8; subst h8
            have hy : ms.effective = y := by
              rw [← List.cons_append, List.getLast?_concat] at h3
              rw [hb]; exact (Option.some.inj h3).symm
            rw [← List.cons_append, List.dropLast_concat] at h7
            have hym : y ∈ g.store.entries.filterMap (·.stored?) := by
              have : g.mems = g.base :: ((A' ++ [y]) ++ []) := h1
              unfold Gh.mems at this
              have := (List.cons.inj this).2
              rw [this]; simp
            obtain ⟨e, he, hyid⟩ := mem_stored hym
            have hcm : ms.committed ∈ g.base :: A' := List.mem_of_getLast? h7
            have hide : e.id ∈ g.ids := List.mem_map.2 ⟨e, he, rfl⟩
            have hidL := (hL.mem_ids.1 hide)
            rw [hy, hyid]
            rcases List.mem_cons.1 hcm with h9 | h9
            · rw [h9, opt_lt_some]
              intro z hz
              have h10 := h.base1
              rw [hz] at h10
              obtain ⟨p, hp1, hp2⟩ := opt_some_le.1 h10
              refine lt_of_le_of_lt hp2 ((hL.cons.lt_iff (hL.purged_mem hp1) hidL.1).2 ?_)
              have : v.purgedNext = p.index + 1 := by rw [hL.pn, hp1]; rfl
              omega
            · -- both in the log
              have hmm : g.store.entries.filterMap (·.stored?) = A' ++ [y] := by
                have : g.mems = g.base :: ((A' ++ [y]) ++ []) := h1
                unfold Gh.mems at this
                simpa using (List.cons.inj this).2
              have hpw := stored_pairwise (ids_cons hL)
              rw [hmm] at hpw
              have := (List.pairwise_append.1 hpw).2.2 ms.committed h9 y (by simp)
              rw [hyid] at this; exact this
    rw [hs2, hb]
    refine ⟨by rw [h2']; rfl, Or.inl rfl, fun _ => rfl, by rw [h4', hp]; exact hb'.1, by rw [h4']; exact hb'.2⟩
  · -- memberships above the snapshot stay
    obtain ⟨B', y, hBy⟩ : ∃ B' y, B = B' ++ [y] := by
      rcases List.eq_nil_or_concat B with h8 | ⟨B', y, h8⟩
      · exact absurd h8 hB
      · exact ⟨B', y, by rw [h8, List.concat_eq_append]⟩
    subst hBy
    have hy : ms.effective = y := by
      rw [← List.append_assoc, List.getLast?_concat] at heff; exact (Option.some.inj heff).symm
    have hyi := h6 y (by simp)
    rw [if_neg (by rw [hy]; omega)] at hi
    have hcom' : ms.committed = y ∨ (g.base :: A ++ B').getLast? = some ms.committed := by
      rcases hcom with h7 | h7
      · left; rw [h7, hy]
      · right; rw [← List.append_assoc, List.dropLast_concat] at h7; exact h7
    by_cases hmc : nextIndex ms.committed.logId ≤ x.index + 1
    · rw [if_pos hmc] at hi
      rw [hi] at hs
      rw [if_neg (lt_irrefl _), if_neg (by rw [hy]; omega)] at hs
      subst hs
      -- then the committed membership is the last one at or below the snapshot
      have hcb : B' = [] ∧ ms.committed = b' := by
        rcases hcom' with h7 | h7
        · rw [h7] at hmc; omega
        · rcases List.eq_nil_or_concat B' with h8 | ⟨B2, z, h8⟩
          · subst h8; rw [List.append_nil, h3] at h7; exact ⟨rfl, (Option.some.inj h7).symm⟩
          · exfalso
            rw [List.concat_eq_append] at h8; subst h8
            rw [← List.append_assoc, List.getLast?_concat] at h7
            have : ms.committed = z := (Option.some.inj h7).symm
            have hz := h6 z (by simp)
            rw [this] at hmc; omega
      obtain ⟨hb0, hcb⟩ := hcb
      subst hb0
      refine ⟨by rw [h2', hy]; simp, Or.inr (by rw [h2']; simp [hcb]), ?_, by rw [h4', hp]; exact hb'.1, by rw [h4']; exact hb'.2⟩
      intro hq; rw [hy] at hq; simp at hq; omega
    · rw [if_neg hmc] at hi
      have hye : nextIndex ms.effective.logId = nextIndex y.logId := by rw [hy]
      rw [if_neg (not_lt.2 hi.1), if_neg (by omega)] at hs
      subst hs
      refine ⟨by rw [h2', hy, ← List.cons_append, List.getLast?_concat], ?_, ?_, by rw [h4', hp]; exact hb'.1, by rw [h4']; exact hb'.2⟩
      · rcases hcom' with h7 | h7
        · left; rw [h7, hy]
        · right
          rw [h2', ← List.cons_append, List.dropLast_concat]
          rcases List.eq_nil_or_concat B' with h8 | ⟨B2, z, h8⟩
          · exfalso
            subst h8; rw [List.append_nil, h3] at h7
            have : ms.committed = b' := (Option.some.inj h7).symm
            rw [this] at hmc; exact hmc hb'.2
          · rw [List.concat_eq_append] at h8; subst h8
            rw [← List.append_assoc, List.getLast?_concat] at h7
            rw [← List.cons_append, List.getLast?_concat]; exact h7
      · intro hq; rw [hy] at hq; simp at hq; omega

end MemJ
end Openraft.Engine
