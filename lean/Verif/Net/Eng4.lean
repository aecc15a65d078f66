import Verif.Net.Eng3

/-!
# The engine agrees with the history: entries of the leader
-/

set_option autoImplicit false
set_option linter.unusedSectionVars false

namespace Openraft.Net
open Openraft.Repl (Panic dassert Inflight)
open Openraft.Engine Openraft.Cluster
open Openraft.VecProgress (AllP BI)
open Openraft.Engine.Eng (Following Pre Took)
open Openraft.Engine.MemJ (appendMems_spec)

variable {m0 : Membership} [hne : Fact (m0.configs ≠ [])] {g g' : Ghost} {dv dv' : NodeId → Vote} {q : NodeId} {g0 : Gh} {p : Nat} {dbg : Bool} {now : Nat}

/-- a follower of another node -/
theorem EC.follow {l : Log} {e : Eng} (hf : Following e)
    (ha : ∀ x, e.st.accLast = some x → idAt (g.ll e.st.vote.data.leaderId) x.index = some x)
    (hm : e.st.ms.committed = e.st.ms.effective → ∀ y, e.st.ms.committed.logId = some y → CVote g e.st.vote.data (l.take (y.index + 1))) :
    EC g q l e := EC.norole hf.leader hf.cand (fun _ _ => ha) hm

theorem fhTruncate_out {e e' : Eng} {n : Nat} (hr : Eng.fhTruncate dbg e n = .ok e') :
    (e.st.getLogId n = none ∧ e' = e) ∨ ∃ id, e.st.getLogId n = some id ∧ e'.out = e.out ++ [.truncate id] := by
  unfold Eng.fhTruncate at hr
  rw [bind_ok] at hr
  obtain ⟨_, _, hr⟩ := hr
  split at hr
  · next hn => rw [pure_ok] at hr; exact Or.inl ⟨hn, hr.symm⟩
  · next id hid =>
    rw [bind_ok] at hr
    obtain ⟨ms, _, hr⟩ := hr
    refine Or.inr ⟨id, hid, ?_⟩
    dsimp only at hr
    split at hr <;> (rw [pure_ok] at hr; rw [← hr]; rfl)

/-- cutting the log at a position where the leader has another entry -/
theorem en_fhTruncate (hg : GInv m0 g) {e e' : Eng} (h : LM g0 e) (hgv : (g0.runs e.out).vote = e.st.vote.data) (hn : EN g dv q g0 p e)
    (hf : Following e) {x : LogId} (hx : idAt (g.ll e.st.vote.data.leaderId) x.index = some x) (hxn : x ∉ e.st.lv.L)
    (h1 : nextIndex e.st.committed ≤ x.index)
    (h2 : ∀ y ∈ e.st.lv.L, y.index = x.index → nextIndex e.st.ms.committed.logId ≤ x.index)
    (hr : Eng.fhTruncate dbg e x.index = .ok e') : EN g dv q g0 p e' ∧ elog g g0 e' = (elog g g0 e).take x.index := by
  have hvs := hn.sq.endVS hg h.oks
  obtain ⟨hlm, ht⟩ := Eng.lm_fhTruncate h h1 h2 hr
  rcases fhTruncate_out hr with ⟨h3, rfl⟩ | ⟨id, h3, hout⟩
  · refine ⟨hn, ?_⟩
    rw [List.take_of_length_le]
    rw [elog_len h hvs]; exact ht.lastLe
  · obtain ⟨hin, hidx⟩ := (Eng.getLogId_iff h).1 h3
    have hok : (g0.runs e.out).Ok (.truncate id) := by
      have := hlm.oks
      rw [hout, Gh.oks_snoc] at this; exact this.2
    have hleg : Legal g dv q (g0.runs e.out) (.truncate id) := by
      refine ⟨by rw [hgv]; exact hf.com, by rw [hgv, ← hn.id]; exact hf.node, ?_⟩
      obtain ⟨a, ha, hxa⟩ := idAt_some.1 hx
      refine ⟨a, by rw [hgv, hidx]; exact ha, ?_⟩
      intro hlid
      refine hxn ?_
      have : x = id := by
        rw [hxa, hlid, ← hidx]
      rw [this]; exact hin
    have hrun := hvs.run_truncate hg hok hleg
    have hlog : elog g g0 e' = (elog g g0 e).take x.index := by
      unfold elog; rw [hout, Gh.runs_snoc, hrun.2, hidx]
    have hcm := h2 id hin hidx
    refine ⟨⟨by rw [hout]; exact hn.sq.snoc hleg, EC.norole (by rw [ht.leader]; exact hf.leader) (by rw [ht.cand]; exact hf.cand) ?_ ?_,
      by rw [ht.cfg]; exact hn.id⟩, hlog⟩
    · have : e'.st.accLast = e.st.accLast := by unfold RState.accLast; rw [ht.acc]
      rw [ht.vote, this]; exact hn.ec.acc
    · intro _ y hy
      rw [ht.mcom] at hy
      rw [ht.vote, hlog, List.take_take]
      rw [hy] at hcm
      simp only [nextIndex_some] at hcm
      rw [Nat.min_eq_left (by omega)]
      exact hn.ec.mcom1 hg h hgv hvs hy

theorem stored_logId {e : Ent} {m : StoredMem} (h : e.stored? = some m) : m.logId = some e.id := by
  rw [stored?_cfg] at h
  cases hc : (toEntry e).cfg with
  | none => rw [hc] at h; cases h
  | some x => rw [hc] at h; cases h; rfl

/-- the memberships of consecutive entries have increasing indexes -/
theorem stored_pairwise {es : List Ent} (hc : Cons (es.map (·.id))) :
    (es.filterMap (·.stored?)).Pairwise fun a b => nextIndex a.logId < nextIndex b.logId := by
  induction es with
  | nil => simp
  | cons e es ih =>
    have h1 := ih hc.tail
    rw [List.filterMap_cons]
    split
    · exact h1
    · next m hm =>
      refine List.pairwise_cons.2 ⟨fun b hb => ?_, h1⟩
      obtain ⟨x, hx, hbx⟩ := List.mem_filterMap.1 hb
      rw [stored_logId hm, stored_logId hbx]
      have : e.id.index < x.id.index := by
        rw [List.map_cons] at hc
        obtain ⟨i, hi⟩ := List.getElem?_of_mem hx
        have := hc.getElem? (i := i + 1) (x := x.id) (by simp [hi])
        omega
      simp only [nextIndex_some]; omega

theorem fhDoAppend_ok {e e' : Eng} {v : Vote} {es : List Ent} (hr : Eng.fhDoAppend dbg e v es = .ok e') :
    e'.out = e.out ++ [.append v es] ∧ Eng.appendMems dbg e.st.ms (Eng.lastTwo es) = .ok e'.st.ms := by
  unfold Eng.fhDoAppend at hr
  simp only [bind_ok] at hr
  obtain ⟨_, _, _, _, _, _, e1, he1, hr⟩ := hr
  rw [pure_ok] at hr
  obtain ⟨ms, srv, h1, h2⟩ := Eng.fhAppendMembership_ok he1
  subst hr
  subst h2
  exact ⟨rfl, h1⟩

/-- the membership in effect is not the committed one after a membership was appended -/
theorem doAppend_mcom {e e' : Eng} {v w : Vote} {es : List Ent} (h : LM g0 e) (hv : VS g dv q (g0.runs e.out))
    (hc : Cons (es.map (·.id))) (hi : ∀ x ∈ es, (elog g g0 e).length ≤ x.id.index)
    (hm : e.st.ms.committed = e.st.ms.effective → ∀ y, e.st.ms.committed.logId = some y → CVote g w ((elog g g0 e).take (y.index + 1)))
    (hr : Eng.fhDoAppend dbg e v es = .ok e') :
    e'.st.ms.committed = e'.st.ms.effective → ∀ y, e'.st.ms.committed.logId = some y →
      CVote g w ((elog g g0 e ++ es.map toEntry).take (y.index + 1)) := by
  intro heq y hy
  have hspec := appendMems_spec (fhDoAppend_ok hr).2
  have hpw := stored_pairwise hc
  have heff := eff_memOf h hv
  have hefflt : nextIndex e.st.ms.effective.logId ≤ (elog g g0 e).length := by
    cases hx : e.st.ms.effective.logId with
    | none => simp
    | some x =>
      rw [heff] at hx
      have := idAt_lt (memOf_logId hx)
      simp only [nextIndex_some]; omega
  have hnew : ∀ m ∈ es.filterMap (·.stored?), (elog g g0 e).length < nextIndex m.logId := by
    intro m hm
    obtain ⟨x, hx, hmx⟩ := List.mem_filterMap.1 hm
    rw [stored_logId hmx]
    have := hi x hx
    simp only [nextIndex_some]; omega
  rcases List.eq_nil_or_concat (es.filterMap (·.stored?)) with h0 | ⟨pre, b, h0⟩
  · have h1 := hspec.1 (by simp [Eng.lastTwo, h0])
    rw [h1] at heq hy
    have := hm heq y hy
    rw [take_eq_of_pre (List.prefix_append _ _)]
    · exact this
    · rw [heq] at hy; rw [hy] at hefflt; exact hefflt
  · rw [List.concat_eq_append] at h0
    rcases List.eq_nil_or_concat pre with h1 | ⟨pre2, a, h1⟩
    · subst h1
      have h2 := hspec.2.1 b (by simp [Eng.lastTwo, h0])
      rw [h2] at heq
      simp only at heq
      have := hnew b (by rw [h0]; simp)
      rw [← heq] at this; omega
    · rw [List.concat_eq_append] at h1
      subst h1
      have h2 := hspec.2.2 a b (by simp [Eng.lastTwo, h0])
      rw [h2] at heq
      simp only at heq
      rw [h0] at hpw
      have := (List.pairwise_append.1 hpw).2.2 a (by simp) b (by simp)
      rw [heq] at this; omega

/-- the part of the log that the follower found to agree with the leader -/
theorem take_of_pre (hg : GInv m0 g) {e : Eng} (h : LM g0 e) (hv : VS g dv q (g0.runs e.out)) {L : LeaderId} {n : Nat}
    (hp : Pre (idsFrom 0 (g.ll L)) e.st n) (hn : e.st.lv.purgedNext ≤ n) : (elog g g0 e).take n = (g.ll L).take n := by
  cases n with
  | zero => simp
  | succ n =>
    obtain ⟨x, hx, hi⟩ := h.log.exists_index hn (Nat.lt_of_lt_of_le (Nat.lt_succ_self n) hp.2)
    have h1 := mem_ids0.1 (hp.1 x hx (by omega))
    have h2 := match_of_idAt hv.good (hg.goodL L) (elog_mem h hv hx) h1
    rw [hi] at h2; exact h2

theorem en_fhAppendEntries (hg : GInv m0 g) {e e' : Eng} {prev : Option LogId} {es : List Ent} {lc : Option LogId}
    (h : EInv g0 e) (hn : EN g dv q g0 p e) (hf : Following e) (hpk : AppPkt g e.st.vote.data prev es lc)
    (hl : LeadLog (idsFrom 0 (g.ll e.st.vote.data.leaderId)) e.st.vote.data e.st.lv.L (e.floor e.st.vote.data))
    (hpre : Pre (idsFrom 0 (g.ll e.st.vote.data.leaderId)) e.st (nextIndex prev))
    (hr : Eng.fhAppendEntries dbg e e.st.vote.data prev es = .ok e') : EN g dv q g0 p e' := by
  obtain ⟨f1, f2, f3⟩ := Eng.floor_parts (e := e) rfl
  have hvs := hn.sq.endVS hg h.lm.oks
  have hes : ∀ x ∈ es, x.id ∈ idsFrom 0 (g.ll e.st.vote.data.leaderId) := fun x hx => mem_ids0.2 (hpk.idAt hx)
  have hcons := hpk.cons hg
  have hh : ∀ x, es.head? = some x → x.id.index = nextIndex prev := by
    intro x hx
    have := hpk.idx 0 x (by rw [← List.head?_eq_getElem?]; exact hx)
    omega
  unfold Eng.fhAppendEntries at hr
  simp only [bind_ok] at hr
  obtain ⟨_, _, st, hst, k, hk, hr⟩ := hr
  obtain ⟨a, ha1, ha2, ha3⟩ := h.pj.acc
  obtain ⟨⟨io, hio⟩, hacc, a', ha', hav'⟩ := Eng.acceptIo_same ha1 ha2 hf.com hst
  subst hio
  have hal0 : e.st.accLast = a.last := by unfold RState.accLast; rw [ha1]; rfl
  have hlm := Eng.lm_setIo h.lm io
  obtain ⟨s1, s2, s3, s4⟩ := Eng.firstConflicting_spec hlm hl f1 hes hcons hh hpre hk
  have hfol : Following { e with st := { e.st with io := io } } :=
    ⟨hf.leader, hf.cand, hf.com, hf.node, ⟨a', ha', hav'⟩⟩
  have hn1 : EN g dv q g0 p { e with st := { e.st with io := io } } := by
    refine ⟨hn.sq, EC.follow hfol ?_ hn.ec.mcom, hn.id⟩
    intro x hx
    have hx : ({ e.st with io := io } : RState).accLast = some x := hx
    rw [hacc] at hx
    rcases Eng.max_cases a.last (max prev (es.getLast?.map (·.id))) with h1 | h1
    · rw [h1, ← hal0] at hx; exact hn.ec.acc hf.com (by rw [← hn.id]; exact hf.node) x hx
    · rw [h1] at hx
      rcases Eng.max_cases prev (es.getLast?.map (·.id)) with h1 | h1
      · rw [h1] at hx; exact hpk.prevIn x hx
      · rw [h1] at hx
        cases hgl : es.getLast? with
        | none => rw [hgl] at hx; cases hx
        | some z =>
          rw [hgl] at hx; simp only [Option.map_some, Option.some.injEq] at hx
          subst hx; exact hpk.idAt (List.mem_of_getLast? hgl)
  split at hr
  · next x xs hdrop =>
    rw [bind_ok] at hr
    obtain ⟨e1, he1, hr⟩ := hr
    obtain ⟨t1, t2, t3⟩ := s3 x (by rw [hdrop]; rfl)
    have hxes : x ∈ es := List.mem_of_mem_drop (by rw [hdrop]; simp)
    have hfl := Eng.floor_le hl (hes x hxes) t3
    have ht2 : ∀ y ∈ e.st.lv.L, y.index = x.id.index → nextIndex e.st.ms.committed.logId ≤ x.id.index :=
      fun y hy hi => Nat.le_trans f2 (hfl y hy hi)
    obtain ⟨h4, h5⟩ := Eng.lm_fhTruncate hlm t2 ht2 he1
    obtain ⟨hn2, hlog2⟩ := en_fhTruncate hg hlm h.pj.gv hn1 hfol (hpk.idAt hxes) t3 t2 ht2 he1
    have hvs2 := hn2.sq.endVS hg h4.oks
    have hpn : e.st.lv.purgedNext ≤ nextIndex prev + k := Nat.le_trans (Eng.purged_le_com h.lm) (by rw [← t1]; exact t2)
    have htk : (elog g g0 e).take x.id.index = (g.ll e.st.vote.data.leaderId).take x.id.index := by
      rw [t1]; exact take_of_pre hg h.lm hvs s1 hpn
    have hsub : ∀ z ∈ x :: xs, z ∈ es := fun z hz => List.mem_of_mem_drop (by rw [hdrop]; exact hz)
    have hcx : Cons ((x :: xs).map (·.id)) := by
      have := hcons.drop k
      rw [← List.map_drop, hdrop] at this; exact this
    have hv1 : e1.st.vote.data = e.st.vote.data := by rw [h5.vote]
    have hlog1 : elog g g0 e1 = (g.ll e.st.vote.data.leaderId).take x.id.index := by rw [hlog2]; exact htk
    have hxl : x.id.index < (g.ll e.st.vote.data.leaderId).length := idAt_lt (hpk.idAt hxes)
    have hlen1 : (elog g g0 e1).length = x.id.index := by rw [hlog1, List.length_take]; omega
    have happ : elog g g0 e1 ++ (x :: xs).map toEntry <+: g.ll e.st.vote.data.leaderId := by
      have h6 : (x :: xs).map toEntry = ((g.ll e.st.vote.data.leaderId).drop x.id.index).take (es.length - k) := by
        rw [← hdrop, List.map_drop, hpk.ents, List.drop_take, List.drop_drop, t1]
      rw [hlog1, h6, ← List.take_add]
      exact List.take_prefix _ _
    have hl1 : nextIndex e1.st.lastLogId = x.id.index := by rw [← elog_len h4 hvs2]; exact hlen1
    obtain ⟨d1, d2, d3, d4, d5, d6, d7, d8, d9, d10⟩ := Eng.lm_fhDoAppend h4 (by simp)
      (by intro z hz; simp at hz; subst hz; exact hl1.symm) hcx
      (by
        intro l z hl' hz
        simp at hz; subst hz
        have hlm1 := h4.log.last_mem (x := l) hl'
        have h7 := idAt_pre ((List.prefix_append _ _).trans happ) (elog_mem h4 hvs2 hlm1)
        have h8 := hpk.idAt hxes
        have h9 := h4.log.le_last hlm1
        have h9' : nextIndex e1.st.lv.last = x.id.index := hl1
        exact hl.cons.mono (mem_ids0.2 h7) (mem_ids0.2 h8) (by omega))
      (by intro z hz; rw [hv1]; exact hl.bound _ (hes z (hsub z hz))) (by rw [hv1]) hr
    have hout := (fhDoAppend_ok hr).1
    have hgv1 : (g0.runs e1.out).vote = e.st.vote.data := by rw [h5.gv]; exact h.pj.gv
    have hleg : Legal g dv q (g0.runs e1.out) (.append e.st.vote.data (x :: xs)) := by
      refine ⟨(hg.goodL _).pre happ, ?_, Or.inl (by rw [hgv1]; exact hf.com)⟩
      intro z hz
      right
      rw [hgv1]
      have := hl.bound _ (hes z (hsub z hz))
      rcases lt_or_eq_of_le this with h6 | h6
      · exact Vote.le_def.2 (Or.inl h6)
      · exact Vote.le_def.2 (Or.inr ⟨h6, fun _ => hf.com⟩)
    have hok : (g0.runs e1.out).Ok (.append e.st.vote.data (x :: xs)) := by
      have := d1.oks
      rw [hout, Gh.oks_snoc] at this; exact this.2
    have hrun := hvs2.run_append hok hleg
    have hlog' : elog g g0 e' = elog g g0 e1 ++ (x :: xs).map toEntry := by
      unfold elog; rw [hout, Gh.runs_snoc, hrun.2]
    refine ⟨by rw [hout]; exact hn2.sq.snoc hleg, EC.norole (by rw [d7, h5.leader]; exact hf.leader) (by rw [d8, h5.cand]; exact hf.cand) ?_ ?_,
      by rw [d3]; exact hn2.id⟩
    · have : e'.st.accLast = e1.st.accLast := by unfold RState.accLast; rw [d6]
      rw [d4, this]; exact hn2.ec.acc
    · rw [hlog', d4]
      refine doAppend_mcom h4 hvs2 hcx ?_ hn2.ec.mcom hr
      intro z hz
      rw [hlen1]
      exact hcx.head_le (a := x.id) rfl (List.mem_map.2 ⟨z, hz, rfl⟩)
  · split at hr
    · rw [pure_ok] at hr; subst hr; exact hn1
    · rw [pure_ok] at hr; subst hr
      refine hn1.frame' (Frame.push _ (c := .updateIO _ _) rfl) rfl ⟨fun hx => ?_, trivial⟩
      exact absurd (hx.trans hn.id.symm) hf.node

end Openraft.Net
