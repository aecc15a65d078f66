import Verif.Net.Eng5
import Verif.Engine.Shape
import Verif.Net.Model

/-!
# The engine agrees with the history: snapshots of the leader
-/

set_option autoImplicit false
set_option linter.unusedSectionVars false

namespace Openraft.Net
open Openraft.Repl (Panic dassert Inflight)
open Openraft.Engine Openraft.Cluster
open Openraft.VecProgress (AllP BI)
open Openraft.Engine.Eng (Following Pre Took)

variable {m0 : Membership} [hne : Fact (m0.configs ≠ [])] {g g' : Ghost} {dv dv' : NodeId → Vote} {q : NodeId} {g0 : Gh} {p : Nat} {dbg : Bool} {now : Nat}

/-! ## The last membership of a prefix -/

theorem memOf_le (l : Log) : nextIndex (memOf l).logId ≤ l.length := by
  cases h : (memOf l).logId with
  | none => simp
  | some x => have := idAt_lt (memOf_logId h); simp only [nextIndex_some]; omega

theorem memOf_none {l : Log} (h : (memOf l).logId = none) : memOf l = StoredMem.empty ∧ ∀ e ∈ l, e.cfg = none := by
  unfold memOf at h ⊢
  cases hl : lastCfg l with
  | none => exact ⟨rfl, lastCfg_none.1 hl⟩
  | some r =>
    obtain ⟨i, m⟩ := r
    rw [hl] at h
    have := lastCfg_lt hl
    obtain ⟨⟨e, he, _⟩, _⟩ := lastCfg_some.1 hl
    simp [idAt, he] at h

theorem memOf_some {l : Log} {x : LogId} (h : (memOf l).logId = some x) :
    lastCfg l = some (x.index, (memOf l).mem) ∧ memOf l = ⟨some x, (memOf l).mem⟩ := by
  unfold memOf at h ⊢
  cases hl : lastCfg l with
  | none => rw [hl] at h; cases h
  | some r =>
    obtain ⟨i, m⟩ := r
    rw [hl] at h
    simp only at h
    have := idAt_index h
    subst this
    exact ⟨rfl, by simp only [h]⟩

theorem memOf_of_cfg {l : Log} {x : LogId} {m : Membership} (h : lastCfg l = some (x.index, m)) (hx : idAt l x.index = some x) :
    memOf l = ⟨some x, m⟩ := by
  unfold memOf
  rw [h]
  simp only [hx]

/-- a prefix that has the last membership of the log -/
theorem memOf_pre {a b : Log} (h : a <+: b) (hn : nextIndex (memOf b).logId ≤ a.length) : memOf a = memOf b := by
  cases hb : (memOf b).logId with
  | none =>
    obtain ⟨h1, h2⟩ := memOf_none hb
    rw [h1]
    unfold memOf
    rw [lastCfg_none.2 fun e he => h2 e (h.subset he)]
  | some x =>
    rw [hb] at hn
    simp only [nextIndex_some] at hn
    obtain ⟨h1, h2⟩ := memOf_some hb
    rw [h2]
    refine memOf_of_cfg (lastCfg_pre h h1 (by omega)) ?_
    have := memOf_logId hb
    obtain ⟨e, he, hx⟩ := idAt_some.1 this
    exact idAt_some.2 ⟨e, by rw [← get_of_pre h (by omega)]; exact he, hx⟩

/-- the last memberships of two logs that agree up to the one of the first -/
theorem memOf_grow {a b : Log} {y : LogId} (hy : (memOf a).logId = some y) (hp : a.take (y.index + 1) <+: b) :
    memOf a = memOf b ∨ ∃ z, (memOf b).logId = some z ∧ y.index < z.index := by
  obtain ⟨h1, h2⟩ := memOf_some hy
  obtain ⟨⟨e, he, hm⟩, _⟩ := lastCfg_some.1 h1
  have hlt := lt_of_get he
  have hb : b[y.index]? = some e := get_of_pre_some hp (by rw [get_take (by omega)]; exact he)
  have hyb : idAt b y.index = some y := idAt_pre hp (by
    obtain ⟨e', he', hx⟩ := idAt_some.1 (memOf_logId hy)
    exact idAt_some.2 ⟨e', by rw [get_take (by omega)]; exact he', hx⟩)
  cases hz : (memOf b).logId with
  | none =>
    have := (memOf_none hz).2 e (List.mem_of_getElem? hb)
    rw [hm] at this; cases this
  | some z =>
    obtain ⟨h3, h4⟩ := memOf_some hz
    obtain ⟨⟨e', he', hm'⟩, hmax⟩ := lastCfg_some.1 h3
    rcases Nat.lt_trichotomy y.index z.index with hlt | heq | hgt
    · exact Or.inr ⟨z, rfl, hlt⟩
    · refine Or.inl ?_
      rw [heq] at hb hyb
      rw [he'] at hb; cases hb
      rw [hm] at hm'
      have hzz := memOf_logId hz
      rw [hyb] at hzz
      cases hzz
      rw [h2, h4, Option.some.inj hm']
    · have := hmax _ _ hgt hb
      rw [hm] at this; cases this

/-- the committed membership of the engine is the last one of a prefix of its log -/
theorem mcom_cases {e : Eng} (h : LM g0 e) (hv : VS g dv q (g0.runs e.out)) :
    ∃ k ≤ (elog g g0 e).length, e.st.ms.committed = memOf ((elog g g0 e).take k) ∧
      (k = (elog g g0 e).length ∨ nextIndex e.st.ms.effective.logId = k + 1) := by
  have heff := eff_memOf h hv
  by_cases heq : e.st.ms.committed = e.st.ms.effective
  · exact ⟨_, le_refl _, by rw [List.take_length, heq, heff], Or.inl rfl⟩
  · have hc := h.mem.com.resolve_left heq
    have hce : nextIndex e.st.committed < nextIndex e.st.ms.effective.logId := by
      by_contra hx; exact heq (h.mem.ce (by show _ ≤ nextIndex e.st.committed; omega))
    have hef := h.mem.eff
    unfold Gh.mems at hc hef
    rcases List.eq_nil_or_concat ((g0.runs e.out).store.entries.filterMap (·.stored?)) with hX | ⟨X, x, hX⟩
    · rw [hX] at hc; cases hc
    · rw [hX, List.concat_eq_append, ← List.cons_append, List.dropLast_concat, List.getLast?_cons] at hc
      rw [hX, List.concat_eq_append, ← List.cons_append, List.getLast?_concat] at hef
      rw [List.concat_eq_append] at hX
      obtain ⟨A, B, hAB, hA, hB⟩ := List.filterMap_eq_append_iff.1 hX
      obtain ⟨B1, e2, B2, hB', hB1, he2, hB2⟩ := List.filterMap_eq_cons_iff.1 hB
      have hxe : x = e.st.ms.effective := Option.some.inj hef
      have hid : e.st.ms.effective.logId = some e2.id := by
        rw [← hxe]
        rw [stored?_cfg] at he2
        cases hcf : (toEntry e2).cfg with
        | none => rw [hcf] at he2; cases he2
        | some m => rw [hcf] at he2; cases he2; rfl
      have hpos : ∀ i e', (A ++ B1)[i]? = some e' → e'.id.index = (cont g (g0.runs e.out).store.purged).length + i := by
        intro i e' he
        rw [hv.st.baseLen]
        refine hv.st.pos i e' ?_
        rw [hAB, hB', ← List.append_assoc, List.getElem?_append_left (lt_of_get he)]; exact he
      have hi2 : e2.id.index = (cont g (g0.runs e.out).store.purged).length + (A ++ B1).length := by
        rw [hv.st.baseLen]
        refine hv.st.pos _ e2 ?_
        rw [hAB, hB', ← List.append_assoc]; simp
      have hmo := memOf_append (cont g (g0.runs e.out).store.purged) (A ++ B1) hpos
      have hf : (A ++ B1).filterMap (·.stored?) = X := by
        rw [List.filterMap_append, hA, List.filterMap_eq_nil_iff.2 hB1, List.append_nil]
      rw [hf] at hmo
      have hlog : elog g g0 e = (cont g (g0.runs e.out).store.purged ++ (A ++ B1).map toEntry) ++ toEntry e2 :: B2.map toEntry := by
        show cont g (g0.runs e.out).store.purged ++ (g0.runs e.out).store.entries.map toEntry = _
        rw [hAB, hB']; simp
      have hk : (cont g (g0.runs e.out).store.purged ++ (A ++ B1).map toEntry).length = e2.id.index := by
        rw [hi2, List.length_append, List.length_map]
      refine ⟨e2.id.index, ?_, ?_, Or.inr (by rw [hid]; rfl)⟩
      · rw [hlog, ← hk]; simp
      · have htk : (elog g g0 e).take e2.id.index = cont g (g0.runs e.out).store.purged ++ (A ++ B1).map toEntry := by
          rw [hlog]; exact List.take_left' hk
        rw [htk, hmo]
        cases hx : X.getLast? with
        | some z =>
          rw [hx] at hc
          exact (Option.some.inj hc).symm
        | none =>
          rw [hx] at hc
          simp only [Option.getD_none, Option.some.injEq] at hc ⊢
          rw [← hc]
          refine hv.base fun e' he' hs => ?_
          rw [List.getLast?_eq_none_iff] at hx
          rw [hx, List.filterMap_eq_nil_iff] at hA
          rw [List.filterMap_eq_nil_iff] at hB2
          rw [hAB, hB'] at he'
          rcases List.mem_append.1 he' with h1 | h1
          · exact absurd (hA e' h1) hs
          · rcases List.mem_append.1 h1 with h1 | h1
            · exact absurd (hB1 e' h1) hs
            · rcases List.mem_cons.1 h1 with h1 | h1
              · rw [h1, h.log.com]
                rw [hid] at hce
                simp only [nextIndex_some] at hce
                show nextIndex e.st.committed ≤ _
                omega
              · exact absurd (hB2 e' h1) hs

/-! ## Snapshots -/

/-- a snapshot of the leader of `v` -/
structure SnapPkt (g : Ghost) (v : Vote) (m : SnapMeta) : Prop where
  com : v.committed = true
  el : ∃ S, g.el v.leaderId = some S
  ok : ∃ x, m.lastLogId = some x ∧ Val g x ∧ CVote g v (cont g (some x)) ∧ m.mem = memOf (cont g (some x))

/-- `SnapFit`, by the log -/
def SnapFitL (e : Eng) (m : SnapMeta) : Prop :=
  ∀ x, m.lastLogId = some x → e.st.committed < some x → nextIndex e.st.committed ≤ x.index →
    (x ∈ e.st.lv.L ∨ nextIndex e.st.lastLogId ≤ x.index) ∧
    (x ∉ e.st.lv.L → nextIndex e.st.ms.effective.logId ≤ nextIndex m.mem.logId)

theorem SnapFit.use {e : Eng} {m : SnapMeta} (hfit : SnapFit e m) (h : LM g0 e) : SnapFitL e m := by
  intro x hx hlt hci
  obtain ⟨h1, h2⟩ := hfit x hx hlt
  cases hl : e.st.getLogId x.index with
  | some y =>
    have hy := h1 y hl
    subst hy
    have hin := ((Eng.getLogId_iff h).1 hl).1
    exact ⟨Or.inl hin, fun hn => absurd hin hn⟩
  | none =>
    have := Eng.purged_le_com h
    exact ⟨Or.inr (Eng.getLogId_none h hl (by omega)), fun _ => h2 hl⟩

/-- the premises of the engine about a snapshot hold when it comes from the history -/
theorem snapOk_of (hg : GInv m0 g) {e : Eng} (h : EInv g0 e) (hn : EN g dv q g0 p e) {v : Vote} {m : SnapMeta}
    (hp : SnapPkt g v m) (hq : v.leaderId.node ≠ q) (hle : e.st.vote.data ≤ v) (hfit : SnapFitL e m)
    {x : LogId} (hx : m.lastLogId = some x) (hlt : e.st.committed < some x) : Eng.SnapOk e v m x := by
  obtain ⟨x', hx', hval, hcv, hmem⟩ := hp.ok
  rw [hx] at hx'; cases hx'
  have hvs := hn.sq.endVS hg h.lm.oks
  have hgood := hg.goodL v.leaderId
  have hxc := cont_last hval
  have hclen := cont_len hval
  have hpre := hcv.ll hg (le_refl _) hp.el
  have hxl : idAt (g.ll v.leaderId) x.index = some x := idAt_pre hpre hxc
  have hll := leadLog_of hg h hn hp.com hp.el hq hle
  have hcont := cont_good hg (some x)
  have hkey := mcom_cases h.lm hvs
  have hxin : x ∈ e.st.lv.L → idAt (elog g g0 e) x.index = some x := elog_mem h.lm hvs
  have hci : nextIndex e.st.committed ≤ x.index := by
    cases hc : e.st.committed with
    | none => simp
    | some c =>
      rw [hc] at hlt
      have hcl : idAt (g.ll v.leaderId) c.index = some c := by
        refine mem_ids0.1 (hll.agree c (h.lm.log.comIn c hc) ?_)
        show c.index < e.floor v
        have h2 : nextIndex e.st.committed ≤ e.floor v := by
          unfold Eng.floor; exact le_trans (le_max_left _ _) (le_max_left _ _)
        rw [hc] at h2; simp only [nextIndex_some] at h2; omega
      have := idAt_lt' hg hgood hcl hxl hlt
      simp only [nextIndex_some]; omega
  obtain ⟨hf1, hf2⟩ := hfit x hx hlt hci
  refine ⟨?_, hci, ?_, ?_, ?_, ?_, ?_⟩
  · obtain ⟨a, ha, hxa⟩ := idAt_some.1 hxc
    have := lid_of_le (hcv.lids hg (List.mem_of_getElem? ha))
    rw [hxa]; exact this
  · intro y hy hi hfl
    have h1 := mem_ids0.1 (hll.agree y hy (by rw [hi]; exact hfl))
    rw [hi, hxl] at h1
    exact (Option.some.inj h1).symm
  · intro a hv ha hi
    have h1 := hn.ec.acc (by rw [hv]; exact hp.com) (by rw [hv]; exact hq) a ha
    rw [hv] at h1
    exact ((cons_ids hg hgood).le_iff (mem_ids0.2 h1) (mem_ids0.2 hxl)).2 hi
  · rintro ⟨y, hy, hi, hyx⟩
    rcases hf1 with h1 | h1
    · have h2 := elog_mem h.lm hvs hy
      rw [hi, hxin h1] at h2
      exact absurd (Option.some.inj h2).symm hyx
    · have := h.lm.log.le_last hy
      have h3 : nextIndex e.st.lv.last = nextIndex e.st.lastLogId := rfl
      omega
  · intro hin
    have hxe := hxin hin
    have htake : (elog g g0 e).take (x.index + 1) = cont g (some x) := (take_of_idAt hvs.good hxe).2
    have hlen := idAt_lt hxe
    have heff := eff_memOf h.lm hvs
    rw [← htake] at hmem
    obtain ⟨k, hk, hc, hcase⟩ := hkey
    unfold MemJ.SnapMemInside
    split
    · next h1 =>
      rw [hmem, heff]
      refine memOf_pre (List.take_prefix _ _) ?_
      rw [← heff, List.length_take]; omega
    · next h1 =>
      have hnk : x.index + 1 ≤ k := by
        rcases hcase with h2 | h2 <;> omega
      have htt : (elog g g0 e).take (x.index + 1) <+: (elog g g0 e).take k := take_pre_take hnk
      split
      · next h2 =>
        rw [hmem, hc]
        refine memOf_pre htt ?_
        rw [← hc, List.length_take]; omega
      · next h2 =>
        have hml := memOf_le ((elog g g0 e).take (x.index + 1))
        rw [← hmem, List.length_take] at hml
        refine ⟨?_, by omega⟩
        cases hz : m.mem.logId with
        | none => exact OptOrd.none_le' _
        | some z =>
          rw [hz] at hml
          simp only [nextIndex_some] at hml
          cases hy : e.st.ms.committed.logId with
          | none => rw [hy] at h2; simp at h2
          | some y =>
            rw [hy] at h2
            simp only [nextIndex_some] at h2
            have h3 : idAt (elog g g0 e) z.index = some z := idAt_pre (List.take_prefix _ _) (memOf_logId (by rw [← hmem]; exact hz))
            have h4 : idAt (elog g g0 e) y.index = some y := idAt_pre (List.take_prefix _ _) (memOf_logId (by rw [← hc]; exact hy))
            exact ((cons_ids hg hvs.good).le_iff (mem_ids0.2 h3) (mem_ids0.2 h4)).2 (by omega)
  · intro hnin
    have hbe : nextIndex e.st.lastLogId ≤ x.index := hf1.resolve_left hnin
    have hhead := hg.goodHead hcont (by intro h0; rw [h0] at hclen; simp at hclen)
    obtain ⟨z, hz⟩ : ∃ z, (memOf (cont g (some x))).logId = some z := by
      cases hz : (memOf (cont g (some x))).logId with
      | some z => exact ⟨z, rfl⟩
      | none =>
        have := (memOf_none hz).2 _ (List.mem_of_getElem? hhead)
        cases this
    have hzi := memOf_logId hz
    have hzl := idAt_lt hzi
    rw [hclen] at hzl
    rw [← hmem] at hz
    have hzx : z ≤ x := ((cons_ids hg hcont).le_iff (mem_ids0.2 hzi) (mem_ids0.2 hxc)).2 (by omega)
    refine ⟨by rw [hz]; exact hzx, by rw [hz]; simp only [nextIndex_some]; omega, ?_, ?_, Or.inr (hf2 hnin)⟩ <;>
    · obtain ⟨k, hk, hc, _⟩ := hkey
      cases hy : e.st.ms.committed.logId with
      | none =>
        rw [hz]
        first
        | exact Or.inl (OptOrd.none_lt_some' _)
        | simp
      | some y =>
        have hyk : idAt ((elog g g0 e).take k) y.index = some y := memOf_logId (by rw [← hc]; exact hy)
        have hyl := idAt_lt hyk
        rw [List.length_take] at hyl
        have hel := elog_len h.lm hvs
        have h1 := (hn.ec.mcom' hg h hvs hy).le hle
        have h2 := h1.pre_of_len hg hcv (by rw [List.length_take, hclen]; omega)
        have h3 : ((elog g g0 e).take k).take (y.index + 1) <+: cont g (some x) := by
          rw [List.take_take, Nat.min_eq_left (by omega)]; exact h2
        rcases memOf_grow (by rw [← hc]; exact hy) h3 with h4 | ⟨z', h4, h5⟩
        · rw [← hc, ← hmem] at h4
          rw [← hy, h4]
          all_goals exact Or.inr rfl
        · rw [← hmem, hz] at h4
          cases h4
          rw [hz]
          first
          | exact Or.inl (((cons_ids hg hcont).lt_iff (mem_ids0.2 (idAt_pre h3 (by
              obtain ⟨a, ha, hxa⟩ := idAt_some.1 hyk
              exact idAt_some.2 ⟨a, by rw [get_take (by omega)]; exact ha, hxa⟩))) (mem_ids0.2 hzi)).2 h5)
          | (simp only [nextIndex_some]; omega)

/-- installing a snapshot -/
theorem en_fhInstall (hg : GInv m0 g) {e e' : Eng} {m : SnapMeta} {cond : Option Cond} (h : EInv g0 e) (hn : EN g dv q g0 p e)
    (hf : Following e) (hp : SnapPkt g e.st.vote.data m) (hq : e.st.vote.data.leaderId.node ≠ q) (hfit : SnapFitL e m)
    (hr : Eng.fhInstall dbg e e.st.vote.data m = .ok (cond, e')) : EN g dv q g0 p e' := by
  have hso : ∀ x, m.lastLogId = some x → e.st.committed < some x → Eng.SnapOk e e.st.vote.data m x :=
    fun x hx hlt => snapOk_of hg h hn hp hq (le_refl _) hfit hx hlt
  have hinv := Eng.inv_fhInstall h hf hso hr
  by_cases hnl : m.lastLogId ≤ e.st.committed
  · unfold Eng.fhInstall at hr
    rw [if_pos hnl, pure_ok] at hr
    cases hr; exact hn
  obtain ⟨x, hx, hval, hcv, hmem⟩ := hp.ok
  have hlt : e.st.committed < some x := by rw [← hx]; exact not_le.1 hnl
  have ho := hso x hx hlt
  obtain ⟨hf1, hf2⟩ := hfit x hx hlt ho.ahead
  have hvs := hn.sq.endVS hg h.lm.oks
  have hpre := hcv.ll hg (le_refl _) hp.el
  have hxl : idAt (g.ll e.st.vote.data.leaderId) x.index = some x := idAt_pre hpre (cont_last hval)
  unfold Eng.fhInstall at hr
  rw [if_neg hnl] at hr
  simp only [bind_ok, unwrap_ok] at hr
  obtain ⟨x', hx', hr⟩ := hr
  rw [hx] at hx'; cases hx'
  rw [Eng.updateSnapshot_of_ahead h.lm hnl] at hr
  simp only [bind_ok, pure_ok] at hr
  obtain ⟨e2, he2, st, hst, ms', hms', hr⟩ := hr
  have he2 : e2 = { e with st := { e.st with snap := m } } := by
    unfold Eng.fhInstallTruncate at he2
    split at he2
    · next loc hloc =>
      have hloc : e.st.getLogId x.index = some loc := hloc
      obtain ⟨hl1, hl2⟩ := (Eng.getLogId_iff h.lm).1 hloc
      have : loc = x := by
        rcases hf1 with h1 | h1
        · exact h.lm.log.cons.inj hl1 h1 hl2
        · have := h.lm.log.le_last hl1
          have h3 : nextIndex e.st.lv.last = nextIndex e.st.lastLogId := rfl
          omega
      rw [if_neg (by simp [this]), pure_ok] at he2
      exact he2.symm
    · rw [pure_ok] at he2; exact he2.symm
  subst he2
  obtain ⟨a, ha1, ha2, ha3⟩ := h.pj.acc
  have hal0 : e.st.accLast = a.last := by unfold RState.accLast; rw [ha1]; rfl
  obtain ⟨⟨io, hio⟩, hacc, a', ha', hav'⟩ := Eng.acceptIo_same (s := { e.st with snap := m }) ha1 ha2 hf.com hst
  subst hio
  have he' : e' = Eng.logPurge (Eng.updateServerState { e with
      st := { e.st with snap := m, io := io, committed := some x, ms := ms', purgeUpto := some x }
      out := e.out ++ [.sm (.install m (IOId.newLog e.st.vote.data (some x)))] }) := by cases hr; rfl
  have hpp : ¬ (some x ≤ e.st.lastPurged) := by
    intro hle
    have h1 := Eng.purged_le_com h.lm
    have h2 : e.st.purgedNext = nextIndex e.st.lastPurged := h.lm.log.pn
    cases hq' : e.st.lastPurged with
    | none => rw [hq'] at hle; exact OptOrd.not_some_le_none' hle
    | some y =>
      rw [hq'] at hle h2
      simp only [nextIndex_some] at h2
      have hyin := h.lm.log.purged_mem (p := y) hq'
      cases hc : e.st.committed with
      | none => rw [hc] at h1; simp at h1; omega
      | some c =>
        rw [hc] at h1 hlt
        simp only [nextIndex_some] at h1
        have h3 := (h.lm.log.cons.le_iff hyin (h.lm.log.comIn c hc)).2 (by omega)
        exact absurd (lt_of_lt_of_le hlt hle) (not_lt.2 (show some y ≤ some c from h3))
  have he2' : e' = { e with
      st := { e.st with snap := m, io := io, committed := some x, ms := ms', purgeUpto := some x,
                        purgedNext := x.index + 1, logIds := LogIdList.purge e.st.logIds x
                        server := RState.calcServerState { e.st with snap := m, io := io, committed := some x, ms := ms', purgeUpto := some x } e.cfg.id }
      out := e.out ++ [.sm (.install m (IOId.newLog e.st.vote.data (some x)))] ++ [.purge x] } := by
    rw [he']
    unfold Eng.logPurge
    exact (if_neg hpp).trans rfl
  have hout : e'.out = e.out ++ [.sm (.install m (IOId.newLog e.st.vote.data (some x))), .purge x] := by rw [he2']; simp
  have hoks := hinv.lm.oks
  rw [hout, Gh.oks_append] at hoks
  obtain ⟨-, hk1, hk2, -⟩ := hoks
  have hleg : Legal g dv q (g0.runs e.out) (.sm (.install m (IOId.newLog e.st.vote.data (some x)))) := by
    refine ⟨fun y hy => ?_, ?_, ?_, ?_⟩
    · rw [hx] at hy; cases hy; exact ⟨hval, hmem⟩
    · rw [h.pj.gv, hx]; exact hcv
    · rw [h.pj.gv]; exact hp.com
    · rw [h.pj.gv]; exact hq
  have hvs1 := hvs.run_install hk1 hleg
  have hgr : g0.runs e'.out = ((g0.runs e.out).run (.sm (.install m (IOId.newLog e.st.vote.data (some x))))).run (.purge x) := by
    rw [hout, Gh.runs_append]; rfl
  have hst0 : ((g0.runs e.out).run (.sm (.install m (IOId.newLog e.st.vote.data (some x))))).store = (g0.runs e.out).store := rfl
  have hlog : (x ∈ e.st.lv.L ∧ elog g g0 e' = elog g g0 e) ∨ (x ∉ e.st.lv.L ∧ elog g g0 e' = cont g (some x)) := by
    by_cases hin : x ∈ e.st.lv.L
    · refine Or.inl ⟨hin, ?_⟩
      unfold elog
      rw [hgr]
      refine (hvs1.purge_log (fun c hc => ?_) hk2).trans rfl
      have hc : m.lastLogId = some c := hc
      rw [hx] at hc; cases hc
      exact elog_mem h.lm hvs hin
    · refine Or.inr ⟨hin, ?_⟩
      unfold elog
      rw [hgr]
      refine (hvs1.run_purgeOut hg ?_ hx).2
      rw [hst0, h.lm.log.store_last]
      exact hf1.resolve_left hin
  have hid : idAt (elog g g0 e') x.index = some x := by
    rcases hlog with ⟨h1, h2⟩ | ⟨h1, h2⟩
    · rw [h2]; exact elog_mem h.lm hvs h1
    · rw [h2]; exact cont_last hval
  refine ⟨?_, ?_, by rw [he2']; exact hn.id⟩
  · rw [hout]
    exact hn.sq.append ⟨hleg, trivial, trivial⟩
  · have hvo : e'.st.vote = e.st.vote := by rw [he2']
    have hms : e'.st.ms = ms' := by rw [he2']
    have hac : e'.st.accLast = max a.last (some x) := by rw [← hacc, he2']; rfl
    refine EC.norole (by rw [he2']; exact hf.leader) (by rw [he2']; exact hf.cand) ?_ ?_
    · rw [hvo, hac]
      intro _ _ y hy
      rcases Eng.max_cases a.last (some x) with h1 | h1
      · rw [h1] at hy
        exact hn.ec.acc hp.com hq y (by rw [hal0]; exact hy)
      · rw [h1] at hy; cases hy; exact hxl
    · rw [hvo, hms]
      intro _ y hy
      have hspec : ms'.committed = if e.st.ms.committed.logId < m.mem.logId then m.mem else e.st.ms.committed :=
        congrArg MemState.committed (MemJ.updateCommitted_spec hms')
      have hvs' := hinv
      have hfromx : ms'.committed = m.mem → CVote g e.st.vote.data ((elog g g0 e').take (y.index + 1)) := by
        intro hm
        rw [hm, hmem] at hy
        have h1 := idAt_lt (memOf_logId hy)
        rw [cont_len hval] at h1
        refine hcv.pre ?_
        have hgd : Good g (elog g g0 e') := by
          rcases hlog with ⟨_, h2⟩ | ⟨_, h2⟩
          · rw [h2]; exact hvs.good
          · rw [h2]; exact cont_good hg _
        rw [← (take_of_idAt hgd hid).2]
        exact take_pre_take (by omega)
      split at hspec
      · exact hfromx hspec
      · next hnlt =>
        rcases hlog with ⟨h1, h2⟩ | ⟨h1, h2⟩
        · rw [h2]
          rw [hspec] at hy
          exact hn.ec.mcom' hg h hvs hy
        · rcases (ho.beyond h1).2.2.1 with h3 | h3
          · exact absurd h3 hnlt
          · exact hfromx (by rw [hspec, h3])

theorem en_handleInstall (hg : GInv m0 g) {e e' : Eng} {tx : Nat} {v : Vote} {m : SnapMeta} (h : EInv g0 e) (hn : EN g dv q g0 p e)
    (hpk : SnapPkt g v m) (hq : v.leaderId.node ≠ q) (hpv : v ≤ dv v.leaderId.node) (hfit : SnapFit e m)
    (hr : e.handleInstall dbg now tx v m = .ok e') : EN g dv q g0 p e' := by
  have hid : v.leaderId.node ≠ e.cfg.id := by rw [hn.id]; exact hq
  unfold Eng.handleInstall at hr
  rw [bind_ok] at hr
  obtain ⟨⟨ok, e1⟩, he1, hr⟩ := hr
  have hn1 := (en_updateVote hg h hn (fun hx => absurd hx hq) (fun _ => hpk.el) (fun _ => hpv) he1).1
  obtain ⟨hinv, _, _, hb⟩ := Eng.inv_updateVote h (fun hx => absurd hx hid) he1
  simp only at hr
  cases ok with
  | false =>
    simp only [Bool.false_eq_true, if_false, pure_ok] at hr
    subst hr
    exact hn1.respond hinv.pj.gv.symm
  | true =>
    have hbe := hb rfl hpk.com hid
    simp only [if_true, bind_ok, pure_ok] at hr
    obtain ⟨lv, hlv, ⟨cond, e2⟩, he2, hr⟩ := hr
    have hlv := Eng.followingHandler_ok hlv
    rw [toCommitted_eq hbe.fol.com] at hlv
    rw [hlv] at he2
    subst hr
    have hfit1 : SnapFitL e1 m := by
      intro x hx hlt hci
      rw [hbe.com] at hlt hci
      have h1 := hfit.use h.lm x hx hlt hci
      rw [hbe.L, hbe.ms]
      have h2 : e1.st.lastLogId = e.st.lastLogId := congrArg LogV.last hbe.lv
      rw [h2]
      exact h1
    have hinv2 : EInv g0 e2 := by
      refine Eng.inv_fhInstall hinv hbe.fol (fun x hx hlt => ?_) he2
      exact snapOk_of hg hinv hn1 (by rw [hbe.vote]; exact hpk) (by rw [hbe.vote]; exact hq) (le_refl _) hfit1 hx hlt
    refine EN.respond ?_ hinv2.pj.gv.symm
    exact en_fhInstall hg hinv hn1 hbe.fol (by rw [hbe.vote]; exact hpk) (by rw [hbe.vote]; exact hq) hfit1 he2

end Openraft.Net
