import Verif.Net.Eng9
import Verif.Net.EngSnap

/-!
# The engine agrees with the history: every input
-/

set_option autoImplicit false
set_option linter.unusedSectionVars false

namespace Openraft.Net
open Openraft.Repl (Panic dassert Inflight)
open Openraft.Engine Openraft.Cluster
open Openraft.VecProgress (AllP BI)

variable {m0 : Membership} [hne : Fact (m0.configs ≠ [])] {g g' : Ghost} {dv dv' : NodeId → Vote} {q : NodeId} {g0 : Gh} {p : Nat} {dbg : Bool} {now : Nat}

theorem en_electCmd (hg : GInv m0 g) {e e' : Eng} (h : EInv g0 e) (hn : EN g dv q g0 p e) (hl : e.leader = none)
    (hr : Eng.elect dbg now e = .ok e') : EN g dv q g0 p e' := by
  obtain ⟨a, ha1, ha2, _⟩ := h.pj.acc
  exact en_elect hg h.lm hn.sq hn.id ha1 (le_of_eq ha2) hl (by rw [h.pj.gv]) hn.ec.mcom hr

/-- what the engine takes for committed is committed -/
theorem com_ok (hg : GInv m0 g) {e : Eng} (h : EInv g0 e) (hn : EN g dv q g0 p e) {x : LogId} (hx : e.st.committed = some x) :
    Val g x ∧ CVote g e.st.vote.data (cont g (some x)) := by
  have hvs := hn.sq.endVS hg h.lm.oks
  have hc : (g0.runs e.out).com = some x := by rw [h.lm.log.com]; exact hx
  refine ⟨hvs.comVal x hc, ?_⟩
  have h2 := hvs.com
  rw [hc, h.pj.gv] at h2
  exact h2

theorem en_heartbeat (hg : GInv m0 g) {e : Eng} {l : Engine.Leader} (h : EInv g0 e) (hn : EN g dv q g0 p e) (hl : e.leader = some l) :
    EN g dv q g0 p (Eng.lhHeartbeat e l) := by
  have hk := h.pj.lead l hl
  refine hn.frame' (Eng.frame_lhHeartbeat e l) rfl ⟨⟨by rw [h.pj.gv]; exact hk.vote, by rw [hk.vote]; exact hk.com,
    by rw [hk.vote, hk.node]; exact hn.id, ?_⟩, trivial⟩
  intro x hx
  have := com_ok hg h hn hx
  rw [hx, hk.vote]; exact this

theorem en_coreHeartbeat (hg : GInv m0 g) {e e' : Eng} (h : EInv g0 e) (hn : EN g dv q g0 p e) (hr : e.coreHeartbeat dbg = .ok e') :
    EN g dv q g0 p e' := by
  unfold Eng.coreHeartbeat at hr
  rw [bind_ok] at hr
  obtain ⟨lo, hlo, hr⟩ := hr
  have hlo := Eng.leaderHandler_ok hlo
  split at hr
  · rw [pure_ok] at hr; subst hr; exact hn
  · split at hr
    · rw [pure_ok] at hr; subst hr; exact hn
    · rw [pure_ok] at hr; subst hr; exact en_heartbeat hg h hn hlo.symm

theorem en_tickHeartbeat (hg : GInv m0 g) {en : Bool} {iv : Nat} {e e' : Eng} (h : EInv g0 e) (hn : EN g dv q g0 p e)
    (hr : e.tickHeartbeat dbg now en iv = .ok e') : EN g dv q g0 p e' := by
  unfold Eng.tickHeartbeat at hr
  split at hr
  · rw [pure_ok] at hr; subst hr; exact hn
  · split at hr
    · obtain ⟨e1, hf, hr⟩ : ∃ e1, EN g dv q g0 p e1 ∧ { e1 with leader := e1.leader.map fun l =>
          { l with nextHeartbeat := now + iv } } = e' := by
        simp only at hr
        split at hr <;> (rw [bind_ok] at hr; obtain ⟨e1, h1, hr⟩ := hr; rw [pure_ok] at hr)
        · exact ⟨e1, en_coreHeartbeat hg h hn h1, hr⟩
        · rw [pure_ok] at h1; subst h1; exact ⟨_, hn, hr⟩
      subst hr
      refine hf.frame ⟨rfl, rfl, rfl, rfl, fun _ => rfl, rfl, ?_, [], by simp, by simp⟩ (emits_out rfl)
      cases e1.leader <;> simp [LSame]
    · rw [pure_ok] at hr; subst hr; exact hn

theorem en_tickElection (hg : GInv m0 g) {en : Bool} {e e' : Eng} (h : EInv g0 e) (hn : EN g dv q g0 p e)
    (hr : e.tickElection dbg now en = .ok e') : EN g dv q g0 p e' := by
  unfold Eng.tickElection at hr
  split at hr
  · rw [pure_ok] at hr; subst hr; exact hn
  · next hsv =>
    split at hr
    · rw [pure_ok] at hr; subst hr; exact hn
    · split at hr
      · rw [pure_ok] at hr; subst hr; exact hn
      · have hln : e.leader = none := by
          cases hx : e.leader with
          | none => rfl
          | some l => exact absurd (h.pj.lead l hx).srv hsv
        have hf : Frame e { e with seenGreater := false } :=
          ⟨rfl, rfl, rfl, rfl, fun _ => rfl, rfl, LSame.refl _, [], by simp, by simp⟩
        have hgo : ∀ b : Bool, (if b = true then Eng.elect dbg now { e with seenGreater := false } else pure e) = .ok e' →
            EN g dv q g0 p e' := by
          intro b hb
          cases b with
          | true => exact en_electCmd hg (hf.inv h) (hn.frame hf (emits_out rfl)) hln hb
          | false =>
            simp only [Bool.false_eq_true, if_false] at hb
            rw [pure_ok] at hb; subst hb; exact hn
        exact hgo _ hr

theorem en_initCluster (hg : GInv m0 g) {e e' : Eng} {ok : Bool} (h : EInv g0 e) (hn : EN g dv q g0 p e)
    (hr : Eng.initCluster dbg now e m0 = .ok (ok, e')) : EN g dv q g0 p e' := by
  have hvs := hn.sq.endVS hg h.lm.oks
  unfold Eng.initCluster at hr
  split at hr
  · rw [pure_ok] at hr; cases hr; exact hn
  · next hni =>
    split at hr
    · rw [pure_ok] at hr; cases hr; exact hn
    · simp only [bind_ok, pure_ok] at hr
      obtain ⟨v, hv, e2, he2, e3, he3, hr⟩ := hr
      cases hr
      have hv := Eng.followingHandler_ok hv
      have hlast : e.st.lastLogId = none := by
        unfold RState.isInitialized at hni
        cases hx : e.st.lastLogId with
        | none => rfl
        | some z => rw [hx] at hni; simp at hni
      have hvote : e.st.vote.data = ⟨⟨0, 0⟩, false⟩ := by
        unfold RState.isInitialized at hni
        by_contra hne
        simp [hne] at hni
      have hle : e.st.vote.data ≤ ⟨⟨0, 0⟩, true⟩ := by rw [hvote]; decide
      have hln : e.leader = none := by
        cases hx : e.leader with
        | none => rfl
        | some l => have := (h.pj.lead l hx).com; rw [hvote] at this; cases this
      obtain ⟨a, ha1, ha2, _⟩ := h.pj.acc
      have hlm1 : LM g0 { e with st := { e.st with vote := e.st.vote.update now 0 ⟨⟨0, 0⟩, true⟩ } } :=
        h.lm.state rfl (h.lm.log.memVote hle) (Eng.memJ_vote h.lm.mem _ rfl rfl)
      have hcx : Cons ([(⟨⟨⟨0, 0⟩, 0⟩, .membership m0⟩ : Ent)].map (·.id)) := by simp [Cons]
      obtain ⟨d1, d2, d3, d4, d5, d6, d7, d8, d9, d10⟩ := Eng.lm_fhDoAppend hlm1 (by simp)
        (by intro x hx; simp at hx; subst hx; show 0 = nextIndex e.st.lastLogId; rw [hlast]; rfl)
        hcx (by intro l x hl; exact absurd (hl.symm.trans hlast) (by simp))
        (by intro x hx; simp at hx; subst hx; exact le_refl _) (by rw [hv]; rfl) he2
      have hlen0 : elog g g0 e = [] := by
        have := elog_len h.lm hvs
        rw [hlast] at this
        exact List.length_eq_zero_iff.1 this
      have hout : e2.out = e.out ++ [.append v [⟨⟨⟨0, 0⟩, 0⟩, .membership m0⟩]] := (fhDoAppend_ok he2).1
      have hleg : Legal g dv q (g0.runs e.out) (.append v [⟨⟨⟨0, 0⟩, 0⟩, .membership m0⟩]) := by
        refine ⟨?_, ?_, Or.inr (by rw [h.pj.gv, hvote])⟩
        · have : logOf g (g0.runs e.out) ++ List.map toEntry [⟨⟨⟨0, 0⟩, 0⟩, .membership m0⟩] = g.ll ⟨0, 0⟩ := by
            rw [hg.ll0]
            show elog g g0 e ++ _ = _
            rw [hlen0]; rfl
          rw [this]; exact hg.goodL _
        · intro z hz
          simp only [List.mem_singleton] at hz; subst hz; exact Or.inl rfl
      have hok : (g0.runs e.out).Ok (.append v [⟨⟨⟨0, 0⟩, 0⟩, .membership m0⟩]) := by
        have := d1.oks
        rw [hout, Gh.oks_snoc] at this; exact this.2
      have hrun := hvs.run_append hok hleg
      have hlog : elog g g0 e2 = elog g g0 e ++ [(⟨⟨⟨0, 0⟩, 0⟩, .membership m0⟩ : Ent)].map toEntry := by
        unfold elog; rw [hout, Gh.runs_snoc, hrun.2]
      have hmc := doAppend_mcom (w := ⟨⟨0, 0⟩, true⟩) hlm1 (g := g) (dv := dv) (q := q) hvs hcx
        (by intro x _; show (elog g g0 e).length ≤ _; rw [hlen0]; exact Nat.zero_le _)
        (fun heq y hy => (hn.ec.mcom heq y hy).le hle) he2
      have hvd : e2.st.vote.data = ⟨⟨0, 0⟩, true⟩ := by rw [d4]; rfl
      refine en_elect (a := a) hg d1 (by rw [hout]; exact hn.sq.snoc hleg) (by rw [d3]; exact hn.id) (by rw [d6]; exact ha1)
        (by rw [hvd, ha2]; exact hle) (by rw [d7]; exact hln) ?_ ?_ he3
      · rw [d9, hvd]
        show (g0.runs e.out).vote.leaderId = _
        rw [h.pj.gv, hvote]
      · rw [hvd, hlog]; exact hmc

/-- a position of the leader's log is known to the leader -/
theorem known_of_idAt (hg : GInv m0 g) {e : Eng} (h : EInv g0 e) (hn : EN g dv q g0 p e) {l : Engine.Leader} (hl : e.leader = some l)
    {o : Option LogId} {n : NodeId} (ha : AckBy g e.st.vote.data.leaderId n o) : KnownO e.st.lv o := by
  intro x hx
  have hvs := hn.sq.endVS hg h.lm.oks
  obtain ⟨hid, -⟩ := ha x hx
  rw [(hn.ec.lead l hl).1] at hid
  by_cases hi : e.st.lv.purgedNext ≤ x.index + 1
  · exact Or.inl (elog_idAt h.lm hvs hid hi)
  · right
    show some x ≤ e.st.committed
    have hpc := hvs.pc
    rw [h.lm.log.stp, ← h.lm.log.pn, h.lm.log.com] at hpc
    cases hc : e.st.committed with
    | none =>
      have : e.st.lv.committed = none := hc
      rw [this] at hpc; simp only [nextIndex_none] at hpc; omega
    | some c =>
      have hc' : e.st.lv.committed = some c := hc
      rw [hc'] at hpc
      simp only [nextIndex_some] at hpc
      have h1 := lm_anch h.lm hvs c (by rw [h.lm.log.com]; exact hc)
      by_contra hno
      have hlt : some c ≤ some x := le_of_lt (not_le.1 hno)
      have := idAt_le hg hvs.good h1 hid hlt
      omega

/-- a leader that changes the membership committed the last one itself -/
theorem change_base (hm0 : m0.configs ≠ []) (hg : GInv m0 g) {e : Eng} {l : Engine.Leader} (h : EInv g0 e) (hn : EN g dv q g0 p e)
    (hl : e.leader = some l) (heq : e.st.ms.effective.logId = e.st.ms.committed.logId)
    (hown : ∃ c, e.st.committed = some c ∧ c.leaderId = e.st.vote.data.leaderId) {m : Membership} {ch : ChangeMembers} {retain : Bool}
    (hch : e.st.ms.effective.mem.change ch retain = .ok m) :
    ∃ k0 mp, lastCfg (elog g g0 e) = some (k0, mp) ∧ (∃ c, c ∈ mp.configs ∧ c ∈ m.configs) ∧
      ∃ r ∈ g.commits, r.L = e.st.vote.data.leaderId ∧ k0 < r.m := by
  have hvs := hn.sq.endVS hg h.lm.oks
  have hk := h.pj.lead l hl
  obtain ⟨hlog, -⟩ := hn.ec.lead l hl
  obtain ⟨c, hc, hcl⟩ := hown
  have hcG : (g0.runs e.out).com = some c := by rw [h.lm.log.com]; exact hc
  have hcid : idAt (elog g g0 e) c.index = some c := lm_anch h.lm hvs c hcG
  obtain ⟨S, hS⟩ := hvs.voteEl (by rw [h.pj.gv]; exact hk.com)
  rw [h.pj.gv] at hS
  obtain ⟨cl, _, hcp, hc0, _⟩ := hg.elCl _ S hS
  have h0 : (elog g g0 e)[0]? = some (initEntry m0) := by rw [← hlog]; exact get_of_pre_some hcp hc0
  obtain ⟨k0, mp, hlast⟩ := lastCfg_exists (List.mem_of_getElem? h0) (m := m0) rfl
  have heff := eff_memOf h.lm hvs
  have hmem : e.st.ms.effective.mem = mp := by rw [heff, memOf_mem, effMembership_of hlast]
  obtain ⟨⟨ek, hek, hekm⟩, _⟩ := lastCfg_some.1 hlast
  refine ⟨k0, mp, hlast, ?_, ?_⟩
  · rw [hmem] at hch
    have hne := hg.cfgNe hm0 hvs.good hek hekm
    rw [(Membership.change_ok hch).1]
    exact Membership.changeRaw_shares hne ch retain
  · -- the leader's own commits
    have key : ∀ i x, (elog g g0 e)[i]? = some x → x.lid = e.st.vote.data.leaderId → CVote g e.st.vote.data ((elog g g0 e).take (i + 1)) →
        ∃ r ∈ g.commits, r.L = e.st.vote.data.leaderId ∧ i < r.m := by
      intro i x hx hxl hcv
      have hlt := lt_of_get hx
      have hget : ((elog g g0 e).take (i + 1))[i]? = some x := by rw [get_take (by omega)]; exact hx
      rcases hcv with h1 | ⟨r, hr, hrv, hp⟩
      · rw [h1] at hget; simp at hget
      · refine ⟨r, hr, ?_, ?_⟩
        · have h2 := get_of_pre_some (pre_of_pre_take hp) hget
          have h3 := hg.lidLe h2
          rw [hxl] at h3
          refine le_antisymm ?_ h3
          rcases Vote.le_def.1 hrv with h4 | ⟨h4, _⟩
          · exact le_of_lt h4
          · exact le_of_eq h4
        · have := hp.length_le
          rw [List.length_take, List.length_take] at this; omega
    by_cases hkc : k0 ≤ c.index
    · obtain ⟨x, hx, hcx⟩ := idAt_some.1 hcid
      have hcom := hvs.comT (lm_anch h.lm hvs)
      rw [hcG, h.pj.gv] at hcom
      obtain ⟨r, h1, h2, h3⟩ := key c.index x hx (by rw [← hcl, hcx]) hcom
      exact ⟨r, h1, h2, by omega⟩
    · have hlogid : e.st.ms.effective.logId = some ⟨ek.lid, k0⟩ := by
        rw [heff]
        unfold memOf
        rw [hlast]
        exact idAt_some.2 ⟨ek, hek, rfl⟩
      have hcv := hn.ec.mcom' hg h hvs (heq.symm.trans hlogid)
      refine key k0 ek hek ?_ hcv
      refine le_antisymm ?_ ?_
      · rw [← hlog] at hek; exact hg.lidLe hek
      · obtain ⟨x, hx, hcx⟩ := idAt_some.1 hcid
        have h1 : c ≤ ⟨ek.lid, k0⟩ := by
          by_contra hno
          have hle : some (⟨ek.lid, k0⟩ : LogId) ≤ some c := le_of_lt (not_le.1 hno)
          have := idAt_le hg hvs.good (x := ⟨ek.lid, k0⟩) (idAt_some.2 ⟨ek, hek, rfl⟩) hcid hle
          simp only at this; omega
        rw [← hcl]
        rcases LogId.le_def.1 h1 with h2 | ⟨h2, _⟩
        · exact le_of_lt h2
        · exact le_of_eq h2

theorem en_writeEntry (hg : GInv m0 g) {e e' : Eng} {x : Payload} {r : Option Nat} (h : EInv g0 e) (hn : EN g dv q g0 p e)
    (hch : ∀ m, x = .membership m → e.leader ≠ none → ∃ k0 mp, lastCfg (elog g g0 e) = some (k0, mp) ∧ (∃ c, c ∈ mp.configs ∧ c ∈ m.configs) ∧
      ∃ r ∈ g.commits, r.L = e.st.vote.data.leaderId ∧ k0 < r.m)
    (hr : e.writeEntry dbg x = .ok (r, e')) : Ext m0 g dv q g0 p e' := by
  unfold Eng.writeEntry at hr
  rw [bind_ok] at hr
  obtain ⟨lo, hlo, hr⟩ := hr
  have hlo := Eng.leaderHandler_ok hlo
  split at hr
  · rw [pure_ok] at hr; cases hr; exact .of hg hn
  · next l =>
    split at hr
    · rw [pure_ok] at hr; cases hr; exact .of hg hn
    · simp only [bind_ok, pure_ok, unwrap_ok] at hr
      obtain ⟨e1, he1, last, _, hr⟩ := hr
      cases hr
      obtain ⟨h1, h2, h3⟩ := en_lhAppend hg h hn hlo.symm (fun m hm => hch m hm (by rw [← hlo]; simp)) he1
      exact ⟨_, h1, GSame.to ⟨h2, rfl⟩ _, grown_of h2 rfl rfl rfl, h3⟩

/-! ## Every input -/

/-- what a vote in an answer is known for -/
structure VoteIn (g : Ghost) (dv : NodeId → Vote) (q : NodeId) (e : Eng) (v : Vote) : Prop where
  own : VoteOk e v
  el : v.committed = true → ∃ S, g.el v.leaderId = some S
  pv : v.leaderId.node ≠ q → v ≤ dv v.leaderId.node

/-- what the inputs of node `q` are known for: the messages come from the cluster, and the runtime keeps to the restrictions -/
def NetIn (m0 : Membership) (g : Ghost) (dv : NodeId → Vote) (q : NodeId) (g0 : Gh) (e e' : Eng) : Input → Prop
  | .appendReq _ v prev es lc => AppPkt g v prev es lc ∧ v.leaderId.node ≠ q ∧ v ≤ dv v.leaderId.node
  | .voteReq _ v last => VotePkt g v last ∧ v.leaderId.node ≠ q ∧ v ≤ dv v.leaderId.node
  | .snapReq _ v m => SnapPkt g v m ∧ v.leaderId.node ≠ q ∧ v ≤ dv v.leaderId.node ∧ SnapFit e m
  | .init _ m => m = m0
  | .write x => ∀ m, x ≠ .membership m
  | .change _ _ => e.leader ≠ none → ∃ c, e.st.committed = some c ∧ c.leaderId = e.st.vote.data.leaderId
  | .handleTransfer v t => e.st.vote.data = v → e.cfg.id = t → e.leader = none
  | .electCmd => e.leader = none
  | .voteResp t v _ gr _ => VoteIn g dv q e v ∧
      (e.candidate ≠ none → v = e.st.vote.data → gr = true → v.committed = false → ∃ x ∈ g.grants, x.q = t ∧ x.L = v.leaderId) ∧
      (e.candidate ≠ none → ∀ l, g.cl e.st.vote.data.leaderId = some l → l = elog g g0 e)
  | .higherVote v _ => VoteIn g dv q e v
  | .localIO io => (io.vote.committed = true → e.voteMatch io.vote = true → KnownO e.st.lv io.last ∧
      (e.leader ≠ none → AckBy g e.st.vote.data.leaderId q io.last)) ∧ ExactQ e e'
  | .replProgress s t r => (e.sessionMatch s = true → e.leader ≠ none → ∀ m, r = .matching m → AckBy g e.st.vote.data.leaderId t m) ∧ ExactQ e e'
  | .built m => Eng.BuiltOk e m
  | _ => True

/-- inputs of the cluster are inputs that the engine's invariants allow -/
theorem NetIn.ok (hm0 : m0.configs ≠ []) (hg : GInv m0 g) {e e' : Eng} {i : Input} (h : EInv g0 e) (hn : EN g dv q g0 p e)
    (hi : NetIn m0 g dv q g0 e e' i) (hr : e.input dbg now i = .ok e') : InputOk e i := by
  cases i with
  | appendReq tx v prev es lc => exact fun hle => (appendOk_of hm0 hg h hn hi.1 hi.2.1 hle).2
  | voteReq tx v last => exact fun hx => absurd hx (by rw [hn.id]; exact hi.2.1)
  | snapReq tx v m =>
    exact fun hle => ⟨by rw [hn.id]; exact hi.2.1, hi.1.com, fun x hx hlt => snapOk_of hg h hn hi.1 hi.2.1 hle (hi.2.2.2.use h.lm) hx hlt⟩
  | handleTransfer v t => exact hi
  | electCmd => exact hi
  | voteResp t v last gr s => exact hi.1.own
  | higherVote v s => exact hi.own
  | localIO io => exact fun h1 h2 => (hi.1 h1 h2).1
  | replProgress s t r =>
    intro hs m hm
    simp only [Eng.input, Eng.coreReplProgress] at hr
    rw [if_pos hs, bind_ok] at hr
    obtain ⟨l, hl, _⟩ := hr
    rw [unwrap_ok] at hl
    exact known_of_idAt hg h hn hl (hi.1 hs (by rw [hl]; simp) m hm)
  | built m => exact hi
  | _ => trivial

/-- **Every input keeps the engine in agreement with the history.** -/
theorem en_input (hm0 : m0.configs ≠ []) (hg : GInv m0 g) {e e' : Eng} {i : Input} (h : EInv g0 e) (hs : Sy e) (hn : EN g dv q g0 p e)
    (hi : NetIn m0 g dv q g0 e e' i) (hr : e.input dbg now i = .ok e') : Ext m0 g dv q g0 p e' := by
  have hok := hi.ok hm0 hg h hn hr
  cases i with
  | appendReq tx v prev es lc => exact .of hg (en_handleAppend hm0 hg h hn hi.1 hi.2.1 hi.2.2 hr)
  | voteReq tx v last => exact .of hg (en_voteReq hg h hn hi.1 hi.2.1 hi.2.2 hr)
  | snapReq tx v m => exact .of hg (en_handleInstall hg h hn hi.1 hi.2.1 hi.2.2.1 hi.2.2.2 hr)
  | init tx m =>
    have hi : m = m0 := hi
    subst hi
    simp only [Eng.input, Eng.coreInit, bind_ok, pure_ok] at hr
    obtain ⟨⟨ok, e1⟩, he1, hr⟩ := hr
    subst hr
    exact .of hg ((en_initCluster hg h hn he1).respond trivial)
  | write x =>
    simp only [Eng.input, bind_ok, pure_ok] at hr
    obtain ⟨⟨r, e1⟩, he1, hr⟩ := hr
    subst hr
    exact en_writeEntry hg h hn (fun m hm => absurd hm (hi m)) he1
  | change c r =>
    simp only [Eng.input, bind_ok, pure_ok] at hr
    obtain ⟨⟨r', e1⟩, he1, hr⟩ := hr
    subst hr
    unfold Eng.changeMembership at he1
    split at he1
    · rw [pure_ok] at he1; cases he1; exact .of hg hn
    · next m hm =>
      refine en_writeEntry hg h hn (fun m' hm' hne => ?_) he1
      cases hm'
      unfold Eng.changeApply at hm
      split at hm
      · next heq =>
        split at hm
        · next m2 hch =>
          cases hm
          cases hl : e.leader with
          | none => exact absurd hl hne
          | some l => exact change_base hm0 hg h hn hl heq (hi hne) hch
        · cases hm
      · cases hm
  | handleTransfer v target =>
    simp only [Eng.input, Eng.coreHandleTransfer] at hr
    split at hr
    · next hv =>
      have hf : Frame e { e with st := { e.st with vote := e.st.vote.disable } } :=
        ⟨rfl, rfl, rfl, rfl, fun _ => rfl, rfl, LSame.refl _, [], by simp, by simp⟩
      have hn1 := hn.frame hf (emits_out rfl)
      split at hr
      · next ht => exact .of hg (en_electCmd hg (hf.inv h) hn1 (hi hv ht) hr)
      · rw [pure_ok] at hr; subst hr; exact .of hg hn1
    · rw [pure_ok] at hr; subst hr; exact .of hg hn
  | electCmd =>
    simp only [Eng.input, Eng.coreElect] at hr
    split at hr
    · exact .of hg (en_electCmd hg h hn hi hr)
    · rw [pure_ok] at hr; subst hr; exact .of hg hn
  | heartbeatCmd => exact .of hg (en_coreHeartbeat hg h hn hr)
  | snapshotCmd =>
    simp only [Eng.input] at hr
    rw [pure_ok] at hr; subst hr
    refine .of hg (hn.frame (Eng.frame_triggerSnapshot e) ?_)
    unfold Eng.triggerSnapshot
    split
    · exact Emits.refl _
    · exact ⟨[.sm .build], rfl, by simp [calm]⟩
  | purgeCmd i => exact .of hg (en_triggerPurge hg h hn hr)
  | transferCmd t =>
    simp only [Eng.input, Eng.triggerTransfer, bind_ok] at hr
    obtain ⟨lo, hlo, hr⟩ := hr
    have hlo := Eng.leaderHandler_ok hlo
    split at hr
    · rw [pure_ok] at hr; subst hr; exact .of hg hn
    · rw [pure_ok] at hr; subst hr
      exact .of hg (hn.frame (Eng.frame_lhTransfer hlo.symm t) ⟨[_], rfl, by simp [calm]⟩)
  | voteResp target v last granted sender =>
    simp only [Eng.input] at hr
    split at hr
    · exact en_handleVoteResp hg h hs hn hi.1.own hi.1.el hi.1.pv hi.2.1 hi.2.2 hr
    · rw [pure_ok] at hr; subst hr; exact .of hg hn
  | higherVote v sender =>
    simp only [Eng.input] at hr
    split at hr
    · rw [bind_ok] at hr
      obtain ⟨⟨ok, e1⟩, he1, hr⟩ := hr
      rw [pure_ok] at hr
      simp only at hr
      subst hr
      exact .of hg (en_updateVote hg h hn (fun hx => hi.own (by rw [hx]; exact hn.id.symm)) hi.el hi.pv he1).1
    · rw [pure_ok] at hr; subst hr; exact .of hg hn
  | tick el hb iv =>
    simp only [Eng.input, Eng.coreTick, bind_ok] at hr
    obtain ⟨e1, he1, e2, he2, hr⟩ := hr
    have h1 := Eng.inv_tickElection h he1
    have h2 := (Eng.frame_tickHeartbeat he2).inv h1
    have hn2 := en_tickHeartbeat hg h1 (en_tickElection hg h hn he1) he2
    split at hr
    · unfold Eng.leaderStepDown at hr
      split at hr
      · exact .of hg (en_updateInternal h2 hn2 hr)
      · rw [pure_ok] at hr; subst hr; exact .of hg hn2
    · rw [pure_ok] at hr; subst hr; exact .of hg hn2
  | localIO io =>
    simp only [Eng.input, Eng.coreLocalIO, bind_ok] at hr
    obtain ⟨pr, hp, hr⟩ := hr
    have hp := Eng.flush_ok hp
    have hf : Frame e (e.withProg pr) := Eng.frame_io _ (by rw [hp])
    have h1 := hf.inv h
    have hn1 := hn.frame hf (emits_out rfl)
    split at hr
    · next hcm =>
      split at hr
      · next l hl =>
        split at hr
        · next hvm =>
          have hk := hi.1 hcm hvm
          exact en_rhUpdateLocal hg h1 hn1 hl (hs.lead l hl).1 (by rw [hf.lv]; exact hk.1)
            (hk.2 (by have hl : e.leader = some l := hl
                      rw [hl]; simp)) hi.2 hr
        · rw [pure_ok] at hr; subst hr; exact .of hg hn1
      · rw [pure_ok] at hr; subst hr; exact .of hg hn1
    · rw [pure_ok] at hr; subst hr; exact .of hg hn1
  | replProgress s target r =>
    simp only [Eng.input, Eng.coreReplProgress] at hr
    split at hr
    · next hsm =>
      simp only [bind_ok, unwrap_ok] at hr
      obtain ⟨l, hl, hr⟩ := hr
      exact en_rhUpdateProgress hg h hn hl (hs.lead l hl).1 (hok hsm) (hi.1 hsm (by rw [hl]; simp)) hi.2 hr
    · rw [pure_ok] at hr; subst hr; exact .of hg hn
  | hbProgress s target t =>
    simp only [Eng.input, Eng.coreHbProgress] at hr
    split at hr
    · simp only [bind_ok, unwrap_ok] at hr
      obtain ⟨l, hl, hr⟩ := hr
      refine .of hg (hn.frame (Eng.frame_updateClock hl hr) (emits_out ?_))
      unfold Eng.rhUpdateClock at hr
      simp only [bind_ok, pure_ok] at hr
      obtain ⟨_, _, hr⟩ := hr
      subst hr; rfl
    · rw [pure_ok] at hr; subst hr; exact .of hg hn
  | built m =>
    simp only [Eng.input, Eng.coreBuilt, bind_ok, pure_ok] at hr
    obtain ⟨e1, he1, io, hio, hr⟩ := hr
    have hio := Eng.updateSnapshotIO_ok hio
    subst hr
    exact .of hg ((en_finishBuilding hg h hn hi he1).frame (Eng.frame_io io (by rw [hio])) (emits_out rfl))
  | installed io m =>
    simp only [Eng.input, Eng.coreInstalled, bind_ok, pure_ok] at hr
    obtain ⟨p, hp, s1, hs1, s2, hs2, hr⟩ := hr
    have hp := Eng.flush_ok hp
    have hs1 := Eng.updateApplied_ok hs1
    have hs2 := Eng.updateSnapshotIO_ok hs2
    subst hr
    exact .of hg (hn.frame (Eng.frame_io s2 (by rw [hs2, hs1, hp])) (emits_out rfl))
  | applied last =>
    simp only [Eng.input, Eng.coreApplied, bind_ok, pure_ok] at hr
    obtain ⟨s, hs, hr⟩ := hr
    have hs := Eng.updateApplied_ok hs
    subst hr
    exact .of hg (hn.frame (Eng.frame_io s (by rw [hs])) (emits_out rfl))
  | initiate =>
    simp only [Eng.input, Eng.coreInitiate, bind_ok] at hr
    obtain ⟨lo, hlo, hr⟩ := hr
    have hlo := Eng.leaderHandler_ok hlo
    split at hr
    · rw [pure_ok] at hr; subst hr; exact .of hg hn
    · exact .of hg (hn.frame (Eng.frame_rhInitiate (by rw [← hlo]; exact LSame.refl _) hr) (calm_rhInitiate hr))

end Openraft.Net
