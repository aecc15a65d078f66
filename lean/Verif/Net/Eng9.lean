import Verif.Net.Eng8

/-!
# The engine agrees with the history: becoming a leader
-/

set_option autoImplicit false
set_option linter.unusedSectionVars false

namespace Openraft.Net
open Openraft.Repl (Panic dassert Inflight)
open Openraft.Engine Openraft.Cluster
open Openraft.VecProgress (AllP BI)

variable {m0 : Membership} [hne : Fact (m0.configs ≠ [])] {g g' : Ghost} {dv dv' : NodeId → Vote} {q : NodeId} {g0 : Gh} {p : Nat} {dbg : Bool} {now : Nat}

/-- the leader appends one entry that is the next one of its log in the history -/
theorem en_appendCore (hgi : GInv m0 g) {e e' : Eng} {l : Engine.Leader} {x : Payload} (h : EInv g0 e)
    (hsq : SQ g dv q g0 p e.out) (hid : e.cfg.id = q) (hl : e.leader = some l)
    (hll : g.ll e.st.vote.data.leaderId = elog g g0 e ++ [⟨e.st.vote.data.leaderId, x⟩])
    (hall : l.progress.vp.AllP (AckBy g e.st.vote.data.leaderId))
    (hm : e.st.ms.committed = e.st.ms.effective → ∀ y, e.st.ms.committed.logId = some y →
      CVote g e.st.vote.data ((elog g g0 e).take (y.index + 1)))
    (hr : Eng.lhAppend dbg e l [x] = .ok e') : EN g dv q g0 p e' := by
  have hk := h.pj.lead l hl
  have hvs := hsq.endVS hgi h.lm.oks
  have hnode : e.st.vote.data.leaderId.node = q := by rw [hk.node]; exact hid
  obtain ⟨cs, l', ho, hcs, s1, s2, s3, s4, s5, s6⟩ := lhAppend_shape hr
  have hI' := (Eng.inv_lhAppend h hl hr).1
  have hvl : l.vote = e.st.vote.data := hk.vote
  have hleg : Legal g dv q (g0.runs e.out) (.append l.vote [⟨⟨l.vote.leaderId, nextIndex l.lastLogId⟩, x⟩]) := by
    refine ⟨?_, ?_, Or.inl (by rw [h.pj.gv]; exact hk.com)⟩
    · have : logOf g (g0.runs e.out) ++ List.map toEntry [⟨⟨l.vote.leaderId, nextIndex l.lastLogId⟩, x⟩] = g.ll e.st.vote.data.leaderId := by
        rw [hll, hvl]; rfl
      rw [this]; exact hgi.goodL _
    · intro z hz
      simp only [List.mem_singleton] at hz; subst hz
      right
      rw [h.pj.gv, hvl]
      exact Vote.le_def.2 (Or.inr ⟨rfl, fun _ => hk.com⟩)
  have hok : (g0.runs e.out).Ok (.append l.vote [⟨⟨l.vote.leaderId, nextIndex l.lastLogId⟩, x⟩]) := by
    have := hI'.lm.oks
    rw [ho, Gh.oks_append, Gh.oks_snoc] at this; exact this.1.2
  have hrun := hvs.run_append hok hleg
  have hsq2 : SQ g dv q g0 p e'.out := by
    rw [ho]; exact (hsq.snoc hleg).append (calm_legals fun c hc => (hcs c hc).1)
  have hlog2 : elog g g0 e' = elog g g0 e ++ [⟨e.st.vote.data.leaderId, x⟩] := by
    unfold elog
    rw [ho, Gh.runs_append, (Gh.runs_inert fun c hc => (hcs c hc).2).1, Gh.runs_snoc, hrun.2, hvl]
    rfl
  have hlen : (elog g g0 e).length = nextIndex l.lastLogId := by rw [elog_len h.lm hvs, hk.last]
  have hvd : e'.st.vote.data = e.st.vote.data := by rw [s1]
  refine ⟨hsq2, ⟨?_, ?_, ?_, ?_⟩, by rw [s2]; exact hid⟩
  · intro l2 hl2
    rw [s4] at hl2; cases hl2
    rw [hvd, hlog2]
    exact ⟨hll, s5 _ (fun _ => AckBy.none) hall⟩
  · intro c hc
    rw [s3] at hc
    have := (h.pj.cand c hc).nl
    rw [hl] at this; cases this
  · intro _ hx; rw [hvd] at hx; exact absurd hnode hx
  · intro heq y hy
    rw [hvd, hlog2]
    have heff := eff_memOf h.lm hvs
    have hold : ∀ z, e.st.ms.effective.logId = some z → z.index < (elog g g0 e).length := fun z hz =>
      idAt_lt (memOf_logId (by rw [← heff]; exact hz))
    have hms : e'.st.ms = e.st.ms := by
      cases x with
      | membership m =>
        exfalso
        rw [s6] at heq
        have h1 : e.st.ms.effective = ⟨some ⟨l.vote.leaderId, nextIndex l.lastLogId⟩, m⟩ := heq
        have := hold ⟨l.vote.leaderId, nextIndex l.lastLogId⟩ (by rw [h1])
        simp only at this; omega
      | _ => exact s6
    rw [hms] at heq hy
    have := hm heq y hy
    rw [heq] at hy
    rw [List.take_append_of_le_length (hold y hy)]
    exact this

/-- a candidate that a quorum granted its vote becomes the leader -/
theorem en_establishLeader (hg : GInv m0 g) {e e' : Eng} {c : Candidate} (h : EInv g0 e) (hn : EN g dv q g0 p e) (hc : e.candidate = some c)
    (hgr : c.progress.granted = true) (hmem : c.mem = e.st.ms.effective.mem) (hne : c.progress.vector ≠ [])
    (hcl : g.cl e.st.vote.data.leaderId = some (elog g g0 e))
    (hr : Eng.establishLeader dbg now e = .ok e') : Ext m0 g dv q g0 p e' := by
  have hk := h.pj.cand c hc
  have hvs := hn.sq.endVS hg h.lm.oks
  obtain ⟨hbi, hcfg, hgrants, hel, hterm, hempty⟩ := hn.ec.cand c hc
  unfold BI at hbi
  rw [if_pos hgr] at hbi
  obtain ⟨S, hnd, hq, hS⟩ := hbi
  have hconf : c.progress.configs = cfgs (elog g g0 e) := by
    rw [hcfg, hmem, eff_memOf h.lm hvs, memOf_mem]; rfl
  have hlne : elog g g0 e ≠ [] := by
    intro hx
    rw [hx] at hconf
    exact hne (hempty hconf)
  have hpos : (⟨0, 0⟩ : LeaderId) < e.st.vote.data.leaderId := by
    rw [LeaderId.lt_def]; left; show 0 < _; omega
  have hgi := ginv_establish hg _ S _ hel hpos hcl hlne (by rw [← hconf]; exact hq) hnd fun n hn' => hgrants n (hS n hn')
  have hnode : e.st.vote.data.leaderId.node = q := by rw [hk.node]; exact hn.id
  have hst := step_establish (g := g) q e.st.vote.data.leaderId S (elog g g0 e) hnode hel (hg.llNil hel hpos)
  have hgw : Grown q g (g.establish e.st.vote.data.leaderId S (elog g g0 e)) := grown_of hst rfl rfl rfl
  have hll : (g.establish e.st.vote.data.leaderId S (elog g g0 e)).ll e.st.vote.data.leaderId = elog g g0 e ++ [⟨e.st.vote.data.leaderId, .blank⟩] :=
    fset_same _ _ _
  have hel' : (g.establish e.st.vote.data.leaderId S (elog g g0 e)).el e.st.vote.data.leaderId = some S := fset_same _ _ _
  refine ⟨_, hgi, GSame.to ⟨hst, rfl⟩ _, hgw, ?_⟩
  generalize g.establish e.st.vote.data.leaderId S (elog g g0 e) = g' at *
  obtain ⟨l3, e3, h3, hl3, ⟨tg, ho⟩, hcf3, hms3, hv3, ⟨mm, hvp⟩, hr⟩ := Eng.mid_establishLeader h hr
  have hlog : elog g' g0 e3 = elog g g0 e := by
    have h1 : elog g' g0 e3 = elog g' g0 e := by
      unfold elog
      rw [ho, Gh.runs_append]
      rfl
    rw [h1]; exact logOf_mono hgw.toGhostLe hvs.st
  have hsq := hn.sq.mono hg hgw (fun n => le_refl (dv n)) h.lm.oks
  refine en_appendCore hgi h3 ?_ (by rw [hcf3]; exact hn.id) hl3 (by rw [hv3, hlog]; exact hll) ?_ ?_ hr
  · rw [ho]
    refine hsq.append ⟨trivial, ⟨fun _ => ⟨S, hel'⟩, fun hx => absurd hnode hx, (lm_anch h.lm hvs).mono hgw.toGhostLe hvs.st⟩, trivial⟩
  · rw [hvp]
    exact AllP.new _ _ fun _ => AckBy.none
  · rw [hms3, hv3, hlog]
    intro heq y hy
    refine ((hn.ec.mcom heq y hy).mono hgw.toGhostLe).le ?_
    rw [Vote.le_def]
    exact Or.inr ⟨rfl, fun _ => rfl⟩

theorem en_handleVoteResp (hg : GInv m0 g) {e e' : Eng} {target : NodeId} {v : Vote} {last : Option LogId} {granted : Bool} (h : EInv g0 e)
    (hs : Sy e) (hn : EN g dv q g0 p e) (hv : VoteOk e v) (hel : v.committed = true → ∃ S, g.el v.leaderId = some S)
    (hpv : v.leaderId.node ≠ q → v ≤ dv v.leaderId.node)
    (hgrant : e.candidate ≠ none → v = e.st.vote.data → granted = true → v.committed = false → ∃ gr ∈ g.grants, gr.q = target ∧ gr.L = v.leaderId)
    (hcl : e.candidate ≠ none → ∀ l, g.cl e.st.vote.data.leaderId = some l → l = elog g g0 e)
    (hr : e.handleVoteResp dbg now target v last granted = .ok e') : Ext m0 g dv q g0 p e' := by
  unfold Eng.handleVoteResp at hr
  split at hr
  · rw [pure_ok] at hr; subst hr; exact .of hg hn
  · next c hc =>
    have hk := h.pj.cand c hc
    split at hr
    · next hgv =>
      simp only [Bool.and_eq_true, beq_iff_eq] at hgv
      obtain ⟨hgt, hvc⟩ := hgv
      simp only [bind_ok] at hr
      obtain ⟨c1, hc1, hr⟩ := hr
      unfold Eng.grantBy at hc1
      rw [bind_ok] at hc1
      obtain ⟨pr, hpr, hc1⟩ := hc1
      rw [pure_ok] at hc1
      rw [unwrap_ok] at hpr
      have hinv : EInv g0 { e with candidate := some c1 } := by
        refine ⟨h.lm.state rfl h.lm.log h.lm.mem, h.pj.gv, h.pj.acc, ?_, ?_, h.pj.nolead⟩
        · intro l hl
          have : e.leader = some l := hl
          rw [hk.nl] at this; cases this
        · intro c2 hc2
          have : c2 = c1 := (Option.some.inj hc2).symm
          subst this
          subst hc1
          exact ⟨hk.vote, hk.com, hk.node, hk.last, hk.nl⟩
      have hvd : v = e.st.vote.data := hvc.trans hk.vote
      obtain ⟨gr, hgr, hgq, hgL⟩ := hgrant (by rw [hc]; simp) hvd hgt (by rw [hvd]; exact hk.com)
      rw [hvd] at hgL
      obtain ⟨b1, b2, b3, b4, b5, b6⟩ := hn.ec.cand c hc
      obtain ⟨hcf, i, y, hy, hp⟩ := VecProgress.update_vector hpr
      have hne : pr.vector ≠ [] := by
        intro hx
        rw [hx] at hp
        have h1 := List.perm_nil.1 hp.symm
        have h2 : c.progress.vector = [] := by
          have := congrArg List.length h1
          simpa using this
        have : c.progress.index target = none := by unfold VecProgress.index; rw [h2]; rfl
        unfold VecProgress.update at hpr
        rw [this] at hpr; cases hpr
      have hnN : EN g dv q g0 p { e with candidate := some c1 } := by
        refine ⟨hn.sq, ?_, hn.id⟩
        refine ⟨hn.ec.lead, ?_, hn.ec.acc, hn.ec.mcom⟩
        intro c2 hc2
        have : c2 = c1 := (Option.some.inj hc2).symm
        subst this
        subst hc1
        refine ⟨b1.update hpr, hcf.trans b2, ?_, b4, b5, ?_⟩
        · intro n hx
          rcases List.mem_or_eq_of_mem_set (hp.mem_iff.1 hx) with h1 | h1
          · exact b3 n h1
          · cases h1; exact ⟨gr, hgr, hgq, hgL⟩
        · intro hx
          have hx : c.progress.configs = [] := hcf.symm.trans hx
          exfalso
          have h2 := b6 hx
          have : c.progress.index target = none := by unfold VecProgress.index; rw [h2]; rfl
          unfold VecProgress.update at hpr
          rw [this] at hpr; cases hpr
      split at hr
      · next hgd =>
        obtain ⟨l, hl, _⟩ := hg.grantLast gr hgr
        rw [hgL] at hl
        have := hcl (by rw [hc]; simp) l hl
        rw [this] at hl
        refine en_establishLeader hg hinv hnN rfl hgd ?_ ?_ hl hr
        · subst hc1; exact hs.cand c hc
        · subst hc1; exact hne
      · rw [pure_ok] at hr; subst hr; exact .of hg hnN
    · simp only [bind_ok] at hr
      obtain ⟨⟨ok, e2⟩, he2, hr⟩ := hr
      rw [pure_ok] at hr
      simp only at hr
      subst hr
      have hv' : v.leaderId.node = q → v ≤ e.st.vote.data := fun hx => hv (by rw [hx]; exact hn.id.symm)
      split at he2
      · have hf : Frame e { e with seenGreater := true } :=
          ⟨rfl, rfl, rfl, rfl, fun _ => rfl, rfl, LSame.refl _, [], by simp, by simp⟩
        exact .of hg (en_updateVote hg (hf.inv h) (hn.frame hf (emits_out rfl)) hv' hel hpv he2).1
      · exact .of hg (en_updateVote hg h hn hv' hel hpv he2).1

end Openraft.Net
