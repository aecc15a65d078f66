import Verif.Net.Eng5

/-!
# The engine agrees with the history: the leader appends and commits
-/

set_option autoImplicit false
set_option linter.unusedSectionVars false

namespace Openraft.Net
open Openraft.Repl (Panic dassert Inflight)
open Openraft.Engine Openraft.Cluster
open Openraft.VecProgress (AllP BI)
open Openraft.Engine.Eng (Following Pre Took assign_single stored?_single)

variable {m0 : Membership} [hne : Fact (m0.configs ≠ [])] {g g' : Ghost} {dv dv' : NodeId → Vote} {q : NodeId} {g0 : Gh} {p : Nat} {dbg : Bool} {now : Nat}

/-- the memberships of the engine after it appended payload `x` at `id` -/
def msAfter (ms : MemState) (id : LogId) : Payload → MemState
  | .membership m => ⟨ms.effective, ⟨some id, m⟩⟩
  | _ => ms

theorem light_rhInitiate {e e' : Eng} {l : Engine.Leader} (h : Eng.rhInitiate dbg e l = .ok e') :
    Emits (fun c => calm c = true ∧ c.inert = true) e e' := by
  unfold Eng.rhInitiate at h
  rw [bind_ok] at h
  obtain ⟨⟨ent, cmds⟩, h1, h⟩ := h
  simp only [pure_ok] at h
  subst h
  refine ⟨cmds, rfl, fun c hc => ?_⟩
  obtain ⟨n, req, rfl⟩ := Eng.initLoop_inert h1 (by simp) c hc
  exact ⟨rfl, rfl⟩

/-- what `lhAppend` of one payload does -/
theorem lhAppend_shape {e e' : Eng} {l : Engine.Leader} {x : Payload} (hr : Eng.lhAppend dbg e l [x] = .ok e') :
    ∃ cs l', e'.out = e.out ++ [.append l.vote [⟨⟨l.vote.leaderId, nextIndex l.lastLogId⟩, x⟩]] ++ cs ∧ (∀ c ∈ cs, calm c = true ∧ c.inert = true) ∧
      e'.st.vote = e.st.vote ∧ e'.cfg = e.cfg ∧ e'.candidate = e.candidate ∧ e'.leader = some l' ∧
      (∀ P : NodeId → Option LogId → Prop, (∀ n, P n none) → l.progress.vp.AllP P → l'.progress.vp.AllP P) ∧
      e'.st.ms = msAfter e.st.ms ⟨l.vote.leaderId, nextIndex l.lastLogId⟩ x := by
  unfold Eng.lhAppend at hr
  rw [if_neg (by simp)] at hr
  simp only [bind_ok, unwrap_ok, assign_single] at hr
  obtain ⟨_, _, ids, hids, _, _, st, hst, e2, he2, l2, hl2, hr⟩ := hr
  have hst := acceptIo_ok hst
  have hf := Eng.frame_rhInitiate (by rw [hl2]; exact LSame.refl _) hr
  obtain ⟨cs2, ho2, hc2⟩ := light_rhInitiate hr
  have hvote : ∀ {a b : Eng} {l : Engine.Leader}, Eng.rhInitiate dbg a l = .ok b → b.st.vote = a.st.vote := by
    intro a b l h
    unfold Eng.rhInitiate at h
    rw [bind_ok] at h
    obtain ⟨⟨ent, cmds⟩, h1, h⟩ := h
    simp only [pure_ok] at h
    subst h; rfl
  -- the state after the membership part
  have hmain : ∃ cs, e2.out = e.out ++ [.append l.vote [⟨⟨l.vote.leaderId, nextIndex l.lastLogId⟩, x⟩]] ++ cs ∧ (∀ c ∈ cs, calm c = true ∧ c.inert = true) ∧
      e2.st.vote = e.st.vote ∧ e2.cfg = e.cfg ∧ e2.candidate = e.candidate ∧
      (∀ P : NodeId → Option LogId → Prop, (∀ n, P n none) → l.progress.vp.AllP P → l2.progress.vp.AllP P) ∧
      e2.st.ms = msAfter e.st.ms ⟨l.vote.leaderId, nextIndex l.lastLogId⟩ x := by
    rw [stored?_single] at he2
    cases x with
    | membership m =>
      simp only [List.getLast?_singleton, Eng.lhMembership, Eng.rhAppendMembership, bind_ok, unwrap_ok] at he2
      obtain ⟨_, _, _, _, ms, hms, l3, hl3, hr3⟩ := he2
      have hf1 := Eng.frame_rhInitiate (by rw [hl3]; exact LSame.refl _) hr3
      obtain ⟨cs3, ho3, hc3⟩ := light_rhInitiate hr3
      have hms' : ms = ⟨e.st.ms.effective, ⟨some ⟨l.vote.leaderId, nextIndex l.lastLogId⟩, m⟩⟩ := by
        unfold RState.MemState.append at hms
        obtain ⟨_, _, hms⟩ := bind_ok.1 hms
        obtain ⟨_, _, hms⟩ := bind_ok.1 hms
        rw [← pure_ok.1 hms]
        show MemState.mk st.ms.effective _ = _
        rw [hst]
      refine ⟨_, ho3.trans (List.append_assoc _ _ _), ?_, ?_, ?_, ?_, ?_, ?_⟩
      · intro c hc
        rcases List.mem_append.1 hc with h1 | h1
        · simp only [List.mem_singleton] at h1; subst h1; exact ⟨rfl, rfl⟩
        · exact hc3 c h1
      · rw [hvote hr3]; show st.vote = _; rw [hst]
      · rw [hf1.cfg]; rfl
      · rw [hf1.cand]; rfl
      · intro P hP hall
        obtain ⟨l4, hl4, hvp⟩ := hf1.vp l2 hl2
        cases hl4
        rw [hvp]
        exact hall.upgrade _ _ hP
      · rw [hf1.ms]; show ms = _; rw [hms']; rfl
    | blank =>
      simp only [List.getLast?_nil, Eng.lhMembership] at he2
      rw [pure_ok] at he2
      subst he2
      refine ⟨[], by simp [Eng.push], by simp, by show st.vote = _; rw [hst], rfl, rfl, fun P hP hall => ?_, by show st.ms = _; rw [hst]; rfl⟩
      cases hl2; exact hall
    | normal d =>
      simp only [List.getLast?_nil, Eng.lhMembership] at he2
      rw [pure_ok] at he2
      subst he2
      refine ⟨[], by simp [Eng.push], by simp, by show st.vote = _; rw [hst], rfl, rfl, fun P hP hall => ?_, by show st.ms = _; rw [hst]; rfl⟩
      cases hl2; exact hall
  obtain ⟨cs, m1, m2, m3, m4, m5, m6, m7⟩ := hmain
  obtain ⟨l', hl'⟩ : ∃ l', e'.leader = some l' := by
    have := hf.lead
    cases hx : e'.leader with
    | none => rw [hx, hl2] at this; exact this.elim
    | some l' => exact ⟨l', rfl⟩
  refine ⟨cs ++ cs2, l', by rw [ho2, m1]; simp, ?_, by rw [hvote hr]; exact m3, by rw [hf.cfg]; exact m4, by rw [hf.cand]; exact m5, hl', ?_, by rw [hf.ms]; exact m7⟩
  · intro c hc
    rcases List.mem_append.1 hc with h1 | h1
    · exact m2 c h1
    · exact hc2 c h1
  · intro P hP hall
    obtain ⟨l4, hl4, hvp⟩ := hf.vp l' hl'
    rw [hl2] at hl4; cases hl4
    rw [hvp]; exact m6 P hP hall

/-- growth of the history by entries, leaders and commits leaves what a node answered -/
theorem grown_of {n : NodeId} (h : GhostStep n g g') (ha : g'.acks = g.acks) (hgr : g'.grants = g.grants) (hc : g'.cl = g.cl) : Grown q g g' :=
  ⟨h.toGhostLe, fun a hx _ => by rw [ha] at hx; exact hx, fun a hx _ => by rw [hgr] at hx; exact hx, fun L _ => by rw [hc]⟩

/-- the leader appends one entry: the entry also becomes the last one of its log in the history -/
theorem en_lhAppend (hg : GInv m0 g) {e e' : Eng} {l : Engine.Leader} {x : Payload} (h : EInv g0 e) (hn : EN g dv q g0 p e)
    (hl : e.leader = some l)
    (hch : ∀ m, x = .membership m → ∃ k0 mp, lastCfg (elog g g0 e) = some (k0, mp) ∧ (∃ c, c ∈ mp.configs ∧ c ∈ m.configs) ∧
      ∃ r ∈ g.commits, r.L = e.st.vote.data.leaderId ∧ k0 < r.m)
    (hr : Eng.lhAppend dbg e l [x] = .ok e') :
    GInv m0 (g.append e.st.vote.data.leaderId ⟨e.st.vote.data.leaderId, x⟩) ∧
    GhostStep q g (g.append e.st.vote.data.leaderId ⟨e.st.vote.data.leaderId, x⟩) ∧
    EN (g.append e.st.vote.data.leaderId ⟨e.st.vote.data.leaderId, x⟩) dv q g0 p e' := by
  have hk := h.pj.lead l hl
  have hvs := hn.sq.endVS hg h.lm.oks
  obtain ⟨hlog, hall⟩ := hn.ec.lead l hl
  obtain ⟨S, hS⟩ := hvs.voteEl (by rw [h.pj.gv]; exact hk.com)
  rw [h.pj.gv] at hS
  have hnode : e.st.vote.data.leaderId.node = q := by rw [hk.node]; exact hn.id
  obtain ⟨cs, l', ho, hcs, s1, s2, s3, s4, s5, s6⟩ := lhAppend_shape hr
  have hI' := (Eng.inv_lhAppend h hl hr).1
  have hgi : GInv m0 (g.append e.st.vote.data.leaderId ⟨e.st.vote.data.leaderId, x⟩) := by
    refine ginv_append hg _ _ S hS rfl ?_
    intro m hm
    rw [hlog]
    exact hch m (by
      unfold Entry.cfg at hm
      cases x with
      | membership m' => simp only [Option.some.injEq] at hm; rw [hm]
      | _ => cases hm)
  have hst : GhostStep q g (g.append e.st.vote.data.leaderId ⟨e.st.vote.data.leaderId, x⟩) := step_append q _ _ hnode
  have hgr : Grown q g (g.append e.st.vote.data.leaderId ⟨e.st.vote.data.leaderId, x⟩) := grown_of hst rfl rfl rfl
  refine ⟨hgi, hst, ?_⟩
  have hll : (g.append e.st.vote.data.leaderId ⟨e.st.vote.data.leaderId, x⟩).ll e.st.vote.data.leaderId =
      elog g g0 e ++ [⟨e.st.vote.data.leaderId, x⟩] := by rw [← hlog]; exact fset_same _ _ _
  obtain ⟨g', hg'⟩ : ∃ g', g' = g.append e.st.vote.data.leaderId ⟨e.st.vote.data.leaderId, x⟩ := ⟨_, rfl⟩
  rw [← hg'] at hgi hst hgr hll ⊢
  have hvs' := hvs.mono hg hgr fun n => le_refl (dv n)
  have hsq' := hn.sq.mono hg hgr (fun n => le_refl (dv n)) h.lm.oks
  have hlog' : elog g' g0 e = elog g g0 e := logOf_mono hgr.toGhostLe hvs.st
  have hvl : l.vote = e.st.vote.data := hk.vote
  have hleg : Legal g' dv q (g0.runs e.out) (.append l.vote [⟨⟨l.vote.leaderId, nextIndex l.lastLogId⟩, x⟩]) := by
    refine ⟨?_, ?_, Or.inl (by rw [h.pj.gv]; exact hk.com)⟩
    · have : logOf g' (g0.runs e.out) ++ List.map toEntry [⟨⟨l.vote.leaderId, nextIndex l.lastLogId⟩, x⟩] = g'.ll e.st.vote.data.leaderId := by
        rw [hll, ← hlog', hvl]; rfl
      rw [this]; exact hgi.goodL _
    · intro z hz
      simp only [List.mem_singleton] at hz; subst hz
      right
      rw [h.pj.gv, hvl]
      exact Vote.le_def.2 (Or.inr ⟨rfl, fun _ => hk.com⟩)
  have hok : (g0.runs e.out).Ok (.append l.vote [⟨⟨l.vote.leaderId, nextIndex l.lastLogId⟩, x⟩]) := by
    have := hI'.lm.oks
    rw [ho, Gh.oks_append, Gh.oks_snoc] at this; exact this.1.2
  have hrun := hvs'.run_append hok hleg
  have hsq2 : SQ g' dv q g0 p e'.out := by
    rw [ho]; exact (hsq'.snoc hleg).append (calm_legals fun c hc => (hcs c hc).1)
  have hlog2 : elog g' g0 e' = elog g g0 e ++ [⟨e.st.vote.data.leaderId, x⟩] := by
    unfold elog
    rw [ho, Gh.runs_append, (Gh.runs_inert fun c hc => (hcs c hc).2).1, Gh.runs_snoc, hrun.2]
    show elog g' g0 e ++ _ = _
    rw [hlog', hvl]; rfl
  have hlen : (elog g g0 e).length = nextIndex l.lastLogId := by rw [elog_len h.lm hvs, hk.last]
  have hvd : e'.st.vote.data = e.st.vote.data := by rw [s1]
  refine ⟨hsq2, ⟨?_, ?_, ?_, ?_⟩, by rw [s2]; exact hn.id⟩
  · intro l2 hl2
    rw [s4] at hl2; cases hl2
    rw [hvd, hlog2]
    refine ⟨hll, ?_⟩
    have : l.progress.vp.AllP (AckBy g' e.st.vote.data.leaderId) := fun z hz => (hall z hz).mono hgr.toGhostLe
    exact s5 _ (fun _ => AckBy.none) this
  · intro c hc
    rw [s3] at hc
    have := (h.pj.cand c hc).nl
    rw [hl] at this; cases this
  · intro _ hx; rw [hvd] at hx; exact absurd hnode hx
  · intro heq y hy
    rw [hvd, hlog2]
    have heff := eff_memOf h.lm hvs
    have hold : ∀ z, e.st.ms.effective.logId = some z → z.index < (elog g g0 e).length := fun z hz =>
      idAt_lt (memOf_logId (by rw [← heff]; exact hz))
    have hms : e'.st.ms = e.st.ms := by
      cases x with
      | membership m =>
        exfalso
        rw [s6] at heq
        have h1 : e.st.ms.effective = ⟨some ⟨l.vote.leaderId, nextIndex l.lastLogId⟩, m⟩ := heq
        have := hold ⟨l.vote.leaderId, nextIndex l.lastLogId⟩ (by rw [h1])
        simp only at this; omega
      | _ => exact s6
    rw [hms] at heq hy
    have := hn.ec.mcom heq y hy
    rw [heq] at hy
    rw [List.take_append_of_le_length (hold y hy)]
    exact this.mono hgr.toGhostLe

end Openraft.Net
