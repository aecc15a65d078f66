import Verif.Net.Eng4

/-!
# The engine agrees with the history: requests of other nodes
-/

set_option autoImplicit false
set_option linter.unusedSectionVars false

namespace Openraft.Net
open Openraft.Repl (Panic dassert Inflight)
open Openraft.Engine Openraft.Cluster
open Openraft.VecProgress (AllP BI)
open Openraft.Engine.Eng (Following Pre Took)

variable {m0 : Membership} [hne : Fact (m0.configs ≠ [])] {g g' : Ghost} {dv dv' : NodeId → Vote} {q : NodeId} {g0 : Gh} {p : Nat} {dbg : Bool} {now : Nat}

theorem take_pre_of_le {l c : Log} {n : Nat} (hc : c <+: l) (hn : n ≤ c.length) : l.take n <+: c := by
  rw [take_eq_of_pre hc hn]; exact List.take_prefix _ _

/-- the engine takes a position of its log for committed that is committed -/
theorem en_commit (hg : GInv m0 g) {e e' : Eng} {c : LogId} {ms' : MemState} (cs : List Cmd) (h : EInv g0 e) (hn : EN g dv q g0 p e)
    (hin : c ∈ e.st.lv.L) (hm : RState.MemState.commit dbg e.st.ms (some c) = .ok ms')
    (hcs : ∀ x ∈ cs, x.inert = true) (hl : Legals g dv q (g0.runs e.out) cs)
    (hcom : CVote g e.st.vote.data ((elog g g0 e).take (c.index + 1)))
    (he : e' = { e with st := { e.st with committed := some c, ms := ms' },
                        out := e.out ++ cs ++ [.saveCommitted c, .apply e.st.committed c] }) : EN g dv q g0 p e' := by
  subst he
  have hvs := hn.sq.endVS hg h.lm.oks
  have hgr : g0.runs (e.out ++ cs ++ [.saveCommitted c, .apply e.st.committed c]) =
      (g0.runs e.out).run (.apply e.st.committed c) := by
    rw [List.append_assoc, Gh.runs_append, Gh.runs_append, (Gh.runs_inert hcs).1]; rfl
  have hlog : elog g g0 { e with
      st := { e.st with committed := some c, ms := ms' }
      out := e.out ++ cs ++ [.saveCommitted c, .apply e.st.committed c] } = elog g g0 e := by
    unfold elog
    show logOf g (g0.runs (e.out ++ cs ++ [.saveCommitted c, .apply e.st.committed c])) = _
    rw [hgr]; rfl
  have hef : ms'.effective = e.st.ms.effective ∧ (ms'.committed = e.st.ms.committed ∨ e.st.ms.effective.logId ≤ some c) := by
    unfold RState.MemState.commit at hm
    split at hm
    · next hle =>
      rw [bind_ok] at hm
      obtain ⟨_, _, hm⟩ := hm
      rw [pure_ok] at hm; subst hm; exact ⟨rfl, Or.inr hle⟩
    · rw [pure_ok] at hm; subst hm; exact ⟨rfl, Or.inl rfl⟩
  refine ⟨?_, ?_, hn.id⟩
  · show SQ g dv q g0 p (e.out ++ cs ++ [.saveCommitted c, .apply e.st.committed c])
    rw [List.append_assoc]
    refine hn.sq.append (legals_append.2 ⟨hl, ?_⟩)
    rw [(Gh.runs_inert hcs).1]
    have hcom' : CVote g (g0.runs e.out).vote ((logOf g (g0.runs e.out)).take (c.index + 1)) := by
      rw [h.pj.gv]; exact hcom
    exact ⟨hcom', hcom', trivial⟩
  · rw [hlog]
    refine ⟨hn.ec.lead, hn.ec.cand, hn.ec.acc, ?_⟩
    intro heq y hy
    have heq : ms'.committed = ms'.effective := heq
    have hy : ms'.committed.logId = some y := hy
    show CVote g e.st.vote.data ((elog g g0 e).take (y.index + 1))
    rcases hef.2 with h1 | h1
    · rw [h1] at hy
      exact hn.ec.mcom (by rw [← h1, heq, hef.1]) y hy
    · rw [heq, hef.1] at hy
      rw [hy] at h1
      have h2 : idAt (elog g g0 e) y.index = some y := memOf_logId (by rw [← eff_memOf h.lm hvs]; exact hy)
      have h3 := idAt_le hg hvs.good h2 (elog_mem h.lm hvs hin) h1
      exact hcom.pre (take_pre_take (by omega))

theorem en_fhCommit (hm0 : m0.configs ≠ []) (hg : GInv m0 g) {e e' : Eng} {prev : Option LogId} {es : List Ent} {lc : Option LogId}
    (h : EInv g0 e) (h' : EInv g0 e') (hn : EN g dv q g0 p e) (hpk : AppPkt g e.st.vote.data prev es lc) (hq : e.st.vote.data.leaderId.node ≠ q)
    (hr : Eng.fhCommit dbg e lc = .ok e') : EN g dv q g0 p e' := by
  have hvs := hn.sq.endVS hg h.lm.oks
  unfold Eng.fhCommit at hr
  rw [bind_ok] at hr
  obtain ⟨⟨ch, st⟩, h1, hr⟩ := hr
  simp only at hr
  unfold RState.updateCommitted at h1
  split at h1
  · next hlt =>
    rw [bind_ok] at h1
    obtain ⟨ms', h2, h1⟩ := h1
    rw [pure_ok] at h1
    cases h1
    rw [if_pos rfl, bind_ok] at hr
    obtain ⟨id, hid, hr⟩ := hr
    rw [unwrap_ok] at hid
    rw [pure_ok] at hr
    rw [hid] at hlt h2
    have hin : id ∈ e.st.lv.L := by
      have hf := Eng.frame_maybeSnapshot ((({ e with st := { e.st with committed := min (e.st.io.prog.accepted.bind (·.last)) lc, ms := ms' } } : Eng).push
        (.saveCommitted id)).push (.apply e.st.committed id))
      have h3 := h'.lm.log.comIn id (by
        rw [← hr, hf.lv]; exact hid)
      rw [← hr, hf.lv] at h3
      exact h3
    have hidl : idAt (g.ll e.st.vote.data.leaderId) id.index = some id := by
      have hid2 := hid
      rw [omin_eq] at hid2
      split at hid2
      · exact hn.ec.acc hpk.com hq id hid2
      · exact (hpk.lcIn hm0 hg hid2).2
    obtain ⟨x, hx, hle⟩ : ∃ x, lc = some x ∧ id ≤ x := by
      have h3 : some id ≤ lc := by
        have hid2 := hid
        rw [omin_eq] at hid2
        split at hid2
        · next hc => rw [← hid2]; exact hc
        · exact le_of_eq hid2.symm
      cases lc with
      | none => exact absurd h3 OptOrd.not_some_le_none'
      | some x => exact ⟨x, rfl, h3⟩
    obtain ⟨h4, h5⟩ := hpk.lcIn hm0 hg hx
    have h6 := idAt_le hg (hg.goodL _) hidl h5 hle
    have hcom : CVote g e.st.vote.data ((elog g g0 e).take (id.index + 1)) := by
      unfold elog
      rw [match_of_idAt hvs.good (hg.goodL _) (elog_mem h.lm hvs hin) hidl]
      refine (hpk.lcOk x hx).2.pre (take_pre_of_le h4 ?_)
      rw [hx, cont_len (hpk.lcOk x hx).1]; omega
    rw [← hr]
    refine EN.frame ?_ (Eng.frame_maybeSnapshot _) (calm_maybeSnapshot _)
    exact en_commit hg [] h hn hin h2 (by simp) trivial hcom (by simp [Eng.push, hid])
  · rw [pure_ok] at h1
    cases h1
    rw [if_neg (by simp), pure_ok] at hr
    subst hr; exact hn

/-- pushing an answer -/
theorem EN.respond {e : Eng} (h : EN g dv q g0 p e) {c : Option Cond} {tx : Nat} {r : Resp} (hl : Legal g dv q (g0.runs e.out) (.respond c tx r)) :
    EN g dv q g0 p (e.push (.respond c tx r)) :=
  h.frame' (cs := [.respond c tx r]) (Frame.push _ rfl) rfl ⟨hl, trivial⟩

theorem en_fhEnsure (hg : GInv m0 g) {e e' : Eng} {prev : Option LogId} {es : List Ent} {lc : Option LogId}
    (h : EInv g0 e) (hn : EN g dv q g0 p e) (hf : Following e) (hpk : AppPkt g e.st.vote.data prev es lc)
    (hl : LeadLog (idsFrom 0 (g.ll e.st.vote.data.leaderId)) e.st.vote.data e.st.lv.L (e.floor e.st.vote.data))
    (hr : Eng.fhEnsure dbg e prev = .ok (false, e')) : EN g dv q g0 p e' := by
  obtain ⟨f1, f2, f3⟩ := Eng.floor_parts (e := e) rfl
  unfold Eng.fhEnsure at hr
  split at hr
  · rw [pure_ok] at hr; cases hr
  · next x =>
    rw [bind_ok] at hr
    obtain ⟨b, hb, hr⟩ := hr
    cases b with
    | true => simp only [if_true] at hr; rw [pure_ok] at hr; cases hr
    | false =>
      simp only [Bool.false_eq_true, if_false, bind_ok] at hr
      obtain ⟨e1, he1, hr⟩ := hr
      rw [pure_ok] at hr; cases hr
      obtain ⟨h1, h2⟩ := Eng.not_has h.lm hb
      have h3 := Eng.floor_le hl (mem_ids0.2 (hpk.prevIn x rfl)) h2
      exact (en_fhTruncate hg h.lm h.pj.gv hn hf (hpk.prevIn x rfl) h2 h1 (fun y hy hi => by have := h3 y hy hi; omega) he1).1

theorem en_handleAppend (hm0 : m0.configs ≠ []) (hg : GInv m0 g) {e e' : Eng} {tx : Nat} {v : Vote} {prev : Option LogId} {es : List Ent}
    {lc : Option LogId} (h : EInv g0 e) (hn : EN g dv q g0 p e) (hpk : AppPkt g v prev es lc) (hq : v.leaderId.node ≠ q)
    (hpv : v ≤ dv v.leaderId.node) (hr : e.handleAppend dbg now tx v prev es lc = .ok e') : EN g dv q g0 p e' := by
  have hI' := Eng.inv_handleAppend h (fun hle => (appendOk_of hm0 hg h hn hpk hq hle).2) hr
  unfold Eng.handleAppend at hr
  rw [bind_ok] at hr
  obtain ⟨⟨r, e1⟩, he1, hr⟩ := hr
  obtain ⟨hinv, -⟩ := Eng.inv_appendEntries h (fun hle => (appendOk_of hm0 hg h hn hpk hq hle).2) he1
  have hid : v.leaderId.node ≠ e.cfg.id := by rw [hn.id]; exact hq
  have key : EN g dv q g0 p e1 ∧ (r = .success → e1.st.vote.data = v) ∧ (∀ w, r = .higherVote w → e1.st.vote.data = w) := by
    unfold Eng.appendEntries at he1
    rw [bind_ok] at he1
    obtain ⟨⟨ok, e2⟩, he2, he1⟩ := he1
    have hn2 := (en_updateVote hg h hn (fun hx => absurd hx hq) (fun _ => hpk.el) (fun _ => hpv) he2).1
    obtain ⟨hinv2, _, _, hb⟩ := Eng.inv_updateVote h (fun hx => absurd hx hid) he2
    simp only at he1
    cases ok with
    | false =>
      simp only [Bool.false_eq_true, if_false] at he1
      rw [pure_ok] at he1
      cases he1
      exact ⟨hn2, fun hx => (by cases hx), fun w hw => by cases hw; rfl⟩
    | true =>
      have hle := Eng.updateVote_le he2
      obtain ⟨hl, _⟩ := appendOk_of hm0 hg h hn hpk hq hle
      have hbe := hb rfl hpk.com hid
      simp only [if_true, bind_ok] at he1
      obtain ⟨lv, hlv, ⟨ok2, e3⟩, he3, he1⟩ := he1
      have hlv := Eng.followingHandler_ok hlv
      rw [toCommitted_eq hbe.fol.com] at hlv
      have hl' : LeadLog (idsFrom 0 (g.ll e2.st.vote.data.leaderId)) e2.st.vote.data e2.st.lv.L (e2.floor e2.st.vote.data) := by
        rw [hbe.vote, hbe.L, hbe.floor]; exact hl
      have hpk' : AppPkt g e2.st.vote.data prev es lc := by rw [hbe.vote]; exact hpk
      simp only at he1
      cases ok2 with
      | false =>
        simp only [Bool.false_eq_true, if_false] at he1
        rw [pure_ok] at he1
        cases he1
        exact ⟨en_fhEnsure hg hinv2 hn2 hbe.fol hpk' hl' he3, fun hx => (by cases hx), fun w hw => by cases hw⟩
      | true =>
        simp only [if_true, bind_ok, pure_ok] at he1
        obtain ⟨e4, he4, he1⟩ := he1
        cases he1
        obtain ⟨h1, h2, h3⟩ := Eng.fhEnsure_true hinv2.lm hl' (Eng.floor_parts rfl).1 (fun x hx => mem_ids0.2 (hpk'.prevIn x hx)) he3
        subst h1
        rw [hlv] at he4
        refine ⟨en_fhAppendEntries hg hinv2 hn2 hbe.fol hpk' hl' h2 he4, fun _ => ?_, fun w hw => by cases hw⟩
        have hs := Eng.still_fhAppendEntries _ _ _ _ _ he4
        exact (congrArg Leased.data hs.vote).trans hbe.vote
  obtain ⟨hn1, k1, k2⟩ := key
  simp only at hr
  split at hr
  · next hs =>
    subst hs
    simp only [bind_ok] at hr
    obtain ⟨acc, _, _, _, hr⟩ := hr
    have hv := k1 rfl
    refine en_fhCommit (prev := prev) (es := es) hm0 hg ((Frame.push _ (c := .respond _ _ _) rfl).inv hinv) hI' (hn1.respond ?_) ?_ ?_ hr
    · refine ⟨by rw [hinv.pj.gv, hv], hpk.com, ?_, lm_anch hinv.lm (hn1.sq.endVS hg hinv.lm.oks)⟩
      intro x hx
      rcases Eng.max_cases prev (es.getLast?.map (·.id)) with h1 | h1
      · rw [h1] at hx; exact hpk.prevIn x hx
      · rw [h1] at hx
        cases hgl : es.getLast? with
        | none => rw [hgl] at hx; cases hx
        | some z =>
          rw [hgl] at hx; simp only [Option.map_some, Option.some.injEq] at hx
          subst hx; exact hpk.idAt (List.mem_of_getLast? hgl)
    · show AppPkt g e1.st.vote.data prev es lc
      rw [hv]; exact hpk
    · show e1.st.vote.data.leaderId.node ≠ q
      rw [hv]; exact hq
  · next hs =>
    rw [pure_ok] at hr
    subst hr
    refine hn1.respond ?_
    cases r with
    | success => exact absurd rfl hs
    | conflict => exact trivial
    | higherVote w => exact ((k2 w rfl).symm.trans hinv.pj.gv.symm)

/-- a request for a vote of the candidate of `v` -/
structure VotePkt (g : Ghost) (v : Vote) (last : Option LogId) : Prop where
  unc : v.committed = false
  pos : v.leaderId.term ≠ 0
  log : ∃ l, g.cl v.leaderId = some l ∧ last = lastId l

theorem en_voteReq (hg : GInv m0 g) {e e' : Eng} {tx : Nat} {v : Vote} {last : Option LogId} (h : EInv g0 e) (hn : EN g dv q g0 p e)
    (hpk : VotePkt g v last) (hq : v.leaderId.node ≠ q) (hpv : v ≤ dv v.leaderId.node)
    (hr : e.coreVoteReq dbg now tx v last = .ok e') : EN g dv q g0 p e' := by
  unfold Eng.coreVoteReq at hr
  rw [bind_ok] at hr
  obtain ⟨⟨r, e1⟩, he1, hr⟩ := hr
  rw [pure_ok] at hr; subst hr
  have hid : v.leaderId.node ≠ e.cfg.id := by rw [hn.id]; exact hq
  unfold Eng.handleVoteReq at he1
  split at he1
  · rw [pure_ok] at he1; cases he1
    exact hn.respond ⟨h.pj.gv.symm, fun hx => by cases hx⟩
  · split at he1
    · next hle =>
      simp only [bind_ok, pure_ok] at he1
      obtain ⟨⟨ok, e2⟩, he2, he1⟩ := he1
      cases he1
      obtain ⟨hn2, _, hst⟩ := en_updateVote hg h hn (fun hx => absurd hx hq) (fun hc => by rw [hpk.unc] at hc; cases hc) (fun _ => hpv) he2
      have hinv := (Eng.inv_updateVote h (fun hx => absurd hx hid) he2).1
      refine hn2.respond ⟨hinv.pj.gv.symm, fun hok => ?_⟩
      have hok : ok = true := hok
      subst hok
      have hv := Eng.updateVote_vote he2
      show e2.st.vote.data.committed = false ∧ e2.st.vote.data.leaderId.term ≠ 0 ∧ _
      rw [hv]
      refine ⟨hpk.unc, hpk.pos, ?_⟩
      obtain ⟨l, h1, h2⟩ := hpk.log
      refine ⟨l, h1, ?_⟩
      rw [hst, h.lm.log.store_last, ← h2]; exact hle
    · rw [pure_ok] at he1; cases he1
      exact hn.respond ⟨h.pj.gv.symm, fun hx => by cases hx⟩

end Openraft.Net
