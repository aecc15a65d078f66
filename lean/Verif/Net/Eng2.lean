import Verif.Net.Eng1

/-!
# The engine agrees with the history: votes and elections
-/

set_option autoImplicit false
set_option linter.unusedSectionVars false

namespace Openraft.Net
open Openraft.Repl (Panic dassert Inflight)
open Openraft.Engine Openraft.Cluster
open Openraft.VecProgress (AllP BI)

variable {m0 : Membership} [hne : Fact (m0.configs ≠ [])] {g g' : Ghost} {dv dv' : NodeId → Vote} {q : NodeId} {g0 : Gh} {p : Nat} {dbg : Bool} {now : Nat}

theorem storeVote_out {lease : Nat} {e e1 : Eng} {v : Vote} (hn : ¬ e.st.vote.data < v)
    (hr : Eng.storeVote dbg now lease e v = .ok e1) : e1.out = e.out := by
  unfold Eng.storeVote at hr
  rw [if_neg hn, bind_ok] at hr
  obtain ⟨vt, hvt, hr⟩ := hr
  rw [pure_ok] at hr
  rw [← hr]

/-- an engine without a role -/
theorem EC.norole {l : Log} {e : Eng} (hl : e.leader = none) (hc : e.candidate = none)
    (ha : e.st.vote.data.committed = true → e.st.vote.data.leaderId.node ≠ q →
      ∀ x, e.st.accLast = some x → idAt (g.ll e.st.vote.data.leaderId) x.index = some x)
    (hm : e.st.ms.committed = e.st.ms.effective → ∀ y, e.st.ms.committed.logId = some y → CVote g e.st.vote.data (l.take (y.index + 1))) :
    EC g q l e :=
  ⟨fun x hx => (by rw [hl] at hx; cases hx), fun c h => (by rw [hc] at h; cases h), ha, hm⟩

theorem en_updateInternal {e e' : Eng} (h : EInv g0 e) (hn : EN g dv q g0 p e) (hr : Eng.updateInternal dbg now e = .ok e') :
    EN g dv q g0 p e' := by
  unfold Eng.updateInternal at hr
  split at hr
  · next hil =>
    unfold Eng.becomeLeader at hr
    cases hl : e.leader with
    | none => rw [h.pj.nolead hl] at hil; cases hil
    | some l =>
      have hk := h.pj.lead l hl
      rw [hl] at hr
      simp only at hr
      rw [if_pos (by rw [hk.vote]), pure_ok] at hr
      subst hr
      exact ⟨hn.sq, hn.ec.of rfl rfl rfl (fun x' hx' => ⟨l, hl, by
        have : some { l with vote := e.st.vote.data.toCommitted } = some x' := hx'
        rw [← Option.some.inj this]⟩) (fun c hc => hc), hn.id⟩
  · split at hr
    · rw [pure_ok] at hr; subst hr; exact hn
    · obtain ⟨srv, rfl⟩ := Eng.becomeFollowing_ok hr
      exact ⟨hn.sq, EC.norole rfl rfl hn.ec.acc hn.ec.mcom, hn.id⟩

theorem logOf_saveVote (G : Gh) (v : Vote) : logOf g (G.run (.saveVote v)) = logOf g G := rfl

/-- a vote of another node, or one that is not greater -/
theorem en_updateVote (hg : GInv m0 g) {e e' : Eng} {v : Vote} {ok : Bool} (h : EInv g0 e) (hn : EN g dv q g0 p e)
    (hv : v.leaderId.node = q → v ≤ e.st.vote.data) (hel : v.committed = true → ∃ S, g.el v.leaderId = some S)
    (hpv : v.leaderId.node ≠ q → v ≤ dv v.leaderId.node) (hr : Eng.updateVote dbg now e v = .ok (ok, e')) :
    EN g dv q g0 p e' ∧ elog g g0 e' = elog g g0 e ∧ (g0.runs e'.out).store = (g0.runs e.out).store := by
  unfold Eng.updateVote at hr
  split at hr
  · next hle =>
    simp only [bind_ok, pure_ok] at hr
    obtain ⟨e1, he1, e2, he2, hr⟩ := hr
    cases hr
    obtain ⟨a, ha1, ha2, ha3⟩ := h.pj.acc
    by_cases hlt : e.st.vote.data < v
    · have hne : v.leaderId.node ≠ e.cfg.id := fun hx => absurd (hv (by rw [hx]; exact hn.id)) (not_le.2 hlt)
      obtain ⟨hlm, io, he1', hio⟩ := Eng.storeVote_gt h.lm ha1 (le_of_eq ha2) hlt he1
      have hcfg1 : e1.cfg = e.cfg := by rw [he1']
      have hd : e1.st.vote.data = v := by rw [he1']; rfl
      have hng : e1.st.isLeading e1.cfg.id = false := by
        unfold RState.isLeading
        rw [hd, hcfg1]
        have : (v.leaderId.node == e.cfg.id) = false := by simpa using hne
        rw [this]; simp
      have hnl : e1.st.isLeader e1.cfg.id = false := by unfold RState.isLeader; rw [hng]; rfl
      unfold Eng.updateInternal at he2
      rw [if_neg (by rw [hnl]; simp), if_neg (by rw [hng]; simp)] at he2
      obtain ⟨srv, he2'⟩ := Eng.becomeFollowing_ok he2
      have hout : e'.out = e.out ++ [.saveVote v] := by rw [he2', he1']
      have hlog : elog g g0 e' = elog g g0 e := by
        unfold elog; rw [hout, Gh.runs_snoc]; rfl
      refine ⟨⟨?_, ?_, by rw [he2', he1']; exact hn.id⟩, hlog, by rw [hout, Gh.runs_snoc]; rfl⟩
      · rw [hout]
        exact hn.sq.snoc ⟨hel, hpv, lm_anch h.lm (hn.sq.endVS hg h.lm.oks)⟩
      · refine EC.norole (by rw [he2']) (by rw [he2']) ?_ ?_
        · intro _ _ x hx
          have : e'.st.io.prog.accepted = some (IOId.new v) := by rw [he2', he1']; exact hio
          unfold RState.accLast at hx
          rw [this] at hx; cases hx
        · have hms : e'.st.ms = e.st.ms := by rw [he2', he1']
          have hvd : e'.st.vote.data = v := by rw [he2']; exact hd
          rw [hms, hvd, hlog]
          exact fun hc y hy => (hn.ec.mcom hc y hy).le (le_of_lt hlt)
    · obtain ⟨hf, hio1, hl1⟩ := Eng.storeVote_eq hlt he1
      have hout := storeVote_out hlt he1
      have h1 := hn.frame hf (emits_out hout)
      have h2 := en_updateInternal (hf.inv h) h1 he2
      have hout2 : e'.out = e1.out := by
        have hi := hf.inv h
        unfold Eng.updateInternal at he2
        split at he2
        · next hil =>
          unfold Eng.becomeLeader at he2
          cases hl : e1.leader with
          | none => rw [hi.pj.nolead hl] at hil; cases hil
          | some l =>
            have hk := hi.pj.lead l hl
            rw [hl] at he2
            simp only at he2
            rw [if_pos (by rw [hk.vote]), pure_ok] at he2
            subst he2; rfl
        · split at he2
          · rw [pure_ok] at he2; subst he2; rfl
          · obtain ⟨srv, rfl⟩ := Eng.becomeFollowing_ok he2; rfl
      refine ⟨h2, ?_, by rw [hout2, hout]⟩
      unfold elog; rw [hout2, hout]
  · rw [pure_ok] at hr
    cases hr
    exact ⟨hn, rfl, rfl⟩

/-! ## Elections -/

theorem not_el_of_own (hg : GInv m0 g) {G : Gh} (hv : VS g dv q G) {L : LeaderId} (hq : L.node = q) (hlt : G.vote.leaderId < L) :
    g.el L = none := by
  cases hel : g.el L with
  | none => rfl
  | some S =>
    obtain ⟨l, hcl, _⟩ := hg.elCl L S hel
    exact absurd (hv.ownCl L (by rw [hcl]; simp) hq) (not_le.2 hlt)

/-- an election -/
theorem en_elect {e e' : Eng} {a : IOId} (hg : GInv m0 g) (h : LM g0 e) (hsq : SQ g dv q g0 p e.out) (hid : e.cfg.id = q)
    (ha : e.st.io.prog.accepted = some a) (hav : a.vote ≤ e.st.vote.data) (hl : e.leader = none)
    (hgv : (g0.runs e.out).vote.leaderId = e.st.vote.data.leaderId)
    (hm : e.st.ms.committed = e.st.ms.effective → ∀ y, e.st.ms.committed.logId = some y →
      CVote g e.st.vote.data ((elog g g0 e).take (y.index + 1)))
    (hr : Eng.elect dbg now e = .ok e') : EN g dv q g0 p e' := by
  unfold Eng.elect at hr
  simp only [bind_ok] at hr
  obtain ⟨⟨ok, e2⟩, he2, _, _, hr⟩ := hr
  rw [pure_ok] at hr
  have hlt := Eng.vote_lt_new (v := e.st.vote.data) e.cfg.id
  have hterm : (Vote.new (e.st.vote.data.leaderId.term + 1) e.cfg.id).leaderId.term ≠ 0 := by
    show e.st.vote.data.leaderId.term + 1 ≠ 0; omega
  have hltid : e.st.vote.data.leaderId < (Vote.new (e.st.vote.data.leaderId.term + 1) e.cfg.id).leaderId := by
    rw [LeaderId.lt_def]; left; show _ < e.st.vote.data.leaderId.term + 1; omega
  generalize hV : Vote.new (e.st.vote.data.leaderId.term + 1) e.cfg.id = v at *
  have hvc : v.committed = false := by rw [← hV]; rfl
  have hvn : v.leaderId.node = e.cfg.id := by rw [← hV]; rfl
  unfold Eng.updateVote at he2
  rw [if_pos (show e.st.vote.data ≤ v from le_of_lt hlt)] at he2
  simp only [bind_ok, pure_ok] at he2
  obtain ⟨e3, he3, e4, he4, he2⟩ := he2
  cases he2
  have hlm1 : LM g0 { e with candidate := some (Candidate.new now v e.st.lastLogId e.st.ms.effective.mem) } :=
    h.state rfl h.log h.mem
  obtain ⟨hlm, io, he3', hio⟩ := Eng.storeVote_gt hlm1 ha hav hlt he3
  have hd : e3.st.vote.data = v := by rw [he3']; rfl
  have hout3 : e3.out = e.out ++ [.saveVote v] := by rw [he3']
  have hl3 : e3.leader = none := by rw [he3']; exact hl
  have hlog3 : elog g g0 e3 = elog g g0 e := by unfold elog; rw [hout3, Gh.runs_snoc]; rfl
  have hsq3 : SQ g dv q g0 p e3.out := by
    rw [hout3]
    exact hsq.snoc ⟨fun hc => (by rw [hvc] at hc; cases hc), fun hne => absurd (hvn.trans hid) hne, lm_anch h (hsq.endVS hg h.oks)⟩
  have hacc3 : e3.st.vote.data.committed = true → e3.st.vote.data.leaderId.node ≠ q →
      ∀ x, e3.st.accLast = some x → idAt (g.ll e3.st.vote.data.leaderId) x.index = some x := by
    rw [hd, hvc]; intro hc; cases hc
  have hm3 : e3.st.ms.committed = e3.st.ms.effective → ∀ y, e3.st.ms.committed.logId = some y →
      CVote g e3.st.vote.data ((elog g g0 e3).take (y.index + 1)) := by
    have hms : e3.st.ms = e.st.ms := by rw [he3']
    rw [hms, hd, hlog3]
    exact fun hc y hy => (hm hc y hy).le (le_of_lt hlt)
  have hnl : e3.st.isLeader e3.cfg.id = false := by
    unfold RState.isLeader; rw [hd, hvc]; simp
  have hmain : EN g dv q g0 p e2 ∧ e2.out = e3.out ∧ e2.leader = none := by
    unfold Eng.updateInternal at he4
    rw [if_neg (by rw [hnl]; simp)] at he4
    split at he4
    · rw [pure_ok] at he4
      subst he4
      refine ⟨⟨hsq3, ⟨fun x hx => (by rw [hl3] at hx; cases hx), ?_, hacc3, hm3⟩, by rw [he3']; exact hid⟩, rfl, hl3⟩
      intro c hc
      have hc' : c = Candidate.new now v e.st.lastLogId e.st.ms.effective.mem := by
        rw [he3'] at hc; exact (Option.some.inj hc).symm
      subst hc'
      refine ⟨BI.new _, rfl, ?_, ?_, by rw [hd]; exact hterm, ?_⟩
      · intro n hn
        simp only [Candidate.new, VecProgress.new, List.map_nil, List.append_nil, List.mem_map, Prod.mk.injEq] at hn
        obtain ⟨_, _, _, hx⟩ := hn; cases hx
      · rw [hd]
        exact not_el_of_own hg (hsq.endVS hg h.oks) (hvn.trans hid) (by rw [hgv]; exact hltid)
      · intro hx
        have hx : e.st.ms.effective.mem.configs = [] := hx
        show (VecProgress.new e.st.ms.effective.mem.configs [] false).vector = []
        rw [hx]; rfl
    · obtain ⟨srv, he4'⟩ := Eng.becomeFollowing_ok he4
      subst he4'
      exact ⟨⟨hsq3, EC.norole rfl rfl hacc3 hm3, by rw [he3']; exact hid⟩, rfl, rfl⟩
  subst hr
  obtain ⟨hen, hout2, hl2⟩ := hmain
  refine hen.frame' (cs := [.sendVote v e.st.lastLogId]) ((Frame.push e2 (c := .sendVote v e.st.lastLogId) rfl).trans (Eng.frame_updateServer hl2)) rfl ⟨?_, trivial⟩
  rw [hout2, hout3, Gh.runs_snoc]
  exact ⟨rfl, hvc, hvn.trans hid, hterm, h.log.store_last.symm⟩

end Openraft.Net
