import Verif.Engine.InvFollower

/-!
# The invariant under votes, elections and start-up
-/

set_option autoImplicit false

namespace Openraft.Engine
open Openraft.Repl (Panic dassert Inflight)
open Openraft.Cluster (Payload)
open LogIdList

namespace Eng

theorem vote_lt_new {v : Vote} (n : NodeId) : v < Vote.new (v.leaderId.term + 1) n := by
  rw [Vote.lt_def]
  left
  rw [LeaderId.lt_def]
  left
  show v.leaderId.term < v.leaderId.term + 1
  omega

theorem memJ_vote {ms : MemState} {v : LogV} {g g' : Gh} (h : MemJ ms v g) (w : Vote)
    (h1 : g'.store = g.store) (h2 : g'.base = g.base) : MemJ ms { v with vote := w } g' := by
  have hm : g'.mems = g.mems := by simp [Gh.mems, h1, h2]
  exact ⟨by rw [hm]; exact h.eff, by rw [hm]; exact h.com, h.ce, by rw [h2]; exact h.base1, by rw [h2]; exact h.base2⟩

/-- a greater vote is stored -/
theorem storeVote_gt {g0 : Gh} {dbg : Bool} {now lease : Nat} {e e1 : Eng} {v : Vote} {a : IOId} (h : LM g0 e)
    (ha : e.st.io.prog.accepted = some a) (hav : a.vote ≤ e.st.vote.data) (hlt : e.st.vote.data < v)
    (hr : storeVote dbg now lease e v = .ok e1) :
    LM g0 e1 ∧ ∃ io, e1 = { e with st := { e.st with vote := e.st.vote.update now lease v, io := io },
                                    out := e.out ++ [.saveVote v] } ∧ io.prog.accepted = some (IOId.new v) := by
  unfold storeVote at hr
  rw [if_pos hlt, bind_ok] at hr
  obtain ⟨st, hst, hr⟩ := hr
  rw [pure_ok] at hr
  have hst := acceptIo_ok hst
  have hacc : e.st.io.prog.accepted < some (IOId.new v) := by
    rw [ha]
    show a < IOId.new v
    rw [IOId.lt_def]
    left; exact lt_of_le_of_lt hav hlt
  have hj := h.log.setVote hlt
  have hm := memJ_vote (g' := (g0.runs e.out).run (.saveVote v)) h.mem v rfl rfl
  subst hst
  subst hr
  refine ⟨h.push rfl hj.1 hm hj.2, _, rfl, ?_⟩
  exact if_pos hacc

/-- the same vote is seen again -/
theorem storeVote_eq {dbg : Bool} {now lease : Nat} {e e1 : Eng} {v : Vote} (hn : ¬ e.st.vote.data < v)
    (hr : storeVote dbg now lease e v = .ok e1) : Frame e e1 ∧ e1.st.io = e.st.io ∧ e1.leader = e.leader := by
  unfold storeVote at hr
  rw [if_neg hn, bind_ok] at hr
  obtain ⟨vt, hvt, hr⟩ := hr
  rw [pure_ok] at hr
  have hd : vt.data = e.st.vote.data := by
    unfold Leased.touch at hvt
    rw [bind_ok] at hvt
    obtain ⟨_, _, hvt⟩ := hvt
    rw [pure_ok] at hvt; subst hvt; rfl
  subst hr
  exact ⟨⟨rfl, by simp [RState.lv, hd], rfl, rfl, fun _ => rfl, rfl, LSame.refl _, [], by simp, by simp⟩, rfl, rfl⟩

/-- a node without a role -/
theorem inv_norole {g0 : Gh} {e : Eng} (h : LM g0 e) (hl : e.leader = none) (hc : e.candidate = none)
    (hg : (g0.runs e.out).vote = e.st.vote.data)
    (ha : ∃ a, e.st.io.prog.accepted = some a ∧ a.vote = e.st.vote.data ∧ KnownO e.st.lv a.last)
    (hn : e.st.isLeader e.cfg.id = false) : EInv g0 e :=
  ⟨h, hg, ha, fun l h1 => (by rw [hl] at h1; cases h1), fun c h1 => (by rw [hc] at h1; cases h1), fun _ => hn⟩

theorem becomeFollowing_ok {dbg : Bool} {e e' : Eng} (hr : becomeFollowing dbg e = .ok e') :
    ∃ srv, e' = { e with st := { e.st with server := srv }, leader := none, candidate := none } := by
  unfold becomeFollowing at hr
  rw [bind_ok] at hr
  obtain ⟨_, _, hr⟩ := hr
  rw [pure_ok] at hr
  exact ⟨_, hr.symm⟩

theorem inv_becomeFollowing {g0 : Gh} {dbg : Bool} {e e' : Eng} (h : EInv g0 e) (hn : e.st.isLeader e.cfg.id = false)
    (hr : becomeFollowing dbg e = .ok e') : EInv g0 e' := by
  obtain ⟨srv, rfl⟩ := becomeFollowing_ok hr
  exact inv_norole (h.lm.state rfl h.lm.log h.lm.mem) rfl rfl h.pj.gv h.pj.acc hn

/-- role and vote agree -/
theorem inv_updateInternal {g0 : Gh} {dbg : Bool} {now : Nat} {e e' : Eng} (h : EInv g0 e)
    (hr : updateInternal dbg now e = .ok e') : EInv g0 e' := by
  unfold updateInternal at hr
  split at hr
  · next hil =>
    unfold becomeLeader at hr
    cases hl : e.leader with
    | none => rw [h.pj.nolead hl] at hil; cases hil
    | some l =>
      have hk := h.pj.lead l hl
      rw [hl] at hr
      simp only at hr
      rw [if_pos (by rw [hk.vote]), pure_ok] at hr
      subst hr
      have hf : Frame e (updateServerState { e with leader := some { l with vote := e.st.vote.data.toCommitted } }) := by
        refine ⟨rfl, rfl, rfl, rfl, ?_, rfl, ?_, [], by simp [updateServerState], by simp⟩
        · intro _
          show (RState.calcServerState _ _) = _
          unfold RState.calcServerState
          rw [if_pos hil, hk.srv]
        · rw [hl]
          show LSame (some l) (some _)
          simp [LSame, toCommitted_eq hk.com, hk.vote]
      exact hf.inv h
  · next hil =>
    split at hr
    · rw [pure_ok] at hr; subst hr; exact h
    · exact inv_becomeFollowing h (by simpa using hil) hr

/-- `e'` follows the leader of `v`; log, commit position and membership are those of `e` -/
structure Became (e e' : Eng) (v : Vote) : Prop where
  fol : Following e'
  vote : e'.st.vote.data = v
  cfg : e'.cfg = e.cfg
  L : e'.st.lv.L = e.st.lv.L
  com : e'.st.committed = e.st.committed
  ms : e'.st.ms = e.st.ms
  acc : e'.st.accLast = if e.st.vote.data = v then e.st.accLast else none
  lv : e'.st.lv = { e.st.lv with vote := v }
  snap : e'.st.snap = e.st.snap

theorem Became.floor {e e' : Eng} {v : Vote} (h : Became e e' v) : e'.floor v = e.floor v := by
  unfold Eng.floor
  rw [if_pos h.vote, h.com, h.ms, h.acc]
  split <;> simp

/-- a vote of another node, or one that is not greater -/
theorem inv_updateVote {g0 : Gh} {dbg : Bool} {now : Nat} {e e' : Eng} {v : Vote} {ok : Bool} (h : EInv g0 e)
    (hv : v.leaderId.node = e.cfg.id → v ≤ e.st.vote.data) (hr : updateVote dbg now e v = .ok (ok, e')) :
    EInv g0 e' ∧ (ok = true ↔ e.st.vote.data ≤ v) ∧ (ok = false → e' = e) ∧
    (ok = true → v.committed = true → v.leaderId.node ≠ e.cfg.id → Became e e' v) := by
  unfold updateVote at hr
  split at hr
  · next hle =>
    simp only [bind_ok, pure_ok] at hr
    obtain ⟨e1, he1, e2, he2, hr⟩ := hr
    cases hr
    obtain ⟨a, ha1, ha2, ha3⟩ := h.pj.acc
    by_cases hlt : e.st.vote.data < v
    · have hne : v.leaderId.node ≠ e.cfg.id := fun hx => absurd (hv hx) (not_le.2 hlt)
      obtain ⟨hlm, io, he1', hio⟩ := storeVote_gt h.lm ha1 (le_of_eq ha2) hlt he1
      have hcfg1 : e1.cfg = e.cfg := by rw [he1']
      have hd : e1.st.vote.data = v := by rw [he1']; rfl
      have hng : e1.st.isLeading e1.cfg.id = false := by
        unfold RState.isLeading
        rw [hd, hcfg1]
        have : (v.leaderId.node == e.cfg.id) = false := by simpa using hne
        rw [this]; simp
      have hnl : e1.st.isLeader e1.cfg.id = false := by unfold RState.isLeader; rw [hng]; rfl
      unfold updateInternal at he2
      rw [if_neg (by rw [hnl]; simp), if_neg (by rw [hng]; simp)] at he2
      obtain ⟨srv, he2'⟩ := becomeFollowing_ok he2
      have hinv : EInv g0 e' := by
        refine inv_norole ?_ (by rw [he2']) (by rw [he2']) ?_ ?_ ?_
        · rw [he2']; exact hlm.state rfl hlm.log hlm.mem
        · rw [he2', he1']
          show (g0.runs (e.out ++ [.saveVote v])).vote = v
          rw [Gh.runs_snoc]; rfl
        · refine ⟨IOId.new v, by rw [he2', he1']; exact hio, by rw [he2', he1']; rfl, KnownO.none⟩
        · rw [he2']; exact hnl
      refine ⟨hinv, by simp [hle], by simp, fun _ hcm hnd => ?_⟩
      refine ⟨⟨by rw [he2'], by rw [he2'], by rw [he2', he1']; exact hcm, by rw [he2', he1']; exact hnd,
        ⟨IOId.new v, by rw [he2', he1']; exact hio, by rw [he2', he1']; rfl⟩⟩, by rw [he2', he1']; rfl,
        by rw [he2', he1'], by rw [he2', he1']; rfl, by rw [he2', he1'], by rw [he2', he1'], ?_, by rw [he2', he1']; rfl, by rw [he2', he1']⟩
      rw [if_neg (ne_of_lt hlt)]
      unfold RState.accLast
      have : e'.st.io.prog.accepted = some (IOId.new v) := by rw [he2', he1']; exact hio
      rw [this]; rfl
    · have heq : e.st.vote.data = v := le_antisymm hle (not_lt.1 hlt)
      obtain ⟨hf, hio1, hl1⟩ := storeVote_eq hlt he1
      have hinv1 := hf.inv h
      refine ⟨inv_updateInternal hinv1 he2, by simp [hle], by simp, fun _ hcm hnd => ?_⟩
      have hd : e1.st.vote.data = v := by rw [hf.vote]; exact heq
      have hng : e1.st.isLeading e1.cfg.id = false := by
        unfold RState.isLeading
        rw [hd, hf.cfg]
        have : (v.leaderId.node == e.cfg.id) = false := by simpa using hnd
        rw [this]; simp
      have hnl : e1.st.isLeader e1.cfg.id = false := by unfold RState.isLeader; rw [hng]; rfl
      unfold updateInternal at he2
      rw [if_neg (by rw [hnl]; simp), if_neg (by rw [hng]; simp)] at he2
      obtain ⟨srv, he2'⟩ := becomeFollowing_ok he2
      have hlv : e'.st.lv = e.st.lv := by rw [he2']; exact hf.lv
      refine ⟨⟨by rw [he2'], by rw [he2'], by rw [he2']; show e1.st.vote.data.committed = true; rw [hd]; exact hcm,
        by rw [he2']; show e1.st.vote.data.leaderId.node ≠ e1.cfg.id; rw [hd, hf.cfg]; exact hnd,
        ⟨a, by rw [he2']; show e1.st.io.prog.accepted = _; rw [hio1]; exact ha1, ?_⟩⟩, ?_, ?_, ?_, ?_, ?_, ?_, ?_, ?_⟩
      · rw [he2']; show a.vote = e1.st.vote.data; rw [hd, ha2, heq]
      · rw [he2']; exact hd
      · rw [he2']; exact hf.cfg
      · rw [hlv]
      · exact congrArg LogV.committed hlv
      · rw [he2']; exact hf.ms
      · rw [if_pos heq]; unfold RState.accLast; rw [he2']; show (e1.st.io.prog.accepted.bind _) = _; rw [hio1]
      · rw [hlv, ← heq]; rfl
      · rw [he2']
        unfold storeVote at he1
        rw [if_neg hlt] at he1
        simp only [bind_ok, pure_ok] at he1
        obtain ⟨_, _, he1⟩ := he1
        rw [← he1]
  · next hn =>
    rw [pure_ok] at hr
    cases hr
    exact ⟨h, by simp [hn], by simp, by simp⟩

/-! ## Elections -/

theorem inv_elect {g0 : Gh} {dbg : Bool} {now : Nat} {e e' : Eng} {a : IOId} (h : LM g0 e)
    (ha : e.st.io.prog.accepted = some a) (hav : a.vote ≤ e.st.vote.data) (hl : e.leader = none)
    (hr : elect dbg now e = .ok e') : EInv g0 e' := by
  unfold elect at hr
  simp only [bind_ok] at hr
  obtain ⟨⟨ok, e2⟩, he2, _, _, hr⟩ := hr
  rw [pure_ok] at hr
  have hlt := vote_lt_new (v := e.st.vote.data) e.cfg.id
  generalize hV : Vote.new (e.st.vote.data.leaderId.term + 1) e.cfg.id = v at *
  have hvc : v.committed = false := by rw [← hV]; rfl
  have hvn : v.leaderId.node = e.cfg.id := by rw [← hV]; rfl
  unfold updateVote at he2
  rw [if_pos (show e.st.vote.data ≤ v from le_of_lt hlt)] at he2
  simp only [bind_ok, pure_ok] at he2
  obtain ⟨e3, he3, e4, he4, he2⟩ := he2
  cases he2
  have hlm1 : LM g0 { e with candidate := some (Candidate.new now v e.st.lastLogId e.st.ms.effective.mem) } :=
    h.state rfl h.log h.mem
  obtain ⟨hlm, io, he3', hio⟩ := storeVote_gt hlm1 ha hav hlt he3
  have hd : e3.st.vote.data = v := by rw [he3']; rfl
  have hnl : e3.st.isLeader e3.cfg.id = false := by
    unfold RState.isLeader; rw [hd, hvc]; simp
  have hgv : (g0.runs e3.out).vote = v := by
    rw [he3']; show (g0.runs (e.out ++ [.saveVote v])).vote = v; rw [Gh.runs_snoc]; rfl
  have hacc : ∃ a, e3.st.io.prog.accepted = some a ∧ a.vote = e3.st.vote.data ∧ KnownO e3.st.lv a.last :=
    ⟨IOId.new v, by rw [he3']; exact hio, by rw [hd]; rfl, KnownO.none⟩
  have hmain : EInv g0 e2 ∧ e2.leader = none := by
    unfold updateInternal at he4
    rw [if_neg (by rw [hnl]; simp)] at he4
    split at he4
    · rw [pure_ok] at he4
      subst he4
      have hl3 : e3.leader = none := by rw [he3']; exact hl
      refine ⟨⟨hlm, by rw [hgv, hd], hacc, fun l h1 => (by rw [hl3] at h1; cases h1), ?_, fun _ => hnl⟩, hl3⟩
      intro c hc
      have hc' : c = Candidate.new now v e.st.lastLogId e.st.ms.effective.mem := by
        rw [he3'] at hc; exact (Option.some.inj hc).symm
      subst hc'
      refine ⟨by rw [hd]; rfl, by rw [hd]; exact hvc, by rw [hd, hvn, he3'], by rw [he3']; rfl, hl3⟩
    · obtain ⟨srv, he4'⟩ := becomeFollowing_ok he4
      refine ⟨?_, by rw [he4']⟩
      rw [he4']
      exact inv_norole (hlm.state rfl hlm.log hlm.mem) rfl rfl (by rw [hd]; exact hgv) hacc hnl
  subst hr
  have f1 := Frame.push e2 (c := .sendVote v e.st.lastLogId) rfl
  exact (f1.trans (frame_updateServer hmain.2)).inv hmain.1

theorem newLeader_ok {dbg : Bool} {now : Nat} {v : Vote} {m : Membership} {ids : List LogId} {l : Leader}
    (hr : Leader.new dbg now v m ids = .ok l) :
    l.vote = v.toCommitted ∧ l.lastLogId = ids.getLast? ∧
      l.progress.vp = VecProgress.new m.configs m.learnerIds none := by
  unfold Leader.new at hr
  simp only [bind_ok, pure_ok] at hr
  obtain ⟨_, _, _, _, hr⟩ := hr
  rw [← hr]
  exact ⟨rfl, rfl, rfl⟩

/-- establishing a leader: the node leads already when it writes the first entry of its term -/
theorem mid_establishLeader {g0 : Gh} {dbg : Bool} {now : Nat} {e e' : Eng} (h : EInv g0 e)
    (hr : establishLeader dbg now e = .ok e') :
    ∃ l3 e3, EInv g0 e3 ∧ e3.leader = some l3 ∧
      (∃ tg, e3.out = e.out ++ [.rebuild tg, .saveVote ⟨e.st.vote.data.leaderId, true⟩]) ∧ e3.cfg = e.cfg ∧ e3.st.ms = e.st.ms ∧
      e3.st.vote.data = ⟨e.st.vote.data.leaderId, true⟩ ∧
      (∃ m : Membership, l3.progress.vp = VecProgress.new m.configs m.learnerIds none) ∧ lhAppend dbg e3 l3 [.blank] = .ok e' := by
  unfold establishLeader at hr
  simp only [bind_ok, unwrap_ok] at hr
  obtain ⟨c, hc, r, hest, hr⟩ := hr
  have hk := h.pj.cand c hc
  have hnl0 := h.pj.nolead hk.nl
  split at hr
  · exfalso
    unfold establish at hest
    rw [bind_ok] at hest
    obtain ⟨_, _, hest⟩ := hest
    simp only [hk.nl] at hest
    rw [if_neg (by simp), bind_ok] at hest
    obtain ⟨l', hl', hest⟩ := hest
    rw [pure_ok] at hest
    cases hest
  · next l =>
    -- the new leader
    have hl : l.vote = c.vote.toCommitted ∧ l.lastLogId = c.lastLogId ∧
        ∃ m : Membership, l.progress.vp = VecProgress.new m.configs m.learnerIds none := by
      unfold establish at hest
      rw [bind_ok] at hest
      obtain ⟨_, _, hest⟩ := hest
      simp only [hk.nl] at hest
      rw [if_neg (by simp), bind_ok] at hest
      obtain ⟨l', hl', hest⟩ := hest
      rw [pure_ok] at hest
      cases hest
      unfold Candidate.intoLeader at hl'
      rw [bind_ok] at hl'
      obtain ⟨_, _, hl'⟩ := hl'
      obtain ⟨h1, h2, h3⟩ := newLeader_ok hl'
      refine ⟨by rw [h1]; rfl, ?_, _, h3⟩
      rw [h2]; cases c.lastLogId <;> rfl
    obtain ⟨hlv, hll, mm, hlp⟩ := hl
    simp only [bind_ok, unwrap_ok] at hr
    obtain ⟨⟨ok, e2⟩, he2, _, _, st, hst, r3, hr3, l3, hl3, hr⟩ := hr
    have hr3 := leaderHandler_ok hr3
    subst hr3
    have hvd : l.vote = ⟨e.st.vote.data.leaderId, true⟩ := by rw [hlv, hk.vote]; rfl
    have hlt : e.st.vote.data < l.vote := by
      rw [Vote.lt_def, hvd]
      right
      exact ⟨rfl, hk.com, rfl⟩
    unfold updateVote at he2
    have hle0 : (rhRebuildStreams { e with candidate := none, leader := some l } l).st.vote.data ≤ l.vote := le_of_lt hlt
    replace he2 := (if_pos hle0).symm.trans he2
    simp only [bind_ok, pure_ok] at he2
    obtain ⟨e3, he3, e4, he4, he2⟩ := he2
    cases he2
    obtain ⟨a, ha1, ha2, ha3⟩ := h.pj.acc
    have hlm1 : LM g0 (rhRebuildStreams { e with candidate := none, leader := some l } l) := by
      have h1 : LM g0 { e with candidate := none, leader := some l } := h.lm.state rfl h.lm.log h.lm.mem
      exact (frame_rhRebuildStreams (e := { e with candidate := none, leader := some l }) (LSame.refl _)).lm h1
    obtain ⟨hlm, io, he3', hio⟩ := storeVote_gt hlm1 ha1 (le_of_eq ha2) hlt he3
    have hd : e3.st.vote.data = l.vote := by rw [he3']; rfl
    have hcfg : e3.cfg = e.cfg := by rw [he3']; rfl
    have hgv : (g0.runs e3.out).vote = l.vote := by
      rw [he3']
      show (g0.runs (_ ++ [.saveVote l.vote])).vote = _
      rw [Gh.runs_snoc]; rfl
    have hlast : e3.st.lastLogId = e.st.lastLogId := by rw [he3']; rfl
    obtain ⟨l1, hl1, hs1, hs2, hs3⟩ : ∃ l1, e3.leader = some l1 ∧ l1.vote = l.vote ∧ l1.lastLogId = l.lastLogId ∧
        l1.progress.vp = l.progress.vp := by
      rw [he3']; exact ⟨_, rfl, rfl, rfl, rfl⟩
    have hc3 : e3.candidate = none := by rw [he3']; rfl
    -- the role after the vote
    unfold updateInternal at he4
    by_cases hil : e3.st.isLeader e3.cfg.id = true
    · rw [if_pos hil] at he4
      unfold becomeLeader at he4
      rw [hl1] at he4
      simp only at he4
      rw [if_pos (by rw [hs1, hd]), pure_ok] at he4
      have hsrv : e2.st.server = .leader := by
        rw [← he4]
        show RState.calcServerState _ _ = _
        unfold RState.calcServerState
        rw [if_pos hil]
      have hlc : l.vote.committed = true := by rw [hvd]
      have hst2 : e2.st.io.prog.accepted = some (IOId.new l.vote) := by
        rw [← he4, he3']; exact hio
      obtain ⟨⟨io2, hio2⟩, hacc, a', ha', hav'⟩ := acceptIo_same hst2 rfl hlc hst
      subst hio2
      have hlv2 : e2.st.lv = e3.st.lv := by rw [← he4]; rfl
      have hlm2 : LM g0 e2 := by
        rw [← he4]; exact hlm.state rfl hlm.log hlm.mem
      have hl2 : e2.leader = some { l1 with vote := e3.st.vote.data.toCommitted } := by rw [← he4]; rfl
      have hlm3 := lm_setIo hlm2 io2
      have hinv : EInv g0 { e2 with st := { e2.st with io := io2 } } := by
        refine ⟨hlm3, ?_, ?_, ?_, ?_, ?_⟩
        · show (g0.runs e2.out).vote = e2.st.vote.data
          rw [← he4]; show (g0.runs e3.out).vote = e3.st.vote.data; rw [hgv, hd]
        · refine ⟨a', ha', ?_, ?_⟩
          · rw [hav']
            show _ = e2.st.vote.data
            rw [← he4]; exact hd.symm
          · have hal : a'.last = l.lastLogId := by
              have h1 : ({ e2.st with io := io2 } : RState).accLast = a'.last := by
                unfold RState.accLast
                rw [show ({ e2.st with io := io2 } : RState).io.prog.accepted = some a' from ha']; rfl
              rw [← h1, hacc]
              show max none l.lastLogId = _
              rw [omax_eq, if_pos (OptOrd.none_le' _)]
            rw [hal]
            intro x hx
            left
            show x ∈ e2.st.lv.L
            rw [hlv2]
            have hx' : e3.st.lastLogId = some x := by rw [hlast, ← hk.last, ← hll]; exact hx
            exact hlm.log.last_mem hx'
        · intro l4 hl4
          have hl4' : l4 = { l1 with vote := e3.st.vote.data.toCommitted } := by
            have : e2.leader = some l4 := hl4
            rw [hl2] at this; exact (Option.some.inj this).symm
          subst hl4'
          have hd2 : e2.st.vote.data = l.vote := by rw [← he4]; exact hd
          refine ⟨?_, ?_, ?_, ?_, ?_, hsrv⟩
          · show e3.st.vote.data.toCommitted = e2.st.vote.data
            rw [hd2, hd, toCommitted_eq hlc]
          · show e2.st.vote.data.committed = true
            rw [hd2]; exact hlc
          · show e2.st.vote.data.leaderId.node = e2.cfg.id
            have : e2.cfg = e.cfg := by rw [← he4]; exact hcfg
            rw [hd2, hvd, this]; exact hk.node
          · show l1.lastLogId = e2.st.lastLogId
            have : e2.st.lastLogId = e3.st.lastLogId := congrArg LogV.last hlv2
            rw [this, hlast, hs2, hll, hk.last]
          · show l1.progress.vp.All _
            rw [hs3, hlp]
            exact VecProgress.All.new _ _ KnownO.none
        · intro c4 hc4
          have : e2.candidate = none := by rw [← he4]; exact hc3
          have hc4' : e2.candidate = some c4 := hc4
          rw [this] at hc4'; cases hc4'
        · intro hn
          have hn' : e2.leader = none := hn
          rw [hl2] at hn'; cases hn'
      have hl3' : l3 = { l1 with vote := e3.st.vote.data.toCommitted } := by
        have : e2.leader = some l3 := hl3
        rw [hl2] at this; exact (Option.some.inj this).symm
      refine ⟨l3, _, hinv, hl3, ?_, ?_, ?_, ?_, ⟨mm, ?_⟩, hr⟩
      · have ho : e2.out = (rhRebuildStreams { e with candidate := none, leader := some l } l).out ++ [.saveVote l.vote] := by
          rw [← he4]
          show e3.out = _
          rw [he3']
        obtain ⟨tg, htg⟩ : ∃ tg, (rhRebuildStreams { e with candidate := none, leader := some l } l).out = e.out ++ [.rebuild tg] := ⟨_, rfl⟩
        refine ⟨tg, ?_⟩
        show e2.out = _
        rw [ho, htg, hvd, List.append_assoc]; rfl
      · show e2.cfg = _
        rw [← he4]; exact hcfg
      · show e2.st.ms = _
        rw [← he4, he3']; rfl
      · show e2.st.vote.data = _
        rw [← he4]; exact hd.trans hvd
      · rw [hl3', ← hlp]; exact hs3
    · -- not a member: the leader is gone and `leader_handler().unwrap()` aborts
      exfalso
      rw [if_neg hil] at he4
      have hnlead : e3.st.isLeading e3.cfg.id = false := by
        have h1 : e3.st.isLeader e3.cfg.id = false := by simpa using hil
        unfold RState.isLeader at h1
        have h2 : e3.st.vote.data.committed = true := by rw [hd, hvd]
        rw [h2] at h1; simpa using h1
      rw [if_neg (by rw [hnlead]; simp)] at he4
      obtain ⟨srv, he4'⟩ := becomeFollowing_ok he4
      have : e2.leader = some l3 := hl3
      rw [he4'] at this; cases this

theorem inv_establishLeader {g0 : Gh} {dbg : Bool} {now : Nat} {e e' : Eng} (h : EInv g0 e)
    (hr : establishLeader dbg now e = .ok e') : EInv g0 e' := by
  obtain ⟨l3, e3, h3, hl3, -, -, -, -, -, hr⟩ := mid_establishLeader h hr
  exact (inv_lhAppend h3 hl3 hr).1

/-! ## Start-up -/

theorem byLastLeader_last (ks : LogIdList) : (LogIdList.byLastLeader ks).getLast? = ks.getLast? := by
  unfold LogIdList.byLastLeader
  simp only
  split
  · rfl
  · split
    · rw [List.getLast?_drop, if_neg (by omega)]
    · rw [List.getLast?_drop, if_neg (by omega)]

/-- the state that a node is started with: no role yet -/
structure StartOk (g0 : Gh) (e : Eng) : Prop where
  lm : LM g0 e
  gv : (g0.runs e.out).vote = e.st.vote.data
  acc : ∃ a, e.st.io.prog.accepted = some a ∧ a.vote = e.st.vote.data ∧ KnownO e.st.lv a.last
  leader : e.leader = none
  cand : e.candidate = none

/-- the state of a leader that resumes, before it writes or replicates anything -/
theorem mid_startup {g0 : Gh} {dbg : Bool} {now : Nat} {e e' : Eng} (h : StartOk g0 e) (hil : e.st.isLeader e.cfg.id = true)
    (hr : startup dbg now e = .ok e') :
    ∃ e1 e2 l l2, EInv g0 e1 ∧ e1.leader = some l ∧ Frame e1 e2 ∧ e2.leader = some l2 ∧ e1.out = e.out ++ [.updateIO none (IOId.newLog e.st.vote.data e.st.lastLogId)] ∧
      (∃ tg, e2.out = e1.out ++ [.rebuild tg]) ∧ e1.cfg = e.cfg ∧ e1.st.ms = e.st.ms ∧ e1.st.vote = e.st.vote ∧ e1.candidate = none ∧
      (∃ m : Membership, l.progress.vp = VecProgress.new m.configs m.learnerIds none) ∧
      (lhAppend dbg e2 l2 [.blank] = .ok e' ∨ rhInitiate dbg e2 l2 = .ok e') := by
  unfold startup at hr
  rw [if_pos hil] at hr
  unfold updateInternal at hr
  rw [if_pos hil] at hr
  unfold becomeLeader at hr
  rw [h.leader] at hr
  simp only at hr
  unfold becomeNewLeader at hr
  simp only [bind_ok, unwrap_ok] at hr
  obtain ⟨l, hl, st, hst, l2, hl2, hr⟩ := hr
  obtain ⟨hv, hlast, hvp⟩ := newLeader_ok hl
  rw [byLastLeader_last] at hlast
  have hcm : e.st.vote.data.committed = true := by
    unfold RState.isLeader at hil; simp at hil; exact hil.2
  have hnode : e.st.vote.data.leaderId.node = e.cfg.id := by
    unfold RState.isLeader RState.isLeading at hil; simp at hil; exact hil.1.2
  have hlvd : l.vote = e.st.vote.data := by rw [hv, toCommitted_eq hcm]
  obtain ⟨a, ha1, ha2, ha3⟩ := h.acc
  obtain ⟨⟨io, hio⟩, hacc, a', ha', hav'⟩ := acceptIo_same ha1 (by rw [ha2, hlvd]) (by rw [hlvd]; exact hcm) hst
  subst hio
  obtain ⟨e1, he1⟩ : ∃ e1, e1 = updateServerState (Eng.push { e with st := { e.st with io := io }, leader := some l }
    (.updateIO none (IOId.newLog l.vote l.lastLogId))) := ⟨_, rfl⟩
  have hout : e1.out = e.out ++ [.updateIO none (IOId.newLog l.vote l.lastLogId)] := by rw [he1]; rfl
  have hgr : g0.runs e1.out = g0.runs e.out := by rw [hout, Gh.runs_snoc]; rfl
  have hinv : EInv g0 e1 := by
    refine ⟨⟨?_, ?_, ?_⟩, ?_, ?_, ?_, ?_, ?_⟩
    · rw [hout, Gh.oks_snoc]; exact ⟨h.lm.oks, trivial⟩
    · rw [hgr, he1]; exact h.lm.log
    · rw [hgr, he1]; exact h.lm.mem
    · rw [hgr, he1]; exact h.gv
    · refine ⟨a', by rw [he1]; exact ha', by rw [hav', hlvd, he1]; rfl, ?_⟩
      have hal : a'.last = max a.last l.lastLogId := by
        rw [← hacc]; unfold RState.accLast
        rw [show ({ e.st with io := io } : RState).io.prog.accepted = some a' from ha']; rfl
      rw [hal]
      have hk0 : KnownO e.st.lv l.lastLogId := by
        intro x hx; rw [hlast] at hx; exact Or.inl (h.lm.log.last_mem hx)
      have : e1.st.lv = e.st.lv := by rw [he1]; rfl
      rw [this]
      exact KnownO.max ha3 hk0
    · intro l4 hl4
      have : l4 = l := by rw [he1] at hl4; exact (Option.some.inj hl4).symm
      subst this
      refine ⟨by rw [hlvd, he1]; rfl, by rw [he1]; exact hcm, by rw [he1]; exact hnode, by rw [hlast, he1]; rfl, ?_, ?_⟩
      · rw [hvp]; exact VecProgress.All.new _ _ KnownO.none
      · rw [he1]
        show RState.calcServerState _ _ = _
        unfold RState.calcServerState
        exact if_pos hil
    · intro c hc
      have : e1.candidate = e.candidate := by rw [he1]; rfl
      rw [this, h.cand] at hc; cases hc
    · intro hn; rw [he1] at hn; cases hn
  rw [← he1] at hr hl2
  have hf := frame_rhRebuildStreams (e := e1) (l := l) (by rw [he1]; exact LSame.refl _)
  refine ⟨e1, _, l, l2, hinv, by rw [he1]; rfl, hf, hl2, by rw [hout, hlvd, hlast]; rfl, ⟨_, rfl⟩, by rw [he1]; rfl, by rw [he1]; rfl, by rw [he1]; rfl,
    by rw [he1]; exact h.cand, ⟨_, hvp⟩, ?_⟩
  split at hr
  · exact Or.inl hr
  · exact Or.inr hr

theorem inv_startup {g0 : Gh} {dbg : Bool} {now : Nat} {e e' : Eng} (h : StartOk g0 e)
    (hr : startup dbg now e = .ok e') : EInv g0 e' := by
  by_cases hil : e.st.isLeader e.cfg.id = true
  · obtain ⟨e1, e2, l, l2, h1, _, hf, hl2, _, _, _, _, _, _, _, hr⟩ := mid_startup h hil hr
    have hinv2 := hf.inv h1
    rcases hr with hr | hr
    · exact (inv_lhAppend hinv2 hl2 hr).1
    · exact (frame_rhInitiate (by rw [hl2]; exact LSame.refl _) hr).inv hinv2
  · unfold startup at hr
    rw [if_neg hil, pure_ok] at hr
    subst hr
    exact inv_norole (h.lm.state rfl h.lm.log h.lm.mem) h.leader h.cand h.gv h.acc (by
      have : e.st.isLeader e.cfg.id = false := by simpa using hil
      exact this)

/-! ## Initialising a cluster -/

theorem inv_initCluster {g0 : Gh} {dbg : Bool} {now : Nat} {e e' : Eng} {m : Membership} {ok : Bool} (h : EInv g0 e)
    (hr : initCluster dbg now e m = .ok (ok, e')) : EInv g0 e' := by
  unfold initCluster at hr
  split at hr
  · rw [pure_ok] at hr; cases hr; exact h
  · next hni =>
    split at hr
    · rw [pure_ok] at hr; cases hr; exact h
    · simp only [bind_ok, pure_ok] at hr
      obtain ⟨v, hv, e2, he2, e3, he3, hr⟩ := hr
      cases hr
      have hv := followingHandler_ok hv
      have hlast : e.st.lastLogId = none := by
        unfold RState.isInitialized at hni
        cases hx : e.st.lastLogId with
        | none => rfl
        | some z => rw [hx] at hni; simp at hni
      have hvote : e.st.vote.data = ⟨⟨0, 0⟩, false⟩ := by
        unfold RState.isInitialized at hni
        by_contra hne
        simp [hne] at hni
      have hle : e.st.vote.data ≤ ⟨⟨0, 0⟩, true⟩ := by rw [hvote]; decide
      have hln : e.leader = none := by
        cases hx : e.leader with
        | none => rfl
        | some l => have := (h.pj.lead l hx).com; rw [hvote] at this; cases this
      obtain ⟨a, ha1, ha2, _⟩ := h.pj.acc
      have hlm1 : LM g0 { e with st := { e.st with vote := e.st.vote.update now 0 ⟨⟨0, 0⟩, true⟩ } } :=
        h.lm.state rfl (h.lm.log.memVote hle) (memJ_vote h.lm.mem _ rfl rfl)
      obtain ⟨d1, d2, d3, d4, d5, d6, d7, d8, d9, d10⟩ := lm_fhDoAppend hlm1 (by simp)
        (by intro x hx; simp at hx; subst hx; show 0 = nextIndex e.st.lastLogId; rw [hlast]; rfl)
        (by simp [Cons]) (by intro l x hl; exact absurd (hl.symm.trans hlast) (by simp))
        (by intro x hx; simp at hx; subst hx; exact le_refl _) (by rw [hv]; rfl) he2
      refine inv_elect d1 (a := a) (by rw [d6]; exact ha1) ?_ (by rw [d7]; exact hln) he3
      rw [ha2, d4]; exact hle

end Eng
end Openraft.Engine
