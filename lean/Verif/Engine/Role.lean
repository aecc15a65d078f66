import Verif.Engine.Elected
import Verif.Engine.Lease
import Verif.Engine.Clock
import Verif.Engine.Sync
import Verif.Engine.IoKeep

/-!
# The server state of the engine says what the node does

`RaftState::server_state` is a field of its own. It is recomputed by `update_server_state_if_changed`, in
some of the handlers and not in all of them. Here: after every input it is what the leader, the candidate
and the membership of the engine say.
-/

set_option autoImplicit false

namespace Openraft.Engine
open Openraft.Repl (Panic dassert Inflight)
open Openraft.Cluster (Payload)

/-- the state of a node that neither leads nor asks for votes -/
def Eng.voterState (e : Eng) : ServerState := if e.st.isVoter e.cfg.id then .follower else .learner

/-- on a node that does not lead, the server state says whether it asks for votes, and else whether it is a voter -/
def SrvOk (e : Eng) : Prop := e.leader = none → e.st.server = if e.candidate.isSome then .candidate else e.voterState

/-- the fields `SrvOk` reads stay -/
structure SrvSame (e e' : Eng) : Prop where
  leader : e'.leader = none → e.leader = none
  cand : e'.leader = none → e'.candidate = e.candidate
  server : e'.leader = none → e'.st.server = e.st.server
  mem : e'.leader = none → e'.st.ms.effective = e.st.ms.effective
  cfg : e'.cfg = e.cfg

theorem SrvSame.ok {e e' : Eng} (h : SrvSame e e') (k : SrvOk e) : SrvOk e' := by
  intro hl
  rw [h.server hl, k (h.leader hl), h.cand hl]
  unfold Eng.voterState RState.isVoter
  rw [h.mem hl, h.cfg]

theorem SrvOk.leads {e : Eng} (h : ∃ l, e.leader = some l) : SrvOk e := by
  intro hl; obtain ⟨l, h⟩ := h; rw [hl] at h; cases h

/-- a node that follows another one and whose server state is right -/
structure Sits (e : Eng) : Prop where
  leader : e.leader = none
  cand : e.candidate = none
  node : e.st.vote.data.leaderId.node ≠ e.cfg.id
  srv : e.st.server = e.voterState

theorem Sits.ok {e : Eng} (h : Sits e) : SrvOk e := by
  intro _; rw [h.srv, h.cand]; rfl

/-- `Sits` for a result -/
def SitsR {α : Type} (π : α → Eng) (r : Res α) : Prop := ∀ a, r = .ok a → Sits (π a)

namespace SitsR
variable {α β : Type} {π : α → Eng}

theorem pure {a : α} (h : Sits (π a)) : SitsR π (Pure.pure a) := by
  intro b hb; rw [pure_ok] at hb; subst hb; exact h

theorem bind {x : Res β} {f : β → Res α} (h : ∀ b, x = .ok b → SitsR π (f b)) : SitsR π (x >>= f) := by
  intro a ha; rw [bind_ok] at ha
  obtain ⟨b, hx, hb⟩ := ha; exact h b hx a hb

end SitsR

namespace Eng
variable {dbg : Bool} {now : Nat} {e e' : Eng}

/-- `calc_server_state` of a node that does not lead -/
theorem calc_sits (h : e.st.isLeading e.cfg.id = false) : e.st.calcServerState e.cfg.id = e.voterState := by
  unfold RState.calcServerState RState.isLeader
  rw [h]; simp only [Bool.false_and, Bool.false_eq_true, if_false]; rfl

theorem notLeading (h : e.st.vote.data.leaderId.node ≠ e.cfg.id) : e.st.isLeading e.cfg.id = false := by
  unfold RState.isLeading
  have : (e.st.vote.data.leaderId.node == e.cfg.id) = false := by simpa using h
  rw [this]; simp

/-- recomputing the server state -/
theorem sits_update (hl : e.leader = none) (hc : e.candidate = none) (hn : e.st.vote.data.leaderId.node ≠ e.cfg.id) : Sits e.updateServerState :=
  ⟨hl, hc, hn, calc_sits (notLeading hn)⟩

/-- a change that does not touch what `Sits` reads -/
theorem sits_same (h : Sits e) (hl : e'.leader = e.leader := by rfl) (hc : e'.candidate = e.candidate := by rfl) (hv : e'.st.vote = e.st.vote := by rfl)
    (hg : e'.cfg = e.cfg := by rfl) (hs : e'.st.server = e.st.server := by rfl) (hm : e'.st.ms.effective = e.st.ms.effective := by rfl) : Sits e' := by
  refine ⟨hl.trans h.leader, hc.trans h.cand, by rw [hv, hg]; exact h.node, ?_⟩
  rw [hs, h.srv]; unfold voterState RState.isVoter; rw [hm, hg]

theorem sits_logPurge (h : Sits e) : Sits e.logPurge := by
  unfold logPurge
  split
  · exact h
  · split
    · exact h
    · exact sits_same h

theorem sits_maybeSnapshot (h : Sits e) : Sits e.maybeSnapshot := by
  unfold maybeSnapshot triggerSnapshot
  split
  · split
    · exact h
    · exact sits_same h
  · exact h

theorem truncate_keeps {m m' : MemState} {i : Nat} (h : RState.MemState.truncate dbg m i = .ok m') (hi : ¬ some i ≤ m.effective.logId.map (·.index)) :
    m'.effective = m.effective := by
  unfold RState.MemState.truncate at h
  rw [bind_ok] at h
  obtain ⟨_, _, h⟩ := h
  rw [if_neg hi, pure_ok] at h
  subst h; rfl

theorem sits_fhTruncate (h : Sits e) (i : Nat) : SitsR id (e.fhTruncate dbg i) := by
  unfold fhTruncate
  refine SitsR.bind fun _ _ => ?_
  split
  · exact SitsR.pure h
  · refine SitsR.bind fun ms hms => ?_
    dsimp only
    split
    · exact SitsR.pure (sits_update h.leader h.cand h.node)
    · next hi => exact SitsR.pure (sits_same h (hm := truncate_keeps hms hi))

theorem sits_fhAppendMembership (h : Sits e) (es : List Ent) : SitsR id (e.fhAppendMembership dbg es) := by
  unfold fhAppendMembership
  split
  · exact SitsR.pure h
  · exact SitsR.bind fun ms _ => SitsR.pure (sits_update h.leader h.cand h.node)

theorem sits_fhDoAppend (h : Sits e) (v : Vote) (es : List Ent) : SitsR id (e.fhDoAppend dbg v es) := by
  unfold fhDoAppend
  refine SitsR.bind fun _ _ => SitsR.bind fun _ _ => SitsR.bind fun _ _ => SitsR.bind fun e1 h1 => ?_
  exact SitsR.pure (sits_same (sits_fhAppendMembership (e := { e with st := { e.st with logIds := LogIdList.extend e.st.logIds (es.map (·.id)) } }) (sits_same h) es e1 h1))

theorem acceptIo_server {s s' : RState} {x : IOId} (h : s.acceptIo dbg x = .ok s') : s'.server = s.server := by
  obtain ⟨p, rfl⟩ := acceptIo_ok h
  rfl

theorem sits_accept {st : RState} {x : IOId} (h : Sits e) (hs : e.st.acceptIo dbg x = .ok st) : Sits { e with st := st } :=
  sits_same h (hv := acceptIo_vote hs) (hs := acceptIo_server hs) (hm := congrArg _ (acceptIo_ms hs).1)

theorem sits_fhAppendEntries (h : Sits e) (v : Vote) (prev : Option LogId) (es : List Ent) : SitsR id (e.fhAppendEntries dbg v prev es) := by
  unfold fhAppendEntries
  refine SitsR.bind fun _ _ => SitsR.bind fun st hst => SitsR.bind fun since _ => ?_
  have h1 := sits_accept h hst
  split
  · exact SitsR.bind fun e1 he1 => sits_fhDoAppend (sits_fhTruncate h1 _ e1 he1) _ _
  · split
    · exact SitsR.pure h1
    · exact SitsR.pure (sits_same h1)

theorem sits_fhEnsure (h : Sits e) (prev : Option LogId) : SitsR Prod.snd (e.fhEnsure dbg prev) := by
  unfold fhEnsure
  split
  · exact SitsR.pure h
  · refine SitsR.bind fun b _ => ?_
    split
    · exact SitsR.pure h
    · exact SitsR.bind fun e1 he1 => SitsR.pure (sits_fhTruncate h _ e1 he1)

theorem sits_fhCommit (h : Sits e) (lc : Option LogId) : SitsR id (e.fhCommit dbg lc) := by
  unfold fhCommit
  refine SitsR.bind fun p hp => ?_
  obtain ⟨ch, st⟩ := p
  have hv := updateCommitted_vote hp
  have hm : st.ms.effective = e.st.ms.effective ∧ st.server = e.st.server := by
    unfold RState.updateCommitted at hp
    split at hp
    · rw [bind_ok] at hp
      obtain ⟨m, h1, h2⟩ := hp
      rw [pure_ok] at h2; cases h2
      refine ⟨?_, rfl⟩
      unfold RState.MemState.commit at h1
      split at h1
      · rw [bind_ok] at h1
        obtain ⟨_, _, h1⟩ := h1
        rw [pure_ok] at h1; subst h1; rfl
      · rw [pure_ok] at h1; subst h1; rfl
    · rw [pure_ok] at hp; cases hp; exact ⟨rfl, rfl⟩
  dsimp only
  split
  · exact SitsR.bind fun x _ => SitsR.pure (sits_maybeSnapshot (sits_same h (hv := hv) (hs := hm.2) (hm := hm.1)))
  · exact SitsR.pure h

theorem sits_fhInstall (h : Sits e) (v : Vote) (m : SnapMeta) : SitsR Prod.snd (e.fhInstall dbg v m) := by
  unfold fhInstall
  split
  · exact SitsR.pure h
  · refine SitsR.bind fun last _ => ?_
    have h1 : Sits (e.updateSnapshot m).2 := by
      unfold updateSnapshot
      split
      · exact h
      · exact sits_same h
    split
    · next e1 hx => rw [hx] at h1; exact SitsR.pure h1
    · next e1 hx =>
      rw [hx] at h1
      refine SitsR.bind fun e2 he2 => SitsR.bind fun st hst => SitsR.bind fun ms hms => SitsR.pure ?_
      have h2 : Sits e2 := by
        unfold fhInstallTruncate at he2
        split at he2
        · split at he2
          · exact sits_fhTruncate h1 _ e2 he2
          · rw [pure_ok] at he2; subst he2; exact h1
        · rw [pure_ok] at he2; subst he2; exact h1
      have h3 := sits_accept h2 hst
      have h4 : Sits (updateServerState { e2 with st := { st with committed := some last, ms := ms } }) := sits_update h3.leader h3.cand h3.node
      exact sits_logPurge (sits_same h4)

/-! ## Votes and elections -/

theorem sits_becomeFollowing (hg : e.st.isLeading e.cfg.id = false) (hr : e.becomeFollowing dbg = .ok e') : SrvOk e' := by
  unfold becomeFollowing at hr
  rw [bind_ok] at hr
  obtain ⟨_, _, hr⟩ := hr
  rw [pure_ok] at hr
  subst hr
  intro _
  exact calc_sits (e := { e with leader := none, candidate := none }) hg

theorem leads_becomeNewLeader (hr : e.becomeNewLeader dbg now = .ok e') : ∃ l, e'.leader = some l := by
  unfold becomeNewLeader at hr
  simp only [bind_ok, unwrap_ok] at hr
  obtain ⟨l, _, st, _, l2, _, hr⟩ := hr
  split at hr
  · exact lhAppend_leads hr
  · unfold rhInitiate at hr
    rw [bind_ok] at hr
    obtain ⟨_, _, hr⟩ := hr
    rw [pure_ok] at hr; subst hr
    exact ⟨_, rfl⟩

theorem srv_updateInternal (h : SrvOk e) (hr : e.updateInternal dbg now = .ok e') : SrvOk e' := by
  unfold updateInternal at hr
  split at hr
  · refine SrvOk.leads ?_
    unfold becomeLeader at hr
    split at hr
    · split at hr
      · rw [pure_ok] at hr; subst hr; exact ⟨_, rfl⟩
      · exact leads_becomeNewLeader hr
    · exact leads_becomeNewLeader hr
  · split at hr
    · rw [pure_ok] at hr; subst hr; exact h
    · next hg => exact sits_becomeFollowing (by simpa using hg) hr

theorem srv_storeVote {lease : Nat} {v : Vote} (hr : e.storeVote dbg now lease v = .ok e') :
    e'.leader = e.leader ∧ e'.candidate = e.candidate ∧ e'.st.server = e.st.server ∧ e'.st.ms = e.st.ms ∧ e'.cfg = e.cfg ∧ e'.st.vote.data = if e.st.vote.data < v then v else e.st.vote.data := by
  unfold storeVote at hr
  split at hr
  · next hlt =>
    rw [bind_ok] at hr
    obtain ⟨st, h1, hr⟩ := hr
    rw [pure_ok] at hr; subst hr
    exact ⟨rfl, rfl, (acceptIo_server h1).trans rfl, (acceptIo_ms h1).1.trans rfl, rfl, by rw [if_pos hlt]; show st.vote.data = v; rw [acceptIo_vote h1]; rfl⟩
  · next hlt =>
    rw [bind_ok] at hr
    obtain ⟨vt, h1, hr⟩ := hr
    rw [pure_ok] at hr; subst hr
    refine ⟨rfl, rfl, rfl, rfl, rfl, ?_⟩
    rw [if_neg hlt]
    unfold Leased.touch at h1
    rw [bind_ok] at h1
    obtain ⟨_, _, h1⟩ := h1
    rw [pure_ok] at h1; subst h1; rfl

theorem srv_updateVote {v : Vote} {ok : Bool} (h : SrvOk e) (hr : e.updateVote dbg now v = .ok (ok, e')) : SrvOk e' := by
  unfold updateVote at hr
  split at hr
  · simp only [bind_ok, pure_ok] at hr
    obtain ⟨e1, h1, e2, h2, hr⟩ := hr
    cases hr
    obtain ⟨k1, k2, k3, k4, k5, _⟩ := srv_storeVote h1
    refine srv_updateInternal ?_ h2
    exact SrvSame.ok (e := e) ⟨fun hl => k1 ▸ hl, fun _ => k2, fun _ => k3, fun _ => congrArg _ k4, k5⟩ h
  · rw [pure_ok] at hr; cases hr; exact h

/-- a vote of another node -/
theorem sits_updateVote {v : Vote} (hn : v.leaderId.node ≠ e.cfg.id) (hr : e.updateVote dbg now v = .ok (true, e')) : Sits e' := by
  unfold updateVote at hr
  split at hr
  · next hle =>
    simp only [bind_ok, pure_ok] at hr
    obtain ⟨e1, h1, e2, h2, hr⟩ := hr
    cases hr
    obtain ⟨k1, k2, k3, k4, k5, k6⟩ := srv_storeVote h1
    have hd : e1.st.vote.data = v := by
      rw [k6]; split
      · rfl
      · next hlt => exact le_antisymm hle (not_lt.1 hlt)
    have hnd : e1.st.vote.data.leaderId.node ≠ e1.cfg.id := by rw [hd, k5]; exact hn
    have hg := notLeading hnd
    unfold updateInternal RState.isLeader at h2
    rw [hg] at h2
    simp only [Bool.false_and, Bool.false_eq_true, if_false] at h2
    unfold becomeFollowing at h2
    rw [bind_ok] at h2
    obtain ⟨_, _, h2⟩ := h2
    rw [pure_ok] at h2; subst h2
    exact sits_update rfl rfl hnd
  · rw [pure_ok] at hr; cases hr

/-- an election that starts on a node that does not lead -/
theorem srv_elect (hr : e.elect dbg now = .ok e') : e.leader = none → SrvOk e' := by
  intro hl
  unfold elect at hr
  simp only [bind_ok, unwrap_ok, pure_ok] at hr
  obtain ⟨⟨ok, e2⟩, h1, u, hu, hr⟩ := hr
  subst hr
  have hlt := vote_lt_new (v := e.st.vote.data) e.cfg.id
  generalize hV : Vote.new (e.st.vote.data.leaderId.term + 1) e.cfg.id = v at *
  have hvn : v.committed = false ∧ v.leaderId.node = e.cfg.id := by rw [← hV]; exact ⟨rfl, rfl⟩
  generalize hC : Candidate.new now v e.st.lastLogId e.st.ms.effective.mem = c at *
  unfold updateVote at h1
  rw [if_pos (show e.st.vote.data ≤ v from le_of_lt hlt)] at h1
  simp only [bind_ok, pure_ok] at h1
  obtain ⟨e3, h3, e4, h4, h1⟩ := h1
  cases h1
  obtain ⟨k1, k2, k3, k4, k5, k6⟩ := srv_storeVote h3
  have hd : e3.st.vote.data = v := by rw [k6]; exact if_pos hlt
  have hnl : e3.st.isLeader e3.cfg.id = false := by
    unfold RState.isLeader; rw [hd, hvn.1]; simp
  unfold updateInternal at h4
  rw [if_neg (by rw [hnl]; simp)] at h4
  intro _
  show e2.st.calcServerState e2.cfg.id = if e2.candidate.isSome then .candidate else e2.voterState
  split at h4
  · next hg =>
    rw [pure_ok] at h4; subst h4
    rw [k2]
    unfold RState.calcServerState
    rw [hnl, hg]
    rfl
  · next hg =>
    have hg : e3.st.isLeading e3.cfg.id = false := by simpa using hg
    unfold becomeFollowing at h4
    rw [bind_ok] at h4
    obtain ⟨_, _, h4⟩ := h4
    rw [pure_ok] at h4; subst h4
    exact calc_sits (e := updateServerState { e3 with leader := none, candidate := none }) hg

/-! ## The leader stays -/

theorem leads_logPurge : e.logPurge.leader = e.leader := (still_logPurge e).leader

theorem leads_rhTryPurge (l : Leader) : (e.rhTryPurge l).leader = e.leader := by
  unfold rhTryPurge
  split
  · rfl
  · split
    · rfl
    · split
      · rfl
      · exact leads_logPurge

theorem leads_rhInitiate {l : Leader} (hr : e.rhInitiate dbg l = .ok e') : ∃ l, e'.leader = some l := by
  unfold rhInitiate at hr
  rw [bind_ok] at hr
  obtain ⟨_, _, hr⟩ := hr
  rw [pure_ok] at hr; subst hr
  exact ⟨_, rfl⟩

theorem leads_rhTryCommit {g : Option LogId} (hr : e.rhTryCommit dbg g = .ok e') : e'.leader = e.leader := by
  unfold rhTryCommit at hr
  split at hr
  · rw [pure_ok] at hr; subst hr; rfl
  · split at hr
    · rw [bind_ok] at hr
      obtain ⟨⟨ch, st⟩, _, hr⟩ := hr
      dsimp only at hr
      split at hr
      · rw [pure_ok] at hr; subst hr
        rw [(still_maybeSnapshot _).leader]; rfl
      · rw [pure_ok] at hr; subst hr; rfl
    · rw [pure_ok] at hr; subst hr; rfl

theorem leads_rhUpdateMatching {l : Leader} {n : NodeId} {m : Option LogId} (hr : e.rhUpdateMatching dbg l n m = .ok e') : ∃ l, e'.leader = some l := by
  unfold rhUpdateMatching at hr
  simp only [bind_ok] at hr
  obtain ⟨_, _, _, _, en, _, vp, _, hr⟩ := hr
  exact ⟨_, leads_rhTryCommit hr⟩

theorem leads_rhUpdateProgress {l : Leader} {n : NodeId} {r : ReplResult} (hr : e.rhUpdateProgress dbg l n r = .ok e') : ∃ l, e'.leader = some l := by
  unfold rhUpdateProgress at hr
  dsimp only at hr
  split at hr <;>
  · simp only [bind_ok, unwrap_ok, pure_ok] at hr
    obtain ⟨e1, _, l1, h1, hr⟩ := hr
    subst hr
    exact ⟨l1, (leads_rhTryPurge l1).trans h1⟩

theorem leads_rhUpdateLocal {l : Leader} {u : Option LogId} (hl : ∃ l, e.leader = some l) (hr : e.rhUpdateLocal dbg l u = .ok e') : ∃ l, e'.leader = some l := by
  unfold rhUpdateLocal at hr
  split at hr
  · rw [pure_ok] at hr; subst hr; exact hl
  · split at hr
    · split at hr
      · rw [pure_ok] at hr; subst hr; exact hl
      · exact leads_rhUpdateMatching hr
    · rw [pure_ok] at hr; subst hr; exact hl

theorem srv_writeEntry {p : Payload} {r : Option Nat} (h : SrvOk e) (hr : e.writeEntry dbg p = .ok (r, e')) : SrvOk e' := by
  unfold writeEntry at hr
  rw [bind_ok] at hr
  obtain ⟨o, _, hr⟩ := hr
  cases o with
  | none => rw [pure_ok] at hr; cases hr; exact h
  | some l =>
    dsimp only at hr
    split at hr
    · rw [pure_ok] at hr; cases hr; exact h
    · simp only [bind_ok, pure_ok] at hr
      obtain ⟨e1, h1, _, _, hr⟩ := hr
      cases hr
      exact SrvOk.leads (lhAppend_leads h1)

theorem srv_coreHeartbeat (hr : e.coreHeartbeat dbg = .ok e') : SrvSame e e' := by
  unfold coreHeartbeat at hr
  rw [bind_ok] at hr
  obtain ⟨o, _, hr⟩ := hr
  split at hr
  · rw [pure_ok] at hr; subst hr; exact ⟨id, fun _ => rfl, fun _ => rfl, fun _ => rfl, rfl⟩
  · split at hr
    · rw [pure_ok] at hr; subst hr; exact ⟨id, fun _ => rfl, fun _ => rfl, fun _ => rfl, rfl⟩
    · rw [pure_ok] at hr; subst hr; exact ⟨id, fun _ => rfl, fun _ => rfl, fun _ => rfl, rfl⟩

theorem srv_tickHeartbeat {en : Bool} {iv : Nat} (h : SrvOk e) (hr : e.tickHeartbeat dbg now en iv = .ok e') : SrvOk e' := by
  unfold tickHeartbeat at hr
  split at hr
  · rw [pure_ok] at hr; subst hr; exact h
  · split at hr
    · have h0 : ∃ e1, SrvOk e1 ∧ e' = { e1 with leader := e1.leader.map fun l => { l with nextHeartbeat := now + iv } } := by
        dsimp only at hr
        split at hr
        · simp only [bind_ok, pure_ok] at hr
          obtain ⟨e1, h1, hr⟩ := hr
          exact ⟨e1, (srv_coreHeartbeat h1).ok h, hr.symm⟩
        · simp only [bind_ok, pure_ok] at hr
          obtain ⟨e1, h1, hr⟩ := hr
          subst h1
          exact ⟨e, h, hr.symm⟩
      obtain ⟨e1, h2, hr⟩ := h0
      subst hr
      exact SrvSame.ok (e := e1) ⟨fun hl => by simpa using hl, fun _ => rfl, fun _ => rfl, fun _ => rfl, rfl⟩ h2
    · rw [pure_ok] at hr; subst hr; exact h

theorem srv_tickElection {g0 : Gh} {en : Bool} (hI : EInv g0 e) (h : SrvOk e) (hr : e.tickElection dbg now en = .ok e') : SrvOk e' := by
  unfold tickElection at hr
  split at hr
  · rw [pure_ok] at hr; subst hr; exact h
  · next hsv =>
    split at hr
    · rw [pure_ok] at hr; subst hr; exact h
    · split at hr
      · rw [pure_ok] at hr; subst hr; exact h
      · have key : ∀ b : Bool, (if b then Eng.elect dbg now { e with seenGreater := false } else pure e) = .ok e' → SrvOk e' := by
          intro b hb
          split at hb
          · refine srv_elect hb ?_
            cases hl : e.leader with
            | none => rfl
            | some l => exact absurd (hI.pj.lead l hl).srv hsv
          · rw [pure_ok] at hb; subst hb; exact h
        exact key _ hr

theorem srv_coreTick {g0 : Gh} {el hb : Bool} {iv : Nat} (hI : EInv g0 e) (h : SrvOk e) (hr : e.coreTick dbg now el hb iv = .ok e') : SrvOk e' := by
  unfold coreTick at hr
  simp only [bind_ok] at hr
  obtain ⟨e1, h1, e2, h2, hr⟩ := hr
  have k := srv_tickHeartbeat (srv_tickElection hI h h1) h2
  split at hr
  · unfold leaderStepDown at hr
    split at hr
    · exact srv_updateInternal k hr
    · rw [pure_ok] at hr; subst hr; exact k
  · rw [pure_ok] at hr; subst hr; exact k

theorem srv_handleAppend {tx : Nat} {v : Vote} {prev : Option LogId} {es : List Ent} {lc : Option LogId} (h : SrvOk e)
    (hn : e.st.vote.data ≤ v → v.leaderId.node ≠ e.cfg.id) (hr : e.handleAppend dbg now tx v prev es lc = .ok e') : SrvOk e' := by
  unfold handleAppend at hr
  rw [bind_ok] at hr
  obtain ⟨⟨r, e1⟩, h1, hr⟩ := hr
  have h2 : SrvOk e1 ∧ (r = .success → Sits e1) := by
    unfold appendEntries at h1
    rw [bind_ok] at h1
    obtain ⟨⟨ok, e2⟩, hu, h1⟩ := h1
    cases ok with
    | false =>
      simp only [Bool.false_eq_true, if_false] at h1
      rw [pure_ok] at h1; cases h1
      exact ⟨srv_updateVote h hu, fun hx => by cases hx⟩
    | true =>
      simp only [if_true, bind_ok] at h1
      have hs := sits_updateVote (hn (updateVote_le hu)) hu
      obtain ⟨lv, _, ⟨ok2, e3⟩, h3, h1⟩ := h1
      have h4 := sits_fhEnsure hs prev _ h3
      cases ok2 with
      | false =>
        simp only [Bool.false_eq_true, if_false] at h1
        rw [pure_ok] at h1; cases h1
        exact ⟨Sits.ok h4, fun hx => by cases hx⟩
      | true =>
        simp only [if_true, bind_ok, pure_ok] at h1
        obtain ⟨e4, h5, h1⟩ := h1
        cases h1
        have h6 := sits_fhAppendEntries h4 _ _ _ _ h5
        exact ⟨Sits.ok h6, fun _ => h6⟩
  dsimp only at hr
  split at hr
  · next hx =>
    simp only [bind_ok] at hr
    obtain ⟨_, _, _, _, hr⟩ := hr
    exact Sits.ok (sits_fhCommit (sits_same (h2.2 hx)) lc _ hr)
  · rw [pure_ok] at hr; subst hr
    exact SrvSame.ok (e := e1) ⟨id, fun _ => rfl, fun _ => rfl, fun _ => rfl, rfl⟩ h2.1

theorem srv_handleInstall {tx : Nat} {v : Vote} {m : SnapMeta} (h : SrvOk e)
    (hn : e.st.vote.data ≤ v → v.leaderId.node ≠ e.cfg.id) (hr : e.handleInstall dbg now tx v m = .ok e') : SrvOk e' := by
  unfold handleInstall at hr
  rw [bind_ok] at hr
  obtain ⟨⟨ok, e1⟩, hu, hr⟩ := hr
  cases ok with
  | false =>
    simp only [Bool.false_eq_true, if_false] at hr
    rw [pure_ok] at hr; subst hr
    exact SrvSame.ok (e := e1) ⟨id, fun _ => rfl, fun _ => rfl, fun _ => rfl, rfl⟩ (srv_updateVote h hu)
  | true =>
    simp only [if_true, bind_ok, pure_ok] at hr
    have hs := sits_updateVote (hn (updateVote_le hu)) hu
    obtain ⟨lv, _, ⟨cond, e2⟩, h2, hr⟩ := hr
    subst hr
    exact Sits.ok (sits_same (sits_fhInstall hs _ _ _ h2))

theorem srv_handleVoteReq {v : Vote} {last : Option LogId} {r : Resp} (h : SrvOk e) (hr : e.handleVoteReq dbg now v last = .ok (r, e')) : SrvOk e' := by
  unfold handleVoteReq at hr
  split at hr
  · rw [pure_ok] at hr; cases hr; exact h
  · split at hr
    · simp only [bind_ok, pure_ok] at hr
      obtain ⟨⟨ok, e1⟩, h1, hr⟩ := hr
      cases hr
      exact srv_updateVote h h1
    · rw [pure_ok] at hr; cases hr; exact h

theorem srv_handleVoteResp {g0 : Gh} {t : NodeId} {v : Vote} {last : Option LogId} {gr : Bool} (hI : EInv g0 e) (h : SrvOk e)
    (hr : e.handleVoteResp dbg now t v last gr = .ok e') : SrvOk e' := by
  unfold handleVoteResp at hr
  cases hc : e.candidate with
  | none => rw [hc] at hr; rw [pure_ok] at hr; subst hr; exact h
  | some c =>
    rw [hc] at hr
    dsimp only at hr
    split at hr
    · rw [bind_ok] at hr
      obtain ⟨c1, h1, hr⟩ := hr
      split at hr
      · unfold grantBy at h1
        simp only [bind_ok, pure_ok] at h1
        obtain ⟨p, _, h1⟩ := h1
        subst h1
        exact SrvOk.leads (establishLeader_leads (inv_counted hI hc) rfl hr).1
      · rw [pure_ok] at hr; subst hr
        refine SrvSame.ok (e := { e with candidate := some c1 }) ⟨id, fun _ => rfl, fun _ => rfl, fun _ => rfl, rfl⟩ ?_
        intro hl
        have := h hl
        rw [hc] at this
        exact this
    · rw [bind_ok] at hr
      obtain ⟨⟨ok, e2⟩, h1, hr⟩ := hr
      rw [pure_ok] at hr; subst hr
      refine srv_updateVote ?_ h1
      split
      · exact SrvSame.ok (e := e) ⟨id, fun _ => hc.symm, fun _ => rfl, fun _ => rfl, rfl⟩ h
      · exact h

theorem srv_initCluster {g0 : Gh} {m : Membership} {ok : Bool} (hI : EInv g0 e) (h : SrvOk e) (hr : e.initCluster dbg now m = .ok (ok, e')) : SrvOk e' := by
  unfold initCluster at hr
  split at hr
  · rw [pure_ok] at hr; cases hr; exact h
  · next hni =>
    split at hr
    · rw [pure_ok] at hr; cases hr; exact h
    · have hl : e.leader = none := by
        cases hx : e.leader with
        | none => rfl
        | some l =>
          have h1 := (hI.pj.lead l hx).com
          unfold RState.isInitialized at hni
          have h2 : e.st.vote.data = ⟨⟨0, 0⟩, false⟩ := by
            by_contra hne
            simp [hne] at hni
          rw [h2] at h1; cases h1
      simp only [bind_ok, pure_ok] at hr
      obtain ⟨v, _, e2, h2, e3, h3, hr⟩ := hr
      cases hr
      exact srv_elect h3 ((still_fhDoAppend _ _ _ e2 h2).leader.trans hl)

/-! ## Every input -/

theorem srv_still (h : SrvOk e) (hl : e'.leader = e.leader) (hc : e'.candidate = e.candidate) (hg : e'.cfg = e.cfg) (hs : e'.st.server = e.st.server)
    (hm : e'.st.ms.effective = e.st.ms.effective) : SrvOk e' :=
  SrvSame.ok (e := e) ⟨fun h => hl ▸ h, fun _ => hc, fun _ => hs, fun _ => hm, hg⟩ h

theorem srv_same_logPurge : e.logPurge.st.server = e.st.server ∧ e.logPurge.st.ms = e.st.ms := by
  unfold logPurge
  split
  · exact ⟨rfl, rfl⟩
  · split
    · exact ⟨rfl, rfl⟩
    · exact ⟨rfl, rfl⟩

theorem srv_same_tryPurge : e.tryPurge.st.server = e.st.server ∧ e.tryPurge.st.ms = e.st.ms := by
  unfold tryPurge
  split
  · unfold rhTryPurge
    split
    · exact ⟨rfl, rfl⟩
    · split
      · exact ⟨rfl, rfl⟩
      · split
        · exact ⟨rfl, rfl⟩
        · exact srv_same_logPurge
  · exact srv_same_logPurge

theorem srv_finishBuilding {m : SnapMeta} (h : SrvOk e) (hr : e.finishBuilding dbg m = .ok e') : SrvOk e' := by
  have hst := still_finishBuilding e m e' hr
  refine srv_still h hst.leader hst.candidate hst.cfg ?_ ?_ <;>
  · unfold finishBuilding updateSnapshot at hr
    dsimp only at hr
    split at hr
    · next hx =>
      rw [pure_ok] at hr; subst hr
      split at hx
      · cases hx; rfl
      · cases hx
    · next hx =>
      split at hx
      · cases hx
      · cases hx
        simp only [bind_ok, pure_ok] at hr
        obtain ⟨e2, h2, hr⟩ := hr
        subst hr
        unfold schedulePurge at h2
        rw [bind_ok] at h2
        obtain ⟨o, _, h2⟩ := h2
        first
          | rw [srv_same_tryPurge.1]
          | rw [srv_same_tryPurge.2]
        split at h2
        · unfold updatePurgeUpto at h2
          rw [bind_ok] at h2
          obtain ⟨_, _, h2⟩ := h2
          rw [pure_ok] at h2; subst h2; rfl
        · rw [pure_ok] at h2; subst h2; rfl

theorem srv_triggerPurge {i : Nat} (h : SrvOk e) (hr : e.triggerPurge dbg i = .ok e') : SrvOk e' := by
  have hst := still_triggerPurge e i e' hr
  have hk : e'.st.server = e.st.server ∧ e'.st.ms = e.st.ms := by
    unfold triggerPurge at hr
    split at hr
    · rw [pure_ok] at hr; subst hr; exact ⟨rfl, rfl⟩
    · split at hr
      · rw [pure_ok] at hr; subst hr; exact ⟨rfl, rfl⟩
      · simp only [bind_ok, pure_ok] at hr
        obtain ⟨x, _, e1, h1, hr⟩ := hr
        subst hr
        unfold updatePurgeUpto at h1
        rw [bind_ok] at h1
        obtain ⟨_, _, h1⟩ := h1
        rw [pure_ok] at h1; subst h1
        exact ⟨srv_same_tryPurge.1.trans rfl, srv_same_tryPurge.2.trans rfl⟩
  exact srv_still h hst.leader hst.candidate hst.cfg hk.1 (congrArg _ hk.2)

/-- the server state is right after every input -/
theorem srv_input {g0 : Gh} {i : Input} (hI : EInv g0 e) (h : SrvOk e) (ho : InputOk e i) (hr : e.input dbg now i = .ok e') : SrvOk e' := by
  cases i with
  | appendReq tx v prev es lc => exact srv_handleAppend h (fun hle => (ho hle).1) hr
  | voteReq tx v last =>
    simp only [input, coreVoteReq, bind_ok, pure_ok] at hr
    obtain ⟨⟨r, e1⟩, h1, hr⟩ := hr
    subst hr
    exact srv_still (srv_handleVoteReq h h1) rfl rfl rfl rfl rfl
  | snapReq tx v m => exact srv_handleInstall h (fun hle => (ho hle).1) hr
  | init tx m =>
    simp only [input, coreInit, bind_ok, pure_ok] at hr
    obtain ⟨⟨ok, e1⟩, h1, hr⟩ := hr
    subst hr
    exact srv_still (srv_initCluster hI h h1) rfl rfl rfl rfl rfl
  | write p =>
    simp only [input, bind_ok, pure_ok] at hr
    obtain ⟨⟨ok, e1⟩, h1, hr⟩ := hr
    subst hr
    exact srv_writeEntry h h1
  | change c r =>
    simp only [input, bind_ok, pure_ok] at hr
    obtain ⟨⟨ok, e1⟩, h1, hr⟩ := hr
    subst hr
    unfold changeMembership at h1
    split at h1
    · rw [pure_ok] at h1; cases h1; exact h
    · exact srv_writeEntry h h1
  | handleTransfer v t =>
    simp only [input, coreHandleTransfer] at hr
    split at hr
    · next hv =>
      split at hr
      · next ht => exact srv_elect hr (ho hv ht)
      · rw [pure_ok] at hr; subst hr; exact srv_still h rfl rfl rfl rfl rfl
    · rw [pure_ok] at hr; subst hr; exact h
  | electCmd =>
    simp only [input, coreElect] at hr
    split at hr
    · exact srv_elect hr ho
    · rw [pure_ok] at hr; subst hr; exact h
  | heartbeatCmd => exact (srv_coreHeartbeat hr).ok h
  | snapshotCmd =>
    simp only [input, pure_ok] at hr
    subst hr
    unfold triggerSnapshot
    split
    · exact h
    · exact srv_still h rfl rfl rfl rfl rfl
  | purgeCmd i => exact srv_triggerPurge h hr
  | transferCmd t =>
    simp only [input, triggerTransfer, bind_ok] at hr
    obtain ⟨o, _, hr⟩ := hr
    split at hr
    · rw [pure_ok] at hr; subst hr; exact h
    · rw [pure_ok] at hr; subst hr; exact SrvOk.leads ⟨_, rfl⟩
  | voteResp t v last gr s =>
    simp only [input] at hr
    split at hr
    · exact srv_handleVoteResp hI h hr
    · rw [pure_ok] at hr; subst hr; exact h
  | higherVote v s =>
    simp only [input] at hr
    split at hr
    · simp only [bind_ok, pure_ok] at hr
      obtain ⟨⟨ok, e1⟩, h1, hr⟩ := hr
      subst hr
      exact srv_updateVote h h1
    · rw [pure_ok] at hr; subst hr; exact h
  | tick el hb iv => exact srv_coreTick hI h hr
  | localIO io =>
    simp only [input, coreLocalIO, bind_ok] at hr
    obtain ⟨p, _, hr⟩ := hr
    have h1 : SrvOk (e.withProg p) := srv_still h rfl rfl rfl rfl rfl
    split at hr
    · split at hr
      · next l hl =>
        split at hr
        · exact SrvOk.leads (leads_rhUpdateLocal ⟨l, hl⟩ hr)
        · rw [pure_ok] at hr; subst hr; exact h1
      · rw [pure_ok] at hr; subst hr; exact h1
    · rw [pure_ok] at hr; subst hr; exact h1
  | replProgress s t r =>
    simp only [input, coreReplProgress] at hr
    split at hr
    · rw [bind_ok] at hr
      obtain ⟨l, _, hr⟩ := hr
      exact SrvOk.leads (leads_rhUpdateProgress hr)
    · rw [pure_ok] at hr; subst hr; exact h
  | hbProgress s t x =>
    simp only [input, coreHbProgress] at hr
    split at hr
    · simp only [rhUpdateClock, bind_ok, pure_ok] at hr
      obtain ⟨l, _, c, _, hr⟩ := hr
      subst hr
      exact SrvOk.leads ⟨_, rfl⟩
    · rw [pure_ok] at hr; subst hr; exact h
  | built m =>
    simp only [input, coreBuilt, bind_ok, pure_ok] at hr
    obtain ⟨e1, h1, io, _, hr⟩ := hr
    subst hr
    exact srv_still (srv_finishBuilding h h1) rfl rfl rfl rfl rfl
  | installed io m =>
    simp only [input, coreInstalled, bind_ok, pure_ok] at hr
    obtain ⟨p, _, s1, _, s2, _, hr⟩ := hr
    subst hr
    exact srv_still h rfl rfl rfl rfl rfl
  | applied l =>
    simp only [input, coreApplied, bind_ok, pure_ok] at hr
    obtain ⟨s1, _, hr⟩ := hr
    subst hr
    exact srv_still h rfl rfl rfl rfl rfl
  | initiate =>
    simp only [input, coreInitiate, bind_ok] at hr
    obtain ⟨o, _, hr⟩ := hr
    split at hr
    · rw [pure_ok] at hr; subst hr; exact h
    · exact SrvOk.leads (leads_rhInitiate hr)

theorem srv_startup {g0 : Gh} (h : StartOk g0 e) (hr : e.startup dbg now = .ok e') : SrvOk e' := by
  unfold startup at hr
  split at hr
  · next hil =>
    refine SrvOk.leads ?_
    unfold updateInternal at hr
    rw [if_pos hil] at hr
    unfold becomeLeader at hr
    rw [h.leader] at hr
    exact leads_becomeNewLeader hr
  · rw [pure_ok] at hr; subst hr
    intro _
    show (if e.st.ms.effective.mem.isVoter e.cfg.id then ServerState.follower else .learner) = if e.candidate.isSome then .candidate else _
    rw [h.cand]; rfl

end Eng
end Openraft.Engine
