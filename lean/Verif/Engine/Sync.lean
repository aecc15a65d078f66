import Verif.Engine.Clock
import Verif.Engine.Lease
import Verif.Engine.InvStep
import Verif.Pure.Track

/-!
# The leader counts with the configs of its effective membership

The clock and the progress of a leader have the configs of the membership that is in effect on the node, and a candidate the
membership itself.
-/

set_option autoImplicit false

namespace Openraft.Engine
open Openraft.Repl (Panic dassert Inflight)
open Openraft.Cluster (Payload)

/-- the leader counts with the configs of `m` -/
def On (m : Membership) (l : Leader) : Prop := l.progress.vp.configs = m.configs ∧ l.clock.configs = m.configs

/-- leader and candidate count with the effective membership -/
structure Sy (e : Eng) : Prop where
  lead : ∀ l, e.leader = some l → On e.st.ms.effective.mem l
  cand : ∀ c, e.candidate = some c → c.mem = e.st.ms.effective.mem

theorem Sy.free {e : Eng} (h1 : e.leader = none) (h2 : e.candidate = none) : Sy e :=
  ⟨fun l hl => (by rw [h1] at hl; cases hl), fun c hc => (by rw [h2] at hc; cases hc)⟩

theorem Sy.same {e e1 : Eng} (h : Sy e) (h1 : e1.st.ms.effective = e.st.ms.effective := by rfl)
    (h2 : e1.candidate = e.candidate := by rfl) (h3 : e1.leader = e.leader := by rfl) : Sy e1 :=
  ⟨by rw [h1, h3]; exact h.lead, by rw [h1, h2]; exact h.cand⟩

theorem Sy.set {e e1 : Eng} {l : Leader} (h : Sy e) (h3 : e1.leader = some l) (hl : On e.st.ms.effective.mem l)
    (h1 : e1.st.ms.effective = e.st.ms.effective := by rfl) (h2 : e1.candidate = e.candidate := by rfl) : Sy e1 := by
  refine ⟨?_, by rw [h1, h2]; exact h.cand⟩
  intro x hx
  rw [hx] at h3
  rw [Option.some.inj h3, h1]; exact hl

/-- `Sy` for a result -/
def SR {α : Type} (π : α → Eng) (r : Res α) : Prop := ∀ a, r = .ok a → Sy (π a)

namespace SR
variable {α β : Type} {π : α → Eng}

theorem pure {a : α} (h : Sy (π a)) : SR π (Pure.pure a) := by
  intro b hb; rw [pure_ok] at hb; subst hb; exact h

theorem bind {x : Res β} {f : β → Res α} (h : ∀ b, x = .ok b → SR π (f b)) : SR π (x >>= f) := by
  intro a ha; rw [bind_ok] at ha
  obtain ⟨b, hx, hb⟩ := ha; exact h b hx a hb

theorem bindE (π' : β → Eng) {x : Res β} {f : β → Res α} (hx : SR π' x) (h : ∀ b, Sy (π' b) → SR π (f b)) : SR π (x >>= f) := by
  intro a ha; rw [bind_ok] at ha
  obtain ⟨b, hx', hb⟩ := ha; exact h b (hx b hx') a hb

end SR

theorem updateCommitted_eff {dbg : Bool} {s s' : RState} {c : Option LogId} {ch : Bool}
    (h : s.updateCommitted dbg c = .ok (ch, s')) : s'.ms.effective = s.ms.effective := by
  unfold RState.updateCommitted at h
  split at h
  · rw [bind_ok] at h
    obtain ⟨m, h1, h⟩ := h
    rw [pure_ok] at h; cases h
    unfold RState.MemState.commit at h1
    split at h1
    · rw [bind_ok] at h1
      obtain ⟨_, _, h1⟩ := h1
      rw [pure_ok] at h1; subst h1; rfl
    · rw [pure_ok] at h1; subst h1; rfl
  · rw [pure_ok] at h; cases h; rfl

theorem upgrade_configs {α : Type} [LinearOrder α] (p : VecProgress α) (cs : List (List NodeId)) (ls : List NodeId) (d : α) :
    (p.upgrade cs ls d).configs = cs := by
  rw [VecProgress.upgrade_eq, VecProgress.updates_configs]; rfl

theorem increaseTo_configs {α : Type} [LinearOrder α] {p p' : VecProgress α} {n : NodeId} {v : α} (h : p.increaseTo n v = some p') :
    p'.configs = p.configs := by
  unfold VecProgress.increaseTo at h
  split at h
  · cases h
  · split at h
    · cases h
    · split at h
      · exact (VecProgress.update_vector h).1
      · cases h; rfl

namespace Eng
variable {dbg : Bool} {now : Nat} {e : Eng} {l : Leader}

theorem s_still {e1 : Eng} (h : Sy e) (k : Still e e1) (hm : e1.st.ms.effective = e.st.ms.effective) : Sy e1 := h.same hm k.candidate k.leader

theorem s_logPurge (h : Sy e) : Sy e.logPurge := by
  unfold logPurge
  split
  · exact h
  · split <;> exact h.same

theorem s_updatePurgeUpto (h : Sy e) (x : LogId) : SR id (e.updatePurgeUpto dbg x) := by
  unfold updatePurgeUpto
  exact SR.bind fun _ _ => SR.pure h.same

theorem s_schedulePurge (h : Sy e) : SR id (e.schedulePurge dbg) := by
  unfold schedulePurge
  refine SR.bind fun o _ => ?_
  split
  · exact s_updatePurgeUpto h _
  · exact SR.pure h

theorem s_triggerSnapshot (h : Sy e) : Sy e.triggerSnapshot := by
  unfold triggerSnapshot
  split
  · exact h
  · exact h.same

theorem s_updateSnapshot (h : Sy e) (m : SnapMeta) : Sy (e.updateSnapshot m).2 := by
  unfold updateSnapshot
  split
  · exact h
  · exact h.same

theorem s_maybeSnapshot (h : Sy e) : Sy e.maybeSnapshot := by
  unfold maybeSnapshot
  split
  · exact s_triggerSnapshot h
  · exact h

theorem s_rhRebuildStreams (h : Sy e) (hl : On e.st.ms.effective.mem l) : Sy (e.rhRebuildStreams l) := by
  unfold rhRebuildStreams
  exact h.set rfl hl

theorem s_rhInitiate (h : Sy e) (hl : On e.st.ms.effective.mem l) : SR id (e.rhInitiate dbg l) := by
  unfold rhInitiate
  refine SR.bind fun p hp => ?_
  exact SR.pure (h.set rfl hl)

/-- the candidate is gone, the leader may still have its old configs -/
theorem s_rhAppendMembership (hc : e.candidate = none) {i : LogId} {m : Membership} :
    SR id (e.rhAppendMembership dbg l i m) := by
  unfold rhAppendMembership
  refine SR.bind fun _ _ => SR.bind fun _ _ => SR.bind fun ms hms => ?_
  have hu : On ms.effective.mem (rhRebuildProgresses { e with st := { e.st with ms := ms } } l) :=
    ⟨upgrade_configs _ _ _ _, upgrade_configs _ _ _ _⟩
  have h1 : Sy { e with st := { e.st with ms := ms }, leader := none } := Sy.free rfl hc
  have h2 : Sy (rhRebuildStreams { e with st := { e.st with ms := ms } } (rhRebuildProgresses { e with st := { e.st with ms := ms } } l)) :=
    h1.set (e1 := rhRebuildStreams { e with st := { e.st with ms := ms } } (rhRebuildProgresses { e with st := { e.st with ms := ms } } l)) rfl hu
  exact SR.bind fun l2 hl2 => s_rhInitiate h2 (h2.lead l2 (unwrap_some hl2))

theorem s_rhTryCommit (h : Sy e) (g : Option LogId) : SR id (e.rhTryCommit dbg g) := by
  unfold rhTryCommit
  split
  · exact SR.pure h
  · split
    · refine SR.bind fun p hp => ?_
      obtain ⟨ch, st⟩ := p
      have hm := updateCommitted_eff hp
      dsimp only
      split
      · exact SR.pure (s_maybeSnapshot (h.same hm))
      · exact SR.pure h
    · exact SR.pure h

theorem s_rhUpdateMatching (h : Sy e) (hl : On e.st.ms.effective.mem l) (n : NodeId) (m : Option LogId) :
    SR id (e.rhUpdateMatching dbg l n m) := by
  unfold rhUpdateMatching
  refine SR.bind fun _ _ => SR.bind fun _ _ => SR.bind fun en hen => SR.bind fun vp hvp => ?_
  have hv := (VecProgress.update_vector (unwrap_some hvp)).1
  refine s_rhTryCommit (h.set rfl ?_) _
  exact ⟨hv.trans hl.1, hl.2⟩

theorem s_rhUpdateConflicting (h : Sy e) (hl : On e.st.ms.effective.mem l) (n : NodeId) (c : LogId) :
    SR id (e.rhUpdateConflicting dbg l n c) := by
  unfold rhUpdateConflicting
  exact SR.bind fun _ _ => SR.bind fun en hen => SR.pure (h.set rfl hl)

theorem s_rhTryPurge (h : Sy e) : Sy (e.rhTryPurge l) := by
  unfold rhTryPurge
  split
  · exact h
  · split
    · exact h
    · split
      · exact h
      · exact s_logPurge h

theorem s_rhFailed (h : Sy e) (hl : On e.st.ms.effective.mem l) (n : NodeId) : SR id (e.rhFailed l n) := by
  unfold rhFailed
  exact SR.bind fun _ _ => SR.pure (h.set rfl hl)

theorem s_rhUpdateProgress (h : Sy e) (hl : On e.st.ms.effective.mem l) (n : NodeId) (r : ReplResult) :
    SR id (e.rhUpdateProgress dbg l n r) := by
  unfold rhUpdateProgress
  have hgo : ∀ x : Res Eng, SR id x → SR id (x >>= fun e1 => (unwrap e1.leader >>= fun l1 => (pure (rhTryPurge e1 l1) : Res Eng))) :=
    fun x hx => SR.bindE id hx fun b hb => SR.bind fun l1 _ => SR.pure (s_rhTryPurge hb)
  cases r with
  | matching m => exact hgo _ (s_rhUpdateMatching h hl _ _)
  | conflict c => exact hgo _ (s_rhUpdateConflicting h hl _ _)
  | failed => exact hgo _ (s_rhFailed h hl _)

theorem s_rhUpdateLocal (h : Sy e) (hl : On e.st.ms.effective.mem l) (u : Option LogId) : SR id (e.rhUpdateLocal dbg l u) := by
  unfold rhUpdateLocal
  split
  · exact SR.pure h
  · split
    · split
      · exact SR.pure h
      · refine s_rhUpdateMatching h ?_ _ _
        exact hl
    · exact SR.pure h

theorem s_lhAppend (h : Sy e) (hc : e.candidate = none) (hl : On e.st.ms.effective.mem l) {ps : List Payload} :
    SR id (e.lhAppend dbg l ps) := by
  unfold lhAppend
  split
  · exact SR.pure h
  · refine SR.bind fun _ _ => SR.bind fun ids _ => SR.bind fun _ _ => SR.bind fun st hst => ?_
    have hms := (acceptIo_ms hst).1
    refine SR.bindE id ?_ fun e2 h2 => ?_
    · unfold lhMembership
      split
      · refine s_rhAppendMembership ?_
        exact hc
      · refine SR.pure (h.set rfl ?_ (congrArg (·.effective) hms) rfl)
        exact hl
    · exact SR.bind fun l2 hl2 => s_rhInitiate h2 (h2.lead l2 (unwrap_some hl2))

theorem leaderNew_configs {v : Vote} {m : Membership} {ids : List LogId} (hr : Leader.new dbg now v m ids = .ok l) : On m l := by
  obtain ⟨h1, h2, _⟩ := leaderNew_clock hr
  exact ⟨by rw [h2]; rfl, by rw [h1]; rfl⟩

theorem s_becomeNewLeader (h : Sy e) (hc : e.candidate = none) : SR id (e.becomeNewLeader dbg now) := by
  unfold becomeNewLeader
  refine SR.bind fun l hl => SR.bind fun st hst => ?_
  have hms := congrArg (·.effective) (acceptIo_ms hst).1
  have hl' := leaderNew_configs hl
  have h1 : Sy (updateServerState (Eng.push { e with st := st, leader := some l } (.updateIO none (IOId.newLog l.vote l.lastLogId)))) :=
    h.set rfl hl' hms rfl
  have h2 := s_rhRebuildStreams h1 (l := l) (h1.lead l rfl)
  refine SR.bind fun l2 hl2 => ?_
  have hc2 := h2.lead l2 (unwrap_some hl2)
  split
  · exact s_lhAppend h2 hc hc2
  · exact s_rhInitiate h2 hc2

theorem s_becomeLeader (h : Sy e) (hc : e.candidate = none) : SR id (e.becomeLeader dbg now) := by
  unfold becomeLeader
  split
  · next l hl =>
    split
    · exact SR.pure (h.set (l := { l with vote := e.st.vote.data.toCommitted }) rfl (h.lead l hl))
    · exact s_becomeNewLeader h hc
  · exact s_becomeNewLeader h hc

theorem s_becomeFollowing : SR id (e.becomeFollowing dbg) := by
  unfold becomeFollowing
  exact SR.bind fun _ _ => SR.pure (Sy.free rfl rfl)

theorem s_updateInternal (h : Sy e) (hc : e.st.isLeader e.cfg.id = true → e.candidate = none) : SR id (e.updateInternal dbg now) := by
  unfold updateInternal
  split
  · next hl => exact s_becomeLeader h (hc hl)
  · split
    · exact SR.pure h
    · exact s_becomeFollowing

theorem storeVote_same {e1 : Eng} {lease : Nat} {v : Vote} (hr : storeVote dbg now lease e v = .ok e1) :
    e1.st.ms = e.st.ms ∧ e1.candidate = e.candidate ∧ e1.leader = e.leader ∧ e1.cfg = e.cfg := by
  unfold storeVote at hr
  split at hr
  · rw [bind_ok] at hr
    obtain ⟨st, hst, hr⟩ := hr
    rw [pure_ok] at hr; subst hr
    exact ⟨(acceptIo_ms hst).1, rfl, rfl, rfl⟩
  · rw [bind_ok] at hr
    obtain ⟨vt, _, hr⟩ := hr
    rw [pure_ok] at hr; subst hr
    exact ⟨rfl, rfl, rfl, rfl⟩

/-- an accepted vote of this node has no candidate beside it, or is not committed -/
theorem s_updateVote (h : Sy e) (v : Vote) (hc : e.st.vote.data ≤ v → v.committed = true → v.leaderId.node = e.cfg.id → e.candidate = none) :
    SR Prod.snd (e.updateVote dbg now v) := by
  unfold updateVote
  split
  · next hle =>
    refine SR.bind fun e1 h1 => ?_
    obtain ⟨k1, k2, k3, k4⟩ := storeVote_same h1
    have hv := storeVote_vote hle h1
    refine SR.bindE id (s_updateInternal (h.same (by rw [k1]) k2 k3) ?_) fun e2 h2 => SR.pure h2
    intro hl
    rw [k2]
    unfold RState.isLeader RState.isLeading at hl
    simp only [Bool.and_eq_true, beq_iff_eq] at hl
    rw [hv, k4] at hl
    exact hc hle hl.2 hl.1.2
  · exact SR.pure h

theorem establish_into {c : Candidate} (ho : establish dbg now e c = .ok (some l)) : c.intoLeader dbg now = .ok l := by
  unfold establish at ho
  rw [bind_ok] at ho
  obtain ⟨_, _, ho⟩ := ho
  dsimp only at ho
  have ho' : ∀ b : Bool, (if b = true then pure none else (do let l ← Candidate.intoLeader dbg now c; pure (some l)) : Res (Option Leader)) = .ok (some l) →
      Candidate.intoLeader dbg now c = .ok l := by
    intro b hb
    split at hb
    · rw [pure_ok] at hb; cases hb
    · rw [bind_ok] at hb
      obtain ⟨l', hl', hb⟩ := hb
      rw [pure_ok] at hb; cases hb; exact hl'
  split at ho <;> exact ho' _ ho

/-- the candidate stays -/
def CE {α : Type} (π : α → Eng) (e : Eng) (r : Res α) : Prop := ∀ a, r = .ok a → (π a).candidate = e.candidate

theorem CE.bind {α β : Type} {π : α → Eng} {x : Res β} {f : β → Res α} (h : ∀ b, x = .ok b → CE π e (f b)) : CE π e (x >>= f) := by
  intro a ha; rw [bind_ok] at ha
  obtain ⟨b, hx, hb⟩ := ha; exact h b hx a hb

theorem CE.pure {α : Type} {π : α → Eng} {a : α} (h : (π a).candidate = e.candidate) : CE π e (Pure.pure a) := by
  intro b hb; rw [pure_ok] at hb; subst hb; exact h

theorem CE.to {α : Type} {π : α → Eng} {e1 : Eng} {r : Res α} (h : CE π e1 r) (k : e1.candidate = e.candidate) : CE π e r :=
  fun a ha => (h a ha).trans k

theorem ce_rhInitiate : CE id e (e.rhInitiate dbg l) := by
  unfold rhInitiate
  exact CE.bind fun p _ => CE.pure rfl

theorem ce_lhMembership {m : Option StoredMem} : CE id e (e.lhMembership dbg l m) := by
  unfold lhMembership
  split
  · unfold rhAppendMembership
    exact CE.bind fun _ _ => CE.bind fun _ _ => CE.bind fun ms _ => CE.bind fun l2 _ => ce_rhInitiate.to rfl
  · exact CE.pure rfl

theorem ce_lhAppend {ps : List Payload} : CE id e (e.lhAppend dbg l ps) := by
  unfold lhAppend
  split
  · exact CE.pure rfl
  · refine CE.bind fun _ _ => CE.bind fun ids _ => CE.bind fun _ _ => CE.bind fun st hst => CE.bind fun e2 h2 => CE.bind fun l2 _ => ?_
    have h3 := ce_lhMembership _ h2
    exact ce_rhInitiate.to h3

theorem ce_becomeLeader : CE id e (e.becomeLeader dbg now) := by
  have hn : CE id e (e.becomeNewLeader dbg now) := by
    unfold becomeNewLeader
    refine CE.bind fun l hl => CE.bind fun st hst => CE.bind fun l2 _ => ?_
    split
    · exact ce_lhAppend.to rfl
    · exact ce_rhInitiate.to rfl
  unfold becomeLeader
  split
  · split
    · exact CE.pure rfl
    · exact hn
  · exact hn

theorem updateVote_candidate {v : Vote} {p : Bool × Eng} (hc : e.candidate = none) (hr : e.updateVote dbg now v = .ok p) :
    p.2.candidate = none := by
  unfold updateVote at hr
  split at hr
  · rw [bind_ok] at hr
    obtain ⟨e1, h1, hr⟩ := hr
    rw [bind_ok] at hr
    obtain ⟨e2, h2, hr⟩ := hr
    rw [pure_ok] at hr; subst hr
    have hc1 := (storeVote_same h1).2.1.trans hc
    unfold updateInternal at h2
    split at h2
    · exact (ce_becomeLeader _ h2).trans hc1
    · split at h2
      · rw [pure_ok] at h2; subst h2; exact hc1
      · unfold becomeFollowing at h2
        rw [bind_ok] at h2
        obtain ⟨_, _, h2⟩ := h2
        rw [pure_ok] at h2; subst h2; rfl
  · rw [pure_ok] at hr; subst hr; exact hc

theorem s_establishLeader (h : Sy e) : SR id (e.establishLeader dbg now) := by
  unfold establishLeader
  refine SR.bind fun c hc => SR.bind fun o ho => ?_
  have hM := h.cand c (unwrap_some hc)
  have h0 : Sy { e with candidate := none } := ⟨h.lead, fun c hc => (by cases hc)⟩
  split
  · exact SR.pure h0
  · next l =>
    have hP : On e.st.ms.effective.mem l := by
      have hl' := establish_into ho
      unfold Candidate.intoLeader at hl'
      rw [bind_ok] at hl'
      obtain ⟨_, _, hl'⟩ := hl'
      rw [← hM]
      exact leaderNew_configs hl'
    have h1 := s_rhRebuildStreams (l := l) (h0.set (e1 := { e with candidate := none, leader := some l }) rfl hP) hP
    refine SR.bind fun p hp => ?_
    have k2 := s_updateVote h1 l.vote (fun _ _ _ => rfl) p hp
    have c2 := updateVote_candidate rfl hp
    obtain ⟨ok, e2⟩ := p
    refine SR.bind fun _ _ => SR.bind fun st hst => SR.bind fun lo hlo => SR.bind fun l3 hl3 => ?_
    have hms := congrArg (·.effective) (acceptIo_ms hst).1
    have h3 : Sy { e2 with st := st } := Sy.same (e := e2) k2 hms
    have : e2.leader = some l3 := by
      have hl3' := unwrap_some hl3
      rw [hl3'] at hlo
      have h4 := leaderHandler_some hlo
      exact h4
    exact s_lhAppend h3 c2 (h3.lead l3 this)

theorem s_handleVoteReq (h : Sy e) (v : Vote) (last : Option LogId) (hc : e.st.vote.data ≤ v → v.committed = true → v.leaderId.node = e.cfg.id → e.candidate = none) :
    SR Prod.snd (e.handleVoteReq dbg now v last) := by
  unfold handleVoteReq
  split
  · exact SR.pure h
  · split
    · exact SR.bindE Prod.snd (s_updateVote h _ hc) fun p hp => SR.pure hp
    · exact SR.pure h

theorem s_leaderStepDown (h : Sy e) (hc : e.st.isLeader e.cfg.id = true → e.candidate = none) : SR id (e.leaderStepDown dbg now) := by
  unfold leaderStepDown
  split
  · exact s_updateInternal h hc
  · exact SR.pure h

theorem s_tryPurge (h : Sy e) : Sy e.tryPurge := by
  unfold tryPurge
  split
  · exact s_rhTryPurge h
  · exact s_logPurge h

theorem s_finishBuilding (h : Sy e) (m : SnapMeta) : SR id (e.finishBuilding dbg m) := by
  unfold finishBuilding
  dsimp only
  have h0 : Sy { e with st := { e.st with io := { e.st.io with building := false } } } := h.same
  have hu := s_updateSnapshot h0 m
  split
  · next e1 he => rw [he] at hu; exact SR.pure hu
  · next e1 he =>
    rw [he] at hu
    exact SR.bindE id (s_schedulePurge hu) fun e2 h2 => SR.pure (s_tryPurge h2)

theorem s_triggerPurge (h : Sy e) (i : Nat) : SR id (e.triggerPurge dbg i) := by
  unfold triggerPurge
  split
  · exact SR.pure h
  · split
    · exact SR.pure h
    · exact SR.bind fun x _ => SR.bindE id (s_updatePurgeUpto h _) fun e1 h1 => SR.pure (s_tryPurge h1)

theorem s_triggerTransfer (h : Sy e) (t : NodeId) : SR id (e.triggerTransfer dbg t) := by
  unfold triggerTransfer
  refine SR.bind fun o ho => ?_
  split
  · exact SR.pure h
  · next l =>
    exact SR.pure (h.set (l := { l with transferTo := some t }) rfl (h.lead l (leaderHandler_some ho)))

theorem s_writeEntry (h : Sy e) (hc : e.leader.isSome → e.candidate = none) {p : Payload} : SR Prod.snd (e.writeEntry dbg p) := by
  unfold writeEntry
  refine SR.bind fun o ho => ?_
  split
  · exact SR.pure h
  · have hl := leaderHandler_some ho
    split
    · exact SR.pure h
    · exact SR.bindE id (s_lhAppend h (hc (by rw [hl]; rfl)) (h.lead _ hl)) fun e1 h1 => SR.bind fun l _ => SR.pure h1

theorem s_coreHeartbeat (h : Sy e) : SR id (e.coreHeartbeat dbg) := by
  unfold coreHeartbeat
  refine SR.bind fun o _ => ?_
  split
  · exact SR.pure h
  · split
    · exact SR.pure h
    · exact SR.pure h.same

theorem s_tickHeartbeat (h : Sy e) (en : Bool) (iv : Nat) : SR id (e.tickHeartbeat dbg now en iv) := by
  have hmap : ∀ {e1 : Eng}, Sy e1 → Sy { e1 with leader := e1.leader.map fun l => { l with nextHeartbeat := now + iv } } := by
    intro e1 h1
    refine ⟨?_, h1.cand⟩
    intro l hl
    obtain ⟨l0, h0, rfl⟩ := Option.map_eq_some_iff.1 hl
    exact h1.lead l0 h0
  unfold tickHeartbeat
  split
  · exact SR.pure h
  · split
    · dsimp only
      split
      · exact SR.bindE id (s_coreHeartbeat h) fun e1 h1 => SR.pure (hmap h1)
      · exact SR.bindE id (SR.pure (π := id) h) fun e1 h1 => SR.pure (hmap h1)
    · exact SR.pure h

theorem s_elect (h : ∀ l, e.leader = some l → On e.st.ms.effective.mem l) : SR id (e.elect dbg now) := by
  unfold elect
  refine SR.bindE Prod.snd (s_updateVote ?_ _ ?_) fun p hp => ?_
  · exact ⟨h, fun c hc => (by cases hc; rfl)⟩
  · intro _ hv; cases hv
  · obtain ⟨ok, e2⟩ := p
    exact SR.bind fun _ _ => SR.pure (Sy.same (e := e2) hp)

theorem s_handleVoteResp (h : Sy e) (target : NodeId) (v : Vote) (last : Option LogId) (granted : Bool)
    (hv : e.st.vote.data ≤ v → v.committed = true → v.leaderId.node = e.cfg.id → e.candidate = none) :
    SR id (e.handleVoteResp dbg now target v last granted) := by
  unfold handleVoteResp
  split
  · exact SR.pure h
  · next c hc =>
    split
    · refine SR.bind fun c1 hc1 => ?_
      have h1 : Sy { e with candidate := some c1 } := by
        refine ⟨h.lead, ?_⟩
        intro c' hc'
        cases hc'
        unfold grantBy at hc1
        rw [bind_ok] at hc1
        obtain ⟨p, _, hc1⟩ := hc1
        rw [pure_ok] at hc1; subst hc1
        exact h.cand c hc
      dsimp only
      split
      · exact s_establishLeader h1
      · exact SR.pure h1
    · have hs : ∀ e1 : Eng, e1 = (if e.st.lastLogId < last then { e with seenGreater := true } else e) → Sy e1 ∧ e1.cfg = e.cfg ∧ e1.candidate = e.candidate ∧ e1.st = e.st := by
        rintro e1 rfl
        split
        · exact ⟨h.same, rfl, rfl, rfl⟩
        · exact ⟨h, rfl, rfl, rfl⟩
      obtain ⟨k1, k2, k3, k4⟩ := hs _ rfl
      exact SR.bindE Prod.snd (s_updateVote k1 _ (by rw [k2, k3, k4]; exact hv)) fun p hp => SR.pure hp

theorem s_initCluster (h : Sy e) (hl : e.st.vote.data.committed = false → e.leader = none) {m : Membership} : SR Prod.snd (e.initCluster dbg now m) := by
  unfold initCluster
  split
  · exact SR.pure h
  · next hi =>
    split
    · exact SR.pure h
    · refine SR.bind fun v _ => SR.bind fun e2 h2 => SR.bindE id (s_elect ?_) fun e3 h3 => SR.pure h3
      have hs := (still_fhDoAppend _ _ _ _ h2).leader
      have hn : e.leader = none := by
        apply hl
        unfold RState.isInitialized at hi
        simp only [Bool.or_eq_true, decide_eq_true_eq, not_or, not_not] at hi
        rw [hi.2]
      intro l hl'
      rw [show e2.leader = e.leader from hs, hn] at hl'; cases hl'

/-- a leader's vote of another node ends leadership and candidacy -/
theorem updateVote_free {v : Vote} {e1 : Eng} (hn : v.leaderId.node ≠ e.cfg.id) (hr : e.updateVote dbg now v = .ok (true, e1)) :
    e1.leader = none ∧ e1.candidate = none := by
  have hle := updateVote_le hr
  unfold updateVote at hr
  rw [if_pos hle, bind_ok] at hr
  obtain ⟨e2, h2, hr⟩ := hr
  rw [bind_ok] at hr
  obtain ⟨e3, h3, hr⟩ := hr
  rw [pure_ok] at hr; cases hr
  have hv := storeVote_vote hle h2
  have hc := (storeVote_same h2).2.2.2
  have hl : e2.st.isLeading e2.cfg.id = false := by
    unfold RState.isLeading
    rw [hv, hc]
    simp [hn]
  unfold updateInternal RState.isLeader at h3
  rw [hl] at h3
  simp only [Bool.false_and, Bool.false_eq_true, if_false] at h3
  unfold becomeFollowing at h3
  rw [bind_ok] at h3
  obtain ⟨_, _, h3⟩ := h3
  rw [pure_ok] at h3; subst h3
  exact ⟨rfl, rfl⟩

theorem s_handleAppend (h : Sy e) (tx : Nat) (v : Vote) (prev : Option LogId) (es : List Ent) (lc : Option LogId)
    (hv : e.st.vote.data ≤ v → v.leaderId.node ≠ e.cfg.id) : SR id (e.handleAppend dbg now tx v prev es lc) := by
  unfold handleAppend
  refine SR.bind fun p hp => ?_
  obtain ⟨r, e1⟩ := p
  have hk : (r = .success → e1.leader = none ∧ e1.candidate = none) ∧ Sy e1 := by
    unfold appendEntries at hp
    rw [bind_ok] at hp
    obtain ⟨⟨ok, e2⟩, h2, hp⟩ := hp
    dsimp only at hp
    split at hp
    · next hok =>
      subst hok
      obtain ⟨f1, f2⟩ := updateVote_free (hv (updateVote_le h2)) h2
      rw [bind_ok] at hp
      obtain ⟨lv, _, hp⟩ := hp
      rw [bind_ok] at hp
      obtain ⟨⟨ok2, e3⟩, h3, hp⟩ := hp
      have s3 := still_fhEnsure _ _ _ h3
      dsimp only at hp s3
      split at hp
      · rw [bind_ok] at hp
        obtain ⟨e4, h4, hp⟩ := hp
        rw [pure_ok] at hp; cases hp
        have s4 := s3.trans (still_fhAppendEntries _ _ _ _ _ h4)
        have a : e1.leader = none := s4.leader.trans f1
        have b : e1.candidate = none := s4.candidate.trans f2
        exact ⟨fun _ => ⟨a, b⟩, Sy.free a b⟩
      · rw [pure_ok] at hp; cases hp
        exact ⟨fun hx => (by cases hx), Sy.free (s3.leader.trans f1) (s3.candidate.trans f2)⟩
    · next hok =>
      rw [pure_ok] at hp; cases hp
      refine ⟨fun hx => (by cases hx), ?_⟩
      cases ok with
      | true => exact absurd rfl hok
      | false => rw [updateVote_false h2]; exact h
  dsimp only
  split
  · next hr =>
    obtain ⟨a, b⟩ := hk.1 hr
    refine SR.bind fun acc _ => SR.bind fun _ _ => ?_
    intro e3 h3
    have s := still_fhCommit _ _ _ h3
    exact Sy.free (s.leader.trans a) (s.candidate.trans b)
  · exact SR.pure (hk.2.same)

theorem s_handleInstall (h : Sy e) (tx : Nat) (v : Vote) (m : SnapMeta)
    (hv : e.st.vote.data ≤ v → v.leaderId.node ≠ e.cfg.id) : SR id (e.handleInstall dbg now tx v m) := by
  unfold handleInstall
  refine SR.bind fun p hp => ?_
  obtain ⟨ok, e1⟩ := p
  dsimp only
  split
  · next hok =>
    subst hok
    obtain ⟨f1, f2⟩ := updateVote_free (hv (updateVote_le hp)) hp
    refine SR.bind fun lv _ => SR.bind fun q hq => SR.pure ?_
    have s := still_fhInstall _ _ _ _ hq
    exact Sy.free (s.leader.trans f1) (s.candidate.trans f2)
  · next hok =>
    cases ok with
    | true => exact absurd rfl hok
    | false => rw [updateVote_false hp]; exact SR.pure h.same

/-- a leader has no candidate beside it -/
theorem cand_none {g0 : Gh} (hI : EInv g0 e) (hl : e.st.isLeader e.cfg.id = true) : e.candidate = none := by
  cases hc : e.candidate with
  | none => rfl
  | some c => rw [hI.pj.nolead (hI.pj.cand c hc).nl] at hl; cases hl

/-- leader and candidate count with the effective membership after every input -/
theorem s_input {g0 : Gh} (hI : EInv g0 e) (h : Sy e) {i : Input} (hi : InputOk e i) : SR id (e.input dbg now i) := by
  have hcl : e.leader.isSome → e.candidate = none := by
    intro hl
    cases hc : e.candidate with
    | none => rfl
    | some c => rw [(hI.pj.cand c hc).nl] at hl; cases hl
  have hvo : ∀ v, VoteOk e v → e.st.vote.data ≤ v → v.committed = true → v.leaderId.node = e.cfg.id → e.candidate = none := by
    intro v hv h1 h2 h3
    have : v = e.st.vote.data := le_antisymm (hv h3) h1
    cases hc : e.candidate with
    | none => rfl
    | some c =>
      have := (hI.pj.cand c hc).com
      simp_all
  cases i with
  | appendReq tx v prev es lc => exact s_handleAppend h _ _ _ _ _ fun hv => (hi hv).1
  | voteReq tx v last =>
    simp only [input, coreVoteReq]
    exact SR.bindE Prod.snd (s_handleVoteReq h _ _ (hvo v hi)) fun p hp => SR.pure (Sy.same (e := p.2) hp)
  | snapReq tx v m => exact s_handleInstall h _ _ _ fun hv => (hi hv).1
  | init tx m =>
    simp only [input, coreInit]
    refine SR.bindE Prod.snd (s_initCluster h ?_) fun p hp => SR.pure (Sy.same (e := p.2) hp)
    intro hv
    cases hl : e.leader with
    | none => rfl
    | some l => rw [(hI.pj.lead l hl).com] at hv; cases hv
  | write p =>
    simp only [input]
    exact SR.bindE Prod.snd (s_writeEntry h hcl) fun p hp => SR.pure hp
  | change c r =>
    simp only [input]
    refine SR.bindE Prod.snd ?_ fun p hp => SR.pure hp
    unfold changeMembership
    split
    · exact SR.pure h
    · exact s_writeEntry h hcl
  | handleTransfer v target =>
    simp only [input, coreHandleTransfer]
    split
    · split
      · exact s_elect h.lead
      · exact SR.pure h.same
    · exact SR.pure h
  | electCmd =>
    simp only [input, coreElect]
    split
    · exact s_elect h.lead
    · exact SR.pure h
  | heartbeatCmd => exact s_coreHeartbeat h
  | snapshotCmd => exact SR.pure (s_triggerSnapshot h)
  | purgeCmd i => exact s_triggerPurge h _
  | transferCmd t => exact s_triggerTransfer h _
  | voteResp target v last granted sender =>
    simp only [input]
    split
    · exact s_handleVoteResp h _ _ _ _ (hvo v hi)
    · exact SR.pure h
  | higherVote v sender =>
    simp only [input]
    split
    · exact SR.bindE Prod.snd (s_updateVote h _ (hvo v hi)) fun p hp => SR.pure hp
    · exact SR.pure h
  | tick el hb iv =>
    simp only [input, coreTick]
    refine SR.bind fun e1 he1 => SR.bind fun e2 he2 => ?_
    have hI2 := (frame_tickHeartbeat he2).inv (inv_tickElection hI he1)
    have h0 : SR id (e.tickElection dbg now el) := by
      unfold tickElection
      split
      · exact SR.pure h
      · split
        · exact SR.pure h
        · split
          · exact SR.pure h
          · have hx : ∀ b : Bool, SR id (if b = true then elect dbg now { e with seenGreater := false } else pure e) := by
              intro b
              split
              · exact s_elect h.lead
              · exact SR.pure h
            dsimp only
            split <;> exact hx _
    have h2 : Sy e2 := s_tickHeartbeat (h0 e1 he1) _ _ _ he2
    split
    · exact s_leaderStepDown h2 (cand_none hI2)
    · exact SR.pure h2
  | localIO io =>
    simp only [input, coreLocalIO]
    refine SR.bind fun p _ => ?_
    have h1 : Sy (e.withProg p) := h.same
    split
    · split
      · next l hl =>
        split
        · exact s_rhUpdateLocal h1 (h.lead l hl) _
        · exact SR.pure h1
      · exact SR.pure h1
    · exact SR.pure h1
  | replProgress s target r =>
    simp only [input, coreReplProgress]
    split
    · exact SR.bind fun l hl => s_rhUpdateProgress h (h.lead _ (unwrap_some hl)) _ _
    · exact SR.pure h
  | hbProgress s target t =>
    simp only [input, coreHbProgress]
    split
    · refine SR.bind fun l hl => ?_
      unfold rhUpdateClock
      refine SR.bind fun c hc => SR.pure (h.set (l := { l with clock := c }) rfl ?_)
      have := h.lead l (unwrap_some hl)
      exact ⟨this.1, (increaseTo_configs (unwrap_some hc)).trans this.2⟩
    · exact SR.pure h
  | built m =>
    simp only [input, coreBuilt]
    exact SR.bindE id (s_finishBuilding h _) fun e1 h1 => SR.bind fun io _ => SR.pure h1.same
  | installed io m =>
    simp only [input, coreInstalled]
    exact SR.bind fun p _ => SR.bind fun s1 _ => SR.bind fun s2 _ => SR.pure h.same
  | applied last =>
    simp only [input, coreApplied]
    exact SR.bind fun s _ => SR.pure h.same
  | initiate =>
    simp only [input, coreInitiate]
    refine SR.bind fun o ho => ?_
    split
    · exact SR.pure h
    · exact s_rhInitiate h (h.lead _ (leaderHandler_some ho))

end Eng
end Openraft.Engine
