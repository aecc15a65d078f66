import Verif.Engine.InvLeader

/-!
# What handlers leave alone

`Stay`: the positions the runtime reports (submitted, flushed, snapshot, applied, purged) only change
when the runtime reports them. `Keeps`: the snapshot the engine knows only changes when one is built or
installed. Both are proved handler by handler.
-/

set_option autoImplicit false

namespace Openraft.Engine
open Openraft.Repl (Panic dassert Inflight)
open Openraft.Cluster (Payload)

/-- the positions the runtime reports to the engine -/
def Eng.reported (e : Eng) : Option IOId × Option IOId × Option LogId × Option LogId × Option LogId :=
  (e.st.io.prog.submitted, e.st.io.prog.flushed, e.st.io.snapshot, e.st.io.applied, e.st.io.purged)

/-- the snapshot the engine knows -/
def Eng.theSnap (e : Eng) : SnapMeta := e.st.snap

theorem updateCommitted_same {dbg : Bool} {s s' : RState} {c : Option LogId} {ch : Bool} (h : s.updateCommitted dbg c = .ok (ch, s')) :
    s'.io = s.io ∧ s'.snap = s.snap := by
  unfold RState.updateCommitted at h
  split at h
  · rw [bind_ok] at h
    obtain ⟨m, _, h⟩ := h
    rw [pure_ok] at h; cases h; exact ⟨rfl, rfl⟩
  · rw [pure_ok] at h; cases h; exact ⟨rfl, rfl⟩

set_option hygiene false in
/-- closes `reported` goals -/
macro "stay" : tactic => `(tactic| first
  | rfl
  | (rw [acceptIo_ok h_st]; rfl)
  | (simp only [Eng.reported, (updateCommitted_same h_p).1]; done))

set_option hygiene false in
/-- closes `theSnap` goals -/
macro "keeps" : tactic => `(tactic| first
  | rfl
  | (rw [acceptIo_ok h_st]; rfl)
  | (simp only [Eng.theSnap, (updateCommitted_same h_p).2]; done))

/-- inputs that do not report a position -/
def Input.noReport : Input → Bool
  | .localIO _ | .built _ | .installed _ _ | .applied _ => false
  | _ => true

/-- inputs that do not bring a snapshot -/
def Input.noSnap : Input → Bool
  | .snapReq _ _ _ | .built _ => false
  | _ => true

/-- the reported positions are unchanged -/
def Stay (e e' : Eng) : Prop := e'.reported = e.reported

theorem Stay.refl (e : Eng) : Stay e e := rfl
theorem Stay.trans {a b c : Eng} (h : Stay a b) (k : Stay b c) : Stay a c := Eq.trans k h

/-- `Stay` for a result, `π` picks the engine -/
def StayR {α : Type} (π : α → Eng) (e : Eng) (r : Res α) : Prop := ∀ a, r = .ok a → Stay e (π a)

namespace StayR
variable {α β : Type} {π : α → Eng} {e : Eng}

theorem pure {a : α} (h : Stay e (π a)) : StayR π e (Pure.pure a) := by
  intro b hb; rw [pure_ok] at hb; subst hb; exact h

theorem bind {x : Res β} {f : β → Res α} (h : ∀ b, x = .ok b → StayR π e (f b)) : StayR π e (x >>= f) := by
  intro a ha; rw [bind_ok] at ha
  obtain ⟨b, hx, hb⟩ := ha; exact h b hx a hb

theorem bindE (π' : β → Eng) {x : Res β} {f : β → Res α} (hx : StayR π' e x) (h : ∀ b, StayR π (π' b) (f b)) :
    StayR π e (x >>= f) := by
  intro a ha; rw [bind_ok] at ha
  obtain ⟨b, hx', hb⟩ := ha; exact (hx b hx').trans (h b a hb)

theorem from' {e1 : Eng} {r : Res α} (h : Stay e e1) (k : StayR π e1 r) : StayR π e r :=
  fun a ha => h.trans (k a ha)

end StayR

namespace Eng
variable {dbg : Bool} {now : Nat}

theorem stay_push (e : Eng) (c : Cmd) : Stay e (e.push c) := rfl

theorem stay_upd {e e1 : Eng} (c : Cmd) (h : Stay e e1) : Stay e (e1.push c) := h.trans (stay_push _ _)

theorem stay_same {e e1 : Eng} (h1 : Eng.reported e1 = Eng.reported e) : Stay e e1 := h1

theorem stay_logPurge (e : Eng) : Stay e e.logPurge := by
  unfold logPurge
  split
  · exact Stay.refl _
  · split
    · exact Stay.refl _
    · exact stay_upd _ (stay_same (by stay))

theorem stay_updatePurgeUpto (e : Eng) (x : LogId) : StayR id e (e.updatePurgeUpto dbg x) := by
  unfold updatePurgeUpto
  exact StayR.bind fun _ _ => StayR.pure (stay_same (by stay))

theorem stay_schedulePurge (e : Eng) : StayR id e (e.schedulePurge dbg) := by
  unfold schedulePurge
  refine StayR.bind fun o h_o => ?_
  split
  · exact stay_updatePurgeUpto _ _
  · exact StayR.pure (Stay.refl _)

theorem stay_triggerSnapshot (e : Eng) : Stay e e.triggerSnapshot := by
  unfold triggerSnapshot
  split
  · exact Stay.refl _
  · exact stay_upd _ (stay_same (by stay))

theorem stay_updateSnapshot (e : Eng) (m : SnapMeta) : Stay e (e.updateSnapshot m).2 := by
  unfold updateSnapshot
  split
  · exact Stay.refl _
  · exact stay_same (by stay)

theorem stay_maybeSnapshot (e : Eng) : Stay e e.maybeSnapshot := by
  unfold maybeSnapshot
  split
  · exact stay_triggerSnapshot _
  · exact Stay.refl _

theorem stay_rhRebuildStreams (e : Eng) (l : Leader) : Stay e (e.rhRebuildStreams l) := by
  unfold rhRebuildStreams
  exact stay_upd _ (stay_same (by stay))

theorem stay_rhInitiate (e : Eng) (l : Leader) : StayR id e (e.rhInitiate dbg l) := by
  unfold rhInitiate
  refine StayR.bind fun p h_p => ?_
  exact StayR.pure (by stay)

theorem stay_rhAppendMembership (e : Eng) (l : Leader) (i : LogId) (m : Membership) :
    StayR id e (e.rhAppendMembership dbg l i m) := by
  unfold rhAppendMembership
  refine StayR.bind fun _ _ => StayR.bind fun _ _ => StayR.bind fun ms h_ms => StayR.bind fun l2 h_l2 => ?_
  refine StayR.from' ?_ (stay_rhInitiate _ _)
  exact (stay_same (e1 := { e with st := { e.st with ms := ms } }) (by stay)).trans (stay_rhRebuildStreams _ _)

theorem stay_rhTryCommit (e : Eng) (g : Option LogId) : StayR id e (e.rhTryCommit dbg g) := by
  unfold rhTryCommit
  split
  · exact StayR.pure (Stay.refl _)
  · split
    · refine StayR.bind fun p h_p => ?_
      obtain ⟨ch, st⟩ := p
      dsimp only
      split
      · exact StayR.pure ((stay_upd _ (stay_upd _ (stay_upd _ (stay_same (by stay))))).trans (stay_maybeSnapshot _))
      · exact StayR.pure (Stay.refl _)
    · exact StayR.pure (Stay.refl _)

theorem stay_rhUpdateMatching (e : Eng) (l : Leader) (n : NodeId) (m : Option LogId) :
    StayR id e (e.rhUpdateMatching dbg l n m) := by
  unfold rhUpdateMatching
  refine StayR.bind fun _ _ => StayR.bind fun _ _ => StayR.bind fun en h_en => StayR.bind fun vp h_vp => ?_
  exact StayR.from' (stay_same (by stay)) (stay_rhTryCommit _ _)

theorem stay_rhUpdateConflicting (e : Eng) (l : Leader) (n : NodeId) (c : LogId) :
    StayR id e (e.rhUpdateConflicting dbg l n c) := by
  unfold rhUpdateConflicting
  exact StayR.bind fun _ _ => StayR.bind fun _ _ => StayR.pure (stay_same (by stay))

theorem stay_rhTryPurge (e : Eng) (l : Leader) : Stay e (e.rhTryPurge l) := by
  unfold rhTryPurge
  split
  · exact Stay.refl _
  · split
    · exact Stay.refl _
    · split
      · exact Stay.refl _
      · exact stay_logPurge _

theorem stay_rhFailed (e : Eng) (l : Leader) (n : NodeId) : StayR id e (e.rhFailed l n) := by
  unfold rhFailed
  exact StayR.bind fun _ _ => StayR.pure (stay_same (by stay))

theorem stay_rhUpdateProgress (e : Eng) (l : Leader) (n : NodeId) (r : ReplResult) :
    StayR id e (e.rhUpdateProgress dbg l n r) := by
  unfold rhUpdateProgress
  have hgo : ∀ x : Res Eng, StayR id e x → StayR id e (x >>= fun e1 => (unwrap e1.leader >>= fun l1 => (pure (rhTryPurge e1 l1) : Res Eng))) :=
    fun x hx => StayR.bindE id hx fun b => StayR.bind fun l1 h_l1 => StayR.pure (stay_rhTryPurge _ _)
  cases r with
  | matching m => exact hgo _ (stay_rhUpdateMatching _ _ _ _)
  | conflict c => exact hgo _ (stay_rhUpdateConflicting _ _ _ _)
  | failed => exact hgo _ (stay_rhFailed _ _ _)

theorem stay_rhUpdateClock (e : Eng) (l : Leader) (n : NodeId) (t : Nat) : StayR id e (e.rhUpdateClock l n t) := by
  unfold rhUpdateClock
  exact StayR.bind fun _ _ => StayR.pure (stay_same (by stay))

theorem stay_rhUpdateLocal (e : Eng) (l : Leader) (u : Option LogId) : StayR id e (e.rhUpdateLocal dbg l u) := by
  unfold rhUpdateLocal
  split
  · exact StayR.pure (Stay.refl _)
  · split
    · split
      · exact StayR.pure (Stay.refl _)
      · exact stay_rhUpdateMatching _ _ _ _
    · exact StayR.pure (Stay.refl _)

theorem stay_lhMembership (e : Eng) (l : Leader) (m : Option StoredMem) : StayR id e (e.lhMembership dbg l m) := by
  unfold lhMembership
  split
  · exact stay_rhAppendMembership _ _ _ _
  · exact StayR.pure (Stay.refl _)

theorem stay_lhAppend (e : Eng) (l : Leader) (ps : List Payload) : StayR id e (e.lhAppend dbg l ps) := by
  unfold lhAppend
  split
  · exact StayR.pure (Stay.refl _)
  · refine StayR.bind fun _ _ => StayR.bind fun ids h_ids => StayR.bind fun _ _ => StayR.bind fun st h_st => ?_
    refine StayR.from' (stay_upd _ (stay_same (by stay))) (StayR.bindE id (stay_lhMembership _ _ _) fun e2 => ?_)
    exact StayR.bind fun l2 h_l2 => stay_rhInitiate _ _

theorem stay_lhTransfer (e : Eng) (l : Leader) (t : NodeId) : Stay e (e.lhTransfer l t) :=
  stay_upd _ (stay_same (by stay))

theorem stay_updateServerState (e : Eng) : Stay e e.updateServerState := stay_same (by stay)

theorem stay_becomeNewLeader (e : Eng) : StayR id e (e.becomeNewLeader dbg now) := by
  unfold becomeNewLeader
  refine StayR.bind fun l h_l => StayR.bind fun st h_st => StayR.bind fun l2 h_l2 => ?_
  have h1 : Stay e (rhRebuildStreams (updateServerState (Eng.push { e with st := st, leader := some l } (.updateIO none (IOId.newLog l.vote l.lastLogId)))) l) :=
    ((stay_upd _ (stay_same (by stay))).trans (stay_updateServerState _)).trans (stay_rhRebuildStreams _ _)
  split
  · exact StayR.from' h1 (stay_lhAppend _ _ _)
  · exact StayR.from' h1 (stay_rhInitiate _ _)

theorem stay_becomeLeader (e : Eng) : StayR id e (e.becomeLeader dbg now) := by
  unfold becomeLeader
  split
  · split
    · exact StayR.pure (stay_same (by stay))
    · exact stay_becomeNewLeader _
  · exact stay_becomeNewLeader _

theorem stay_becomeFollowing (e : Eng) : StayR id e (e.becomeFollowing dbg) := by
  unfold becomeFollowing
  exact StayR.bind fun _ _ => StayR.pure (stay_same (by stay))

theorem stay_updateInternal (e : Eng) : StayR id e (e.updateInternal dbg now) := by
  unfold updateInternal
  split
  · exact stay_becomeLeader _
  · split
    · exact StayR.pure (Stay.refl _)
    · exact stay_becomeFollowing _

theorem stay_storeVote (e : Eng) (lease : Nat) (v : Vote) : StayR id e (e.storeVote dbg now lease v) := by
  unfold storeVote
  split
  · exact StayR.bind fun st h_st => StayR.pure (stay_upd _ (stay_same (by stay)))
  · exact StayR.bind fun vt h_vt => StayR.pure (stay_same (by stay))

theorem stay_updateVote (e : Eng) (v : Vote) : StayR Prod.snd e (e.updateVote dbg now v) := by
  unfold updateVote
  split
  · refine StayR.bindE id (stay_storeVote _ _ _) fun e1 => StayR.bindE id (stay_updateInternal _) fun e2 => ?_
    exact StayR.pure (Stay.refl _)
  · exact StayR.pure (Stay.refl _)

theorem stay_fhTruncate (e : Eng) (i : Nat) : StayR id e (e.fhTruncate dbg i) := by
  unfold fhTruncate
  refine StayR.bind fun _ _ => ?_
  split
  · exact StayR.pure (Stay.refl _)
  · refine StayR.bind fun ms h_ms => ?_
    dsimp only
    split
    · exact StayR.pure ((stay_upd _ (stay_same (by stay))).trans (stay_updateServerState _))
    · exact StayR.pure (stay_upd _ (stay_same (by stay)))

theorem stay_fhAppendMembership (e : Eng) (es : List Ent) : StayR id e (e.fhAppendMembership dbg es) := by
  unfold fhAppendMembership
  split
  · exact StayR.pure (Stay.refl _)
  · exact StayR.bind fun ms h_ms => StayR.pure (stay_same (by stay))

theorem stay_fhDoAppend (e : Eng) (v : Vote) (es : List Ent) : StayR id e (e.fhDoAppend dbg v es) := by
  unfold fhDoAppend
  refine StayR.bind fun _ _ => StayR.bind fun _ _ => StayR.bind fun _ _ => ?_
  refine StayR.from' (e1 := { e with st := { e.st with logIds := LogIdList.extend e.st.logIds (es.map (·.id)) } })
    (stay_same (by stay)) (StayR.bindE id (stay_fhAppendMembership _ _) fun e1 => StayR.pure (stay_push _ _))

theorem stay_fhAppendEntries (e : Eng) (v : Vote) (prev : Option LogId) (es : List Ent) :
    StayR id e (e.fhAppendEntries dbg v prev es) := by
  unfold fhAppendEntries
  refine StayR.bind fun _ _ => StayR.bind fun st h_st => StayR.bind fun since h_since => ?_
  split
  · refine StayR.from' (e1 := { e with st := st }) (stay_same (by stay))
      (StayR.bindE id (stay_fhTruncate _ _) fun e1 => stay_fhDoAppend _ _ _)
  · split
    · exact StayR.pure (stay_same (by stay))
    · exact StayR.pure (stay_upd _ (stay_same (by stay)))

theorem stay_fhEnsure (e : Eng) (prev : Option LogId) : StayR Prod.snd e (e.fhEnsure dbg prev) := by
  unfold fhEnsure
  split
  · exact StayR.pure (Stay.refl _)
  · refine StayR.bind fun b h_b => ?_
    split
    · exact StayR.pure (Stay.refl _)
    · exact StayR.bindE id (stay_fhTruncate _ _) fun e1 => StayR.pure (Stay.refl _)

theorem stay_fhCommit (e : Eng) (lc : Option LogId) : StayR id e (e.fhCommit dbg lc) := by
  unfold fhCommit
  refine StayR.bind fun p h_p => ?_
  obtain ⟨ch, st⟩ := p
  dsimp only
  split
  · refine StayR.bind fun i h_i => ?_
    exact StayR.pure ((stay_upd _ (stay_upd _ (stay_same (by stay)))).trans (stay_maybeSnapshot _))
  · exact StayR.pure (Stay.refl _)

theorem stay_fhInstallTruncate (e : Eng) (l : LogId) : StayR id e (e.fhInstallTruncate dbg l) := by
  unfold fhInstallTruncate
  split
  · split
    · exact stay_fhTruncate _ _
    · exact StayR.pure (Stay.refl _)
  · exact StayR.pure (Stay.refl _)

theorem stay_fhInstall (e : Eng) (v : Vote) (m : SnapMeta) : StayR Prod.snd e (e.fhInstall dbg v m) := by
  unfold fhInstall
  split
  · exact StayR.pure (Stay.refl _)
  · refine StayR.bind fun last h_last => ?_
    have hu := stay_updateSnapshot e m
    split
    · next e1 he => rw [he] at hu; exact StayR.pure hu
    · next e1 he =>
      rw [he] at hu
      refine StayR.from' hu (StayR.bindE id (stay_fhInstallTruncate _ _) fun e2 => ?_)
      refine StayR.bind fun st h_st => StayR.bind fun ms h_ms => StayR.pure ?_
      refine Stay.trans ?_ (stay_logPurge _)
      exact (stay_upd (e := e2) (.sm (.install m (IOId.newLog v (some last))))
        (e1 := updateServerState { e2 with st := { st with committed := some last, ms := ms } }) (stay_same (by stay))).trans (stay_same (by stay))

theorem stay_startup (e : Eng) : StayR id e (e.startup dbg now) := by
  unfold startup
  split
  · exact stay_updateInternal _
  · exact StayR.pure (stay_same (by stay))

theorem stay_elect (e : Eng) : StayR id e (e.elect dbg now) := by
  unfold elect
  refine StayR.from' (e1 := { e with candidate := some (Candidate.new now (Vote.new (e.st.vote.data.leaderId.term + 1) e.cfg.id) e.st.lastLogId e.st.ms.effective.mem) })
    (stay_same (by stay)) (StayR.bindE Prod.snd (stay_updateVote _ _) fun p => ?_)
  obtain ⟨ok, e2⟩ := p
  refine StayR.bind fun _ _ => StayR.pure ?_
  exact (stay_push _ _).trans (stay_updateServerState _)

theorem stay_initCluster (e : Eng) (m : Membership) : StayR Prod.snd e (e.initCluster dbg now m) := by
  unfold initCluster
  split
  · exact StayR.pure (Stay.refl _)
  · split
    · exact StayR.pure (Stay.refl _)
    · refine StayR.bind fun v h_v => ?_
      refine StayR.from' (e1 := { e with st := { e.st with vote := e.st.vote.update now 0 ⟨⟨0, 0⟩, true⟩ } })
        (stay_same (by stay)) (StayR.bindE id (stay_fhDoAppend _ _ _) fun e2 => StayR.bindE id (stay_elect _) fun e3 => ?_)
      exact StayR.pure (Stay.refl _)

theorem stay_handleVoteReq (e : Eng) (v : Vote) (last : Option LogId) :
    StayR Prod.snd e (e.handleVoteReq dbg now v last) := by
  unfold handleVoteReq
  split
  · exact StayR.pure (Stay.refl _)
  · split
    · refine StayR.bindE Prod.snd (stay_updateVote _ _) fun p => ?_
      exact StayR.pure (Stay.refl _)
    · exact StayR.pure (Stay.refl _)

theorem stay_establishLeader (e : Eng) : StayR id e (e.establishLeader dbg now) := by
  unfold establishLeader
  refine StayR.bind fun c h_c => StayR.bind fun o h_o => ?_
  split
  · exact StayR.pure (stay_same (by stay))
  · next l =>
    refine StayR.from' (e1 := rhRebuildStreams { e with candidate := none, leader := some l } l)
      ((stay_same (by stay)).trans (stay_rhRebuildStreams _ _)) (StayR.bindE Prod.snd (stay_updateVote _ _) fun p => ?_)
    obtain ⟨ok, e2⟩ := p
    refine StayR.bind fun _ _ => StayR.bind fun st h_st => StayR.bind fun lo h_lo => StayR.bind fun l3 h_l3 => ?_
    exact StayR.from' (stay_same (by stay)) (stay_lhAppend _ _ _)

theorem stay_handleVoteResp (e : Eng) (t : NodeId) (v : Vote) (last : Option LogId) (g : Bool) :
    StayR id e (e.handleVoteResp dbg now t v last g) := by
  unfold handleVoteResp
  split
  · exact StayR.pure (Stay.refl _)
  · split
    · refine StayR.bind fun c1 h_c1 => ?_
      dsimp only
      split
      · exact StayR.from' (stay_same (by stay)) (stay_establishLeader _)
      · exact StayR.pure (stay_same (by stay))
    · refine StayR.from' (e1 := if e.st.lastLogId < last then { e with seenGreater := true } else e) ?_
        (StayR.bindE Prod.snd (stay_updateVote _ _) fun p => StayR.pure (Stay.refl _))
      split
      · exact stay_same (by stay)
      · exact Stay.refl _

theorem stay_appendEntries (e : Eng) (v : Vote) (prev : Option LogId) (es : List Ent) :
    StayR Prod.snd e (e.appendEntries dbg now v prev es) := by
  unfold appendEntries
  refine StayR.bindE Prod.snd (stay_updateVote _ _) fun p => ?_
  obtain ⟨ok, e1⟩ := p
  dsimp only
  split
  · refine StayR.bind fun lv h_lv => StayR.bindE Prod.snd (stay_fhEnsure _ _) fun p => ?_
    obtain ⟨ok2, e2⟩ := p
    dsimp only
    split
    · exact StayR.bindE id (stay_fhAppendEntries _ _ _ _) fun e3 => StayR.pure (Stay.refl _)
    · exact StayR.pure (Stay.refl _)
  · exact StayR.pure (Stay.refl _)

theorem stay_handleAppend (e : Eng) (tx : Nat) (v : Vote) (prev : Option LogId) (es : List Ent) (lc : Option LogId) :
    StayR id e (e.handleAppend dbg now tx v prev es lc) := by
  unfold handleAppend
  refine StayR.bindE Prod.snd (stay_appendEntries _ _ _ _) fun p => ?_
  obtain ⟨r, e1⟩ := p
  dsimp only
  split
  · refine StayR.bind fun acc h_acc => StayR.bind fun _ _ => ?_
    exact StayR.from' (stay_push _ _) (stay_fhCommit _ _)
  · exact StayR.pure (stay_push _ _)

theorem stay_handleInstall (e : Eng) (tx : Nat) (v : Vote) (m : SnapMeta) :
    StayR id e (e.handleInstall dbg now tx v m) := by
  unfold handleInstall
  refine StayR.bindE Prod.snd (stay_updateVote _ _) fun p => ?_
  obtain ⟨ok, e1⟩ := p
  dsimp only
  split
  · refine StayR.bind fun lv h_lv => StayR.bindE Prod.snd (stay_fhInstall _ _ _) fun p => ?_
    exact StayR.pure (stay_push _ _)
  · exact StayR.pure (stay_push _ _)

theorem stay_leaderStepDown (e : Eng) : StayR id e (e.leaderStepDown dbg now) := by
  unfold leaderStepDown
  split
  · exact stay_updateInternal _
  · exact StayR.pure (Stay.refl _)

theorem stay_tryPurge (e : Eng) : Stay e e.tryPurge := by
  unfold tryPurge
  split
  · exact stay_rhTryPurge _ _
  · exact stay_logPurge _

theorem stay_finishBuilding (e : Eng) (m : SnapMeta) : StayR id e (e.finishBuilding dbg m) := by
  unfold finishBuilding
  dsimp only
  have hu := stay_updateSnapshot { e with st := { e.st with io := { e.st.io with building := false } } } m
  have h0 : Stay e { e with st := { e.st with io := { e.st.io with building := false } } } := stay_same (by stay)
  split
  · next e1 he => rw [he] at hu; exact StayR.pure (h0.trans hu)
  · next e1 he =>
    rw [he] at hu
    exact StayR.from' (h0.trans hu) (StayR.bindE id (stay_schedulePurge _) fun e2 => StayR.pure (stay_tryPurge _))

theorem stay_triggerPurge (e : Eng) (i : Nat) : StayR id e (e.triggerPurge dbg i) := by
  unfold triggerPurge
  split
  · exact StayR.pure (Stay.refl _)
  · split
    · exact StayR.pure (Stay.refl _)
    · exact StayR.bind fun x h_x => StayR.bindE id (stay_updatePurgeUpto _ _) fun e1 => StayR.pure (stay_tryPurge _)

theorem stay_triggerTransfer (e : Eng) (t : NodeId) : StayR id e (e.triggerTransfer dbg t) := by
  unfold triggerTransfer
  refine StayR.bind fun o h_o => ?_
  split
  · exact StayR.pure (Stay.refl _)
  · exact StayR.pure (stay_lhTransfer _ _ _)

theorem stay_writeEntry (e : Eng) (p : Payload) : StayR Prod.snd e (e.writeEntry dbg p) := by
  unfold writeEntry
  refine StayR.bind fun o h_o => ?_
  split
  · exact StayR.pure (Stay.refl _)
  · split
    · exact StayR.pure (Stay.refl _)
    · exact StayR.bindE id (stay_lhAppend _ _ _) fun e1 => StayR.bind fun l h_l => StayR.pure (Stay.refl _)

theorem stay_coreHeartbeat (e : Eng) : StayR id e (e.coreHeartbeat dbg) := by
  unfold coreHeartbeat
  refine StayR.bind fun o h_o => ?_
  split
  · exact StayR.pure (Stay.refl _)
  · split
    · exact StayR.pure (Stay.refl _)
    · exact StayR.pure (stay_push _ _)

theorem stay_tickElection (e : Eng) (en : Bool) : StayR id e (e.tickElection dbg now en) := by
  unfold tickElection
  split
  · exact StayR.pure (Stay.refl _)
  · split
    · exact StayR.pure (Stay.refl _)
    · split
      · exact StayR.pure (Stay.refl _)
      · have hgo : ∀ b : Bool, StayR id e (if b = true then elect dbg now { e with seenGreater := false } else pure e) := by
          intro b
          split
          · exact StayR.from' (stay_same (by stay)) (stay_elect _)
          · exact StayR.pure (Stay.refl _)
        exact hgo _

theorem stay_tickHeartbeat (e : Eng) (en : Bool) (iv : Nat) : StayR id e (e.tickHeartbeat dbg now en iv) := by
  unfold tickHeartbeat
  split
  · exact StayR.pure (Stay.refl _)
  · split
    · dsimp only
      split
      · exact StayR.bindE id (stay_coreHeartbeat _) fun e1 => StayR.pure (stay_same (by stay))
      · exact StayR.bindE id (StayR.pure (Stay.refl _)) fun e1 => StayR.pure (stay_same (by stay))
    · exact StayR.pure (Stay.refl _)

theorem stay_input (e : Eng) (i : Input) (hi : Input.noReport i = true) : StayR id e (e.input dbg now i) := by
  cases i with
  | appendReq tx v prev es lc => exact stay_handleAppend _ _ _ _ _ _
  | voteReq tx v last =>
    simp only [input, coreVoteReq]
    exact StayR.bindE Prod.snd (stay_handleVoteReq _ _ _) fun p => StayR.pure (stay_push _ _)
  | snapReq tx v m => exact stay_handleInstall _ _ _ _
  | init tx m =>
    simp only [input, coreInit]
    exact StayR.bindE Prod.snd (stay_initCluster _ _) fun p => StayR.pure (stay_push _ _)
  | write p =>
    simp only [input]
    exact StayR.bindE Prod.snd (stay_writeEntry _ _) fun p => StayR.pure (Stay.refl _)
  | change c r =>
    simp only [input]
    refine StayR.bindE Prod.snd ?_ fun p => StayR.pure (Stay.refl _)
    unfold changeMembership
    split
    · exact StayR.pure (Stay.refl _)
    · exact stay_writeEntry _ _
  | handleTransfer v target =>
    simp only [input, coreHandleTransfer]
    split
    · split
      · exact StayR.from' (stay_same (by stay)) (stay_elect _)
      · exact StayR.pure (stay_same (by stay))
    · exact StayR.pure (Stay.refl _)
  | electCmd =>
    simp only [input, coreElect]
    split
    · exact stay_elect _
    · exact StayR.pure (Stay.refl _)
  | heartbeatCmd => exact stay_coreHeartbeat _
  | snapshotCmd => exact StayR.pure (stay_triggerSnapshot _)
  | purgeCmd i => exact stay_triggerPurge _ _
  | transferCmd t => exact stay_triggerTransfer _ _
  | voteResp target v last granted sender =>
    simp only [input]
    split
    · exact stay_handleVoteResp _ _ _ _ _
    · exact StayR.pure (Stay.refl _)
  | higherVote v sender =>
    simp only [input]
    split
    · exact StayR.bindE Prod.snd (stay_updateVote _ _) fun p => StayR.pure (Stay.refl _)
    · exact StayR.pure (Stay.refl _)
  | tick el hb iv =>
    simp only [input, coreTick]
    refine StayR.bindE id (stay_tickElection _ _) fun e1 => StayR.bindE id (stay_tickHeartbeat _ _ _) fun e2 => ?_
    split
    · exact stay_leaderStepDown _
    · exact StayR.pure (Stay.refl _)
  | localIO io => cases hi
  | replProgress s target r =>
    simp only [input, coreReplProgress]
    split
    · exact StayR.bind fun l h_l => stay_rhUpdateProgress _ _ _ _
    · exact StayR.pure (Stay.refl _)
  | hbProgress s target t =>
    simp only [input, coreHbProgress]
    split
    · exact StayR.bind fun l h_l => stay_rhUpdateClock _ _ _ _
    · exact StayR.pure (Stay.refl _)
  | built m => cases hi
  | installed io m => cases hi
  | applied last => cases hi
  | initiate =>
    simp only [input, coreInitiate]
    refine StayR.bind fun o h_o => ?_
    split
    · exact StayR.pure (Stay.refl _)
    · exact stay_rhInitiate _ _

end Eng

/-- the snapshot is unchanged -/
def Keeps (e e' : Eng) : Prop := e'.theSnap = e.theSnap

theorem Keeps.refl (e : Eng) : Keeps e e := rfl
theorem Keeps.trans {a b c : Eng} (h : Keeps a b) (k : Keeps b c) : Keeps a c := Eq.trans k h

/-- `Keeps` for a result, `π` picks the engine -/
def KeepsR {α : Type} (π : α → Eng) (e : Eng) (r : Res α) : Prop := ∀ a, r = .ok a → Keeps e (π a)

namespace KeepsR
variable {α β : Type} {π : α → Eng} {e : Eng}

theorem pure {a : α} (h : Keeps e (π a)) : KeepsR π e (Pure.pure a) := by
  intro b hb; rw [pure_ok] at hb; subst hb; exact h

theorem bind {x : Res β} {f : β → Res α} (h : ∀ b, x = .ok b → KeepsR π e (f b)) : KeepsR π e (x >>= f) := by
  intro a ha; rw [bind_ok] at ha
  obtain ⟨b, hx, hb⟩ := ha; exact h b hx a hb

theorem bindE (π' : β → Eng) {x : Res β} {f : β → Res α} (hx : KeepsR π' e x) (h : ∀ b, KeepsR π (π' b) (f b)) :
    KeepsR π e (x >>= f) := by
  intro a ha; rw [bind_ok] at ha
  obtain ⟨b, hx', hb⟩ := ha; exact (hx b hx').trans (h b a hb)

theorem from' {e1 : Eng} {r : Res α} (h : Keeps e e1) (k : KeepsR π e1 r) : KeepsR π e r :=
  fun a ha => h.trans (k a ha)

end KeepsR

namespace Eng
variable {dbg : Bool} {now : Nat}

theorem keeps_push (e : Eng) (c : Cmd) : Keeps e (e.push c) := rfl

theorem keeps_upd {e e1 : Eng} (c : Cmd) (h : Keeps e e1) : Keeps e (e1.push c) := h.trans (keeps_push _ _)

theorem keeps_snap {e e1 : Eng} (h : Keeps e e1) : e1.st.snap = e.st.snap := h

theorem keeps_same {e e1 : Eng} (h1 : Eng.theSnap e1 = Eng.theSnap e) : Keeps e e1 := h1

theorem keeps_logPurge (e : Eng) : Keeps e e.logPurge := by
  unfold logPurge
  split
  · exact Keeps.refl _
  · split
    · exact Keeps.refl _
    · exact keeps_upd _ (keeps_same (by keeps))

theorem keeps_updatePurgeUpto (e : Eng) (x : LogId) : KeepsR id e (e.updatePurgeUpto dbg x) := by
  unfold updatePurgeUpto
  exact KeepsR.bind fun _ _ => KeepsR.pure (keeps_same (by keeps))

theorem keeps_schedulePurge (e : Eng) : KeepsR id e (e.schedulePurge dbg) := by
  unfold schedulePurge
  refine KeepsR.bind fun o h_o => ?_
  split
  · exact keeps_updatePurgeUpto _ _
  · exact KeepsR.pure (Keeps.refl _)

theorem keeps_triggerSnapshot (e : Eng) : Keeps e e.triggerSnapshot := by
  unfold triggerSnapshot
  split
  · exact Keeps.refl _
  · exact keeps_upd _ (keeps_same (by keeps))

theorem keeps_maybeSnapshot (e : Eng) : Keeps e e.maybeSnapshot := by
  unfold maybeSnapshot
  split
  · exact keeps_triggerSnapshot _
  · exact Keeps.refl _

theorem keeps_rhRebuildStreams (e : Eng) (l : Leader) : Keeps e (e.rhRebuildStreams l) := by
  unfold rhRebuildStreams
  exact keeps_upd _ (keeps_same (by keeps))

theorem keeps_rhInitiate (e : Eng) (l : Leader) : KeepsR id e (e.rhInitiate dbg l) := by
  unfold rhInitiate
  refine KeepsR.bind fun p h_p => ?_
  exact KeepsR.pure (by keeps)

theorem keeps_rhAppendMembership (e : Eng) (l : Leader) (i : LogId) (m : Membership) :
    KeepsR id e (e.rhAppendMembership dbg l i m) := by
  unfold rhAppendMembership
  refine KeepsR.bind fun _ _ => KeepsR.bind fun _ _ => KeepsR.bind fun ms h_ms => KeepsR.bind fun l2 h_l2 => ?_
  refine KeepsR.from' ?_ (keeps_rhInitiate _ _)
  exact (keeps_same (e1 := { e with st := { e.st with ms := ms } }) (by keeps)).trans (keeps_rhRebuildStreams _ _)

theorem keeps_rhTryCommit (e : Eng) (g : Option LogId) : KeepsR id e (e.rhTryCommit dbg g) := by
  unfold rhTryCommit
  split
  · exact KeepsR.pure (Keeps.refl _)
  · split
    · refine KeepsR.bind fun p h_p => ?_
      obtain ⟨ch, st⟩ := p
      dsimp only
      split
      · exact KeepsR.pure ((keeps_upd _ (keeps_upd _ (keeps_upd _ (keeps_same (by keeps))))).trans (keeps_maybeSnapshot _))
      · exact KeepsR.pure (Keeps.refl _)
    · exact KeepsR.pure (Keeps.refl _)

theorem keeps_rhUpdateMatching (e : Eng) (l : Leader) (n : NodeId) (m : Option LogId) :
    KeepsR id e (e.rhUpdateMatching dbg l n m) := by
  unfold rhUpdateMatching
  refine KeepsR.bind fun _ _ => KeepsR.bind fun _ _ => KeepsR.bind fun en h_en => KeepsR.bind fun vp h_vp => ?_
  exact KeepsR.from' (keeps_same (by keeps)) (keeps_rhTryCommit _ _)

theorem keeps_rhUpdateConflicting (e : Eng) (l : Leader) (n : NodeId) (c : LogId) :
    KeepsR id e (e.rhUpdateConflicting dbg l n c) := by
  unfold rhUpdateConflicting
  exact KeepsR.bind fun _ _ => KeepsR.bind fun _ _ => KeepsR.pure (keeps_same (by keeps))

theorem keeps_rhTryPurge (e : Eng) (l : Leader) : Keeps e (e.rhTryPurge l) := by
  unfold rhTryPurge
  split
  · exact Keeps.refl _
  · split
    · exact Keeps.refl _
    · split
      · exact Keeps.refl _
      · exact keeps_logPurge _

theorem keeps_rhFailed (e : Eng) (l : Leader) (n : NodeId) : KeepsR id e (e.rhFailed l n) := by
  unfold rhFailed
  exact KeepsR.bind fun _ _ => KeepsR.pure (keeps_same (by keeps))

theorem keeps_rhUpdateProgress (e : Eng) (l : Leader) (n : NodeId) (r : ReplResult) :
    KeepsR id e (e.rhUpdateProgress dbg l n r) := by
  unfold rhUpdateProgress
  have hgo : ∀ x : Res Eng, KeepsR id e x → KeepsR id e (x >>= fun e1 => (unwrap e1.leader >>= fun l1 => (pure (rhTryPurge e1 l1) : Res Eng))) :=
    fun x hx => KeepsR.bindE id hx fun b => KeepsR.bind fun l1 h_l1 => KeepsR.pure (keeps_rhTryPurge _ _)
  cases r with
  | matching m => exact hgo _ (keeps_rhUpdateMatching _ _ _ _)
  | conflict c => exact hgo _ (keeps_rhUpdateConflicting _ _ _ _)
  | failed => exact hgo _ (keeps_rhFailed _ _ _)

theorem keeps_rhUpdateClock (e : Eng) (l : Leader) (n : NodeId) (t : Nat) : KeepsR id e (e.rhUpdateClock l n t) := by
  unfold rhUpdateClock
  exact KeepsR.bind fun _ _ => KeepsR.pure (keeps_same (by keeps))

theorem keeps_rhUpdateLocal (e : Eng) (l : Leader) (u : Option LogId) : KeepsR id e (e.rhUpdateLocal dbg l u) := by
  unfold rhUpdateLocal
  split
  · exact KeepsR.pure (Keeps.refl _)
  · split
    · split
      · exact KeepsR.pure (Keeps.refl _)
      · exact keeps_rhUpdateMatching _ _ _ _
    · exact KeepsR.pure (Keeps.refl _)

theorem keeps_lhMembership (e : Eng) (l : Leader) (m : Option StoredMem) : KeepsR id e (e.lhMembership dbg l m) := by
  unfold lhMembership
  split
  · exact keeps_rhAppendMembership _ _ _ _
  · exact KeepsR.pure (Keeps.refl _)

theorem keeps_lhAppend (e : Eng) (l : Leader) (ps : List Payload) : KeepsR id e (e.lhAppend dbg l ps) := by
  unfold lhAppend
  split
  · exact KeepsR.pure (Keeps.refl _)
  · refine KeepsR.bind fun _ _ => KeepsR.bind fun ids h_ids => KeepsR.bind fun _ _ => KeepsR.bind fun st h_st => ?_
    refine KeepsR.from' (keeps_upd _ (keeps_same (by keeps))) (KeepsR.bindE id (keeps_lhMembership _ _ _) fun e2 => ?_)
    exact KeepsR.bind fun l2 h_l2 => keeps_rhInitiate _ _

theorem keeps_lhTransfer (e : Eng) (l : Leader) (t : NodeId) : Keeps e (e.lhTransfer l t) :=
  keeps_upd _ (keeps_same (by keeps))

theorem keeps_updateServerState (e : Eng) : Keeps e e.updateServerState := keeps_same (by keeps)

theorem keeps_becomeNewLeader (e : Eng) : KeepsR id e (e.becomeNewLeader dbg now) := by
  unfold becomeNewLeader
  refine KeepsR.bind fun l h_l => KeepsR.bind fun st h_st => KeepsR.bind fun l2 h_l2 => ?_
  have h1 : Keeps e (rhRebuildStreams (updateServerState (Eng.push { e with st := st, leader := some l } (.updateIO none (IOId.newLog l.vote l.lastLogId)))) l) :=
    ((keeps_upd _ (keeps_same (by keeps))).trans (keeps_updateServerState _)).trans (keeps_rhRebuildStreams _ _)
  split
  · exact KeepsR.from' h1 (keeps_lhAppend _ _ _)
  · exact KeepsR.from' h1 (keeps_rhInitiate _ _)

theorem keeps_becomeLeader (e : Eng) : KeepsR id e (e.becomeLeader dbg now) := by
  unfold becomeLeader
  split
  · split
    · exact KeepsR.pure (keeps_same (by keeps))
    · exact keeps_becomeNewLeader _
  · exact keeps_becomeNewLeader _

theorem keeps_becomeFollowing (e : Eng) : KeepsR id e (e.becomeFollowing dbg) := by
  unfold becomeFollowing
  exact KeepsR.bind fun _ _ => KeepsR.pure (keeps_same (by keeps))

theorem keeps_updateInternal (e : Eng) : KeepsR id e (e.updateInternal dbg now) := by
  unfold updateInternal
  split
  · exact keeps_becomeLeader _
  · split
    · exact KeepsR.pure (Keeps.refl _)
    · exact keeps_becomeFollowing _

theorem keeps_storeVote (e : Eng) (lease : Nat) (v : Vote) : KeepsR id e (e.storeVote dbg now lease v) := by
  unfold storeVote
  split
  · exact KeepsR.bind fun st h_st => KeepsR.pure (keeps_upd _ (keeps_same (by keeps)))
  · exact KeepsR.bind fun vt h_vt => KeepsR.pure (keeps_same (by keeps))

theorem keeps_updateVote (e : Eng) (v : Vote) : KeepsR Prod.snd e (e.updateVote dbg now v) := by
  unfold updateVote
  split
  · refine KeepsR.bindE id (keeps_storeVote _ _ _) fun e1 => KeepsR.bindE id (keeps_updateInternal _) fun e2 => ?_
    exact KeepsR.pure (Keeps.refl _)
  · exact KeepsR.pure (Keeps.refl _)

theorem keeps_fhTruncate (e : Eng) (i : Nat) : KeepsR id e (e.fhTruncate dbg i) := by
  unfold fhTruncate
  refine KeepsR.bind fun _ _ => ?_
  split
  · exact KeepsR.pure (Keeps.refl _)
  · refine KeepsR.bind fun ms h_ms => ?_
    dsimp only
    split
    · exact KeepsR.pure ((keeps_upd _ (keeps_same (by keeps))).trans (keeps_updateServerState _))
    · exact KeepsR.pure (keeps_upd _ (keeps_same (by keeps)))

theorem keeps_fhAppendMembership (e : Eng) (es : List Ent) : KeepsR id e (e.fhAppendMembership dbg es) := by
  unfold fhAppendMembership
  split
  · exact KeepsR.pure (Keeps.refl _)
  · exact KeepsR.bind fun ms h_ms => KeepsR.pure (keeps_same (by keeps))

theorem keeps_fhDoAppend (e : Eng) (v : Vote) (es : List Ent) : KeepsR id e (e.fhDoAppend dbg v es) := by
  unfold fhDoAppend
  refine KeepsR.bind fun _ _ => KeepsR.bind fun _ _ => KeepsR.bind fun _ _ => ?_
  refine KeepsR.from' (e1 := { e with st := { e.st with logIds := LogIdList.extend e.st.logIds (es.map (·.id)) } })
    (keeps_same (by keeps)) (KeepsR.bindE id (keeps_fhAppendMembership _ _) fun e1 => KeepsR.pure (keeps_push _ _))

theorem keeps_fhAppendEntries (e : Eng) (v : Vote) (prev : Option LogId) (es : List Ent) :
    KeepsR id e (e.fhAppendEntries dbg v prev es) := by
  unfold fhAppendEntries
  refine KeepsR.bind fun _ _ => KeepsR.bind fun st h_st => KeepsR.bind fun since h_since => ?_
  split
  · refine KeepsR.from' (e1 := { e with st := st }) (keeps_same (by keeps))
      (KeepsR.bindE id (keeps_fhTruncate _ _) fun e1 => keeps_fhDoAppend _ _ _)
  · split
    · exact KeepsR.pure (keeps_same (by keeps))
    · exact KeepsR.pure (keeps_upd _ (keeps_same (by keeps)))

theorem keeps_fhEnsure (e : Eng) (prev : Option LogId) : KeepsR Prod.snd e (e.fhEnsure dbg prev) := by
  unfold fhEnsure
  split
  · exact KeepsR.pure (Keeps.refl _)
  · refine KeepsR.bind fun b h_b => ?_
    split
    · exact KeepsR.pure (Keeps.refl _)
    · exact KeepsR.bindE id (keeps_fhTruncate _ _) fun e1 => KeepsR.pure (Keeps.refl _)

theorem keeps_fhCommit (e : Eng) (lc : Option LogId) : KeepsR id e (e.fhCommit dbg lc) := by
  unfold fhCommit
  refine KeepsR.bind fun p h_p => ?_
  obtain ⟨ch, st⟩ := p
  dsimp only
  split
  · refine KeepsR.bind fun i h_i => ?_
    exact KeepsR.pure ((keeps_upd _ (keeps_upd _ (keeps_same (by keeps)))).trans (keeps_maybeSnapshot _))
  · exact KeepsR.pure (Keeps.refl _)

theorem keeps_fhInstallTruncate (e : Eng) (l : LogId) : KeepsR id e (e.fhInstallTruncate dbg l) := by
  unfold fhInstallTruncate
  split
  · split
    · exact keeps_fhTruncate _ _
    · exact KeepsR.pure (Keeps.refl _)
  · exact KeepsR.pure (Keeps.refl _)

theorem keeps_startup (e : Eng) : KeepsR id e (e.startup dbg now) := by
  unfold startup
  split
  · exact keeps_updateInternal _
  · exact KeepsR.pure (keeps_same (by keeps))

theorem keeps_elect (e : Eng) : KeepsR id e (e.elect dbg now) := by
  unfold elect
  refine KeepsR.from' (e1 := { e with candidate := some (Candidate.new now (Vote.new (e.st.vote.data.leaderId.term + 1) e.cfg.id) e.st.lastLogId e.st.ms.effective.mem) })
    (keeps_same (by keeps)) (KeepsR.bindE Prod.snd (keeps_updateVote _ _) fun p => ?_)
  obtain ⟨ok, e2⟩ := p
  refine KeepsR.bind fun _ _ => KeepsR.pure ?_
  exact (keeps_push _ _).trans (keeps_updateServerState _)

theorem keeps_initCluster (e : Eng) (m : Membership) : KeepsR Prod.snd e (e.initCluster dbg now m) := by
  unfold initCluster
  split
  · exact KeepsR.pure (Keeps.refl _)
  · split
    · exact KeepsR.pure (Keeps.refl _)
    · refine KeepsR.bind fun v h_v => ?_
      refine KeepsR.from' (e1 := { e with st := { e.st with vote := e.st.vote.update now 0 ⟨⟨0, 0⟩, true⟩ } })
        (keeps_same (by keeps)) (KeepsR.bindE id (keeps_fhDoAppend _ _ _) fun e2 => KeepsR.bindE id (keeps_elect _) fun e3 => ?_)
      exact KeepsR.pure (Keeps.refl _)

theorem keeps_handleVoteReq (e : Eng) (v : Vote) (last : Option LogId) :
    KeepsR Prod.snd e (e.handleVoteReq dbg now v last) := by
  unfold handleVoteReq
  split
  · exact KeepsR.pure (Keeps.refl _)
  · split
    · refine KeepsR.bindE Prod.snd (keeps_updateVote _ _) fun p => ?_
      exact KeepsR.pure (Keeps.refl _)
    · exact KeepsR.pure (Keeps.refl _)

theorem keeps_establishLeader (e : Eng) : KeepsR id e (e.establishLeader dbg now) := by
  unfold establishLeader
  refine KeepsR.bind fun c h_c => KeepsR.bind fun o h_o => ?_
  split
  · exact KeepsR.pure (keeps_same (by keeps))
  · next l =>
    refine KeepsR.from' (e1 := rhRebuildStreams { e with candidate := none, leader := some l } l)
      ((keeps_same (by keeps)).trans (keeps_rhRebuildStreams _ _)) (KeepsR.bindE Prod.snd (keeps_updateVote _ _) fun p => ?_)
    obtain ⟨ok, e2⟩ := p
    refine KeepsR.bind fun _ _ => KeepsR.bind fun st h_st => KeepsR.bind fun lo h_lo => KeepsR.bind fun l3 h_l3 => ?_
    exact KeepsR.from' (keeps_same (by keeps)) (keeps_lhAppend _ _ _)

theorem keeps_handleVoteResp (e : Eng) (t : NodeId) (v : Vote) (last : Option LogId) (g : Bool) :
    KeepsR id e (e.handleVoteResp dbg now t v last g) := by
  unfold handleVoteResp
  split
  · exact KeepsR.pure (Keeps.refl _)
  · split
    · refine KeepsR.bind fun c1 h_c1 => ?_
      dsimp only
      split
      · exact KeepsR.from' (keeps_same (by keeps)) (keeps_establishLeader _)
      · exact KeepsR.pure (keeps_same (by keeps))
    · refine KeepsR.from' (e1 := if e.st.lastLogId < last then { e with seenGreater := true } else e) ?_
        (KeepsR.bindE Prod.snd (keeps_updateVote _ _) fun p => KeepsR.pure (Keeps.refl _))
      split
      · exact keeps_same (by keeps)
      · exact Keeps.refl _

theorem keeps_appendEntries (e : Eng) (v : Vote) (prev : Option LogId) (es : List Ent) :
    KeepsR Prod.snd e (e.appendEntries dbg now v prev es) := by
  unfold appendEntries
  refine KeepsR.bindE Prod.snd (keeps_updateVote _ _) fun p => ?_
  obtain ⟨ok, e1⟩ := p
  dsimp only
  split
  · refine KeepsR.bind fun lv h_lv => KeepsR.bindE Prod.snd (keeps_fhEnsure _ _) fun p => ?_
    obtain ⟨ok2, e2⟩ := p
    dsimp only
    split
    · exact KeepsR.bindE id (keeps_fhAppendEntries _ _ _ _) fun e3 => KeepsR.pure (Keeps.refl _)
    · exact KeepsR.pure (Keeps.refl _)
  · exact KeepsR.pure (Keeps.refl _)

theorem keeps_handleAppend (e : Eng) (tx : Nat) (v : Vote) (prev : Option LogId) (es : List Ent) (lc : Option LogId) :
    KeepsR id e (e.handleAppend dbg now tx v prev es lc) := by
  unfold handleAppend
  refine KeepsR.bindE Prod.snd (keeps_appendEntries _ _ _ _) fun p => ?_
  obtain ⟨r, e1⟩ := p
  dsimp only
  split
  · refine KeepsR.bind fun acc h_acc => KeepsR.bind fun _ _ => ?_
    exact KeepsR.from' (keeps_push _ _) (keeps_fhCommit _ _)
  · exact KeepsR.pure (keeps_push _ _)

theorem keeps_leaderStepDown (e : Eng) : KeepsR id e (e.leaderStepDown dbg now) := by
  unfold leaderStepDown
  split
  · exact keeps_updateInternal _
  · exact KeepsR.pure (Keeps.refl _)

theorem keeps_tryPurge (e : Eng) : Keeps e e.tryPurge := by
  unfold tryPurge
  split
  · exact keeps_rhTryPurge _ _
  · exact keeps_logPurge _

theorem keeps_triggerPurge (e : Eng) (i : Nat) : KeepsR id e (e.triggerPurge dbg i) := by
  unfold triggerPurge
  split
  · exact KeepsR.pure (Keeps.refl _)
  · split
    · exact KeepsR.pure (Keeps.refl _)
    · exact KeepsR.bind fun x h_x => KeepsR.bindE id (keeps_updatePurgeUpto _ _) fun e1 => KeepsR.pure (keeps_tryPurge _)

theorem keeps_triggerTransfer (e : Eng) (t : NodeId) : KeepsR id e (e.triggerTransfer dbg t) := by
  unfold triggerTransfer
  refine KeepsR.bind fun o h_o => ?_
  split
  · exact KeepsR.pure (Keeps.refl _)
  · exact KeepsR.pure (keeps_lhTransfer _ _ _)

theorem keeps_writeEntry (e : Eng) (p : Payload) : KeepsR Prod.snd e (e.writeEntry dbg p) := by
  unfold writeEntry
  refine KeepsR.bind fun o h_o => ?_
  split
  · exact KeepsR.pure (Keeps.refl _)
  · split
    · exact KeepsR.pure (Keeps.refl _)
    · exact KeepsR.bindE id (keeps_lhAppend _ _ _) fun e1 => KeepsR.bind fun l h_l => KeepsR.pure (Keeps.refl _)

theorem keeps_coreHeartbeat (e : Eng) : KeepsR id e (e.coreHeartbeat dbg) := by
  unfold coreHeartbeat
  refine KeepsR.bind fun o h_o => ?_
  split
  · exact KeepsR.pure (Keeps.refl _)
  · split
    · exact KeepsR.pure (Keeps.refl _)
    · exact KeepsR.pure (keeps_push _ _)

theorem keeps_tickElection (e : Eng) (en : Bool) : KeepsR id e (e.tickElection dbg now en) := by
  unfold tickElection
  split
  · exact KeepsR.pure (Keeps.refl _)
  · split
    · exact KeepsR.pure (Keeps.refl _)
    · split
      · exact KeepsR.pure (Keeps.refl _)
      · have hgo : ∀ b : Bool, KeepsR id e (if b = true then elect dbg now { e with seenGreater := false } else pure e) := by
          intro b
          split
          · exact KeepsR.from' (keeps_same (by keeps)) (keeps_elect _)
          · exact KeepsR.pure (Keeps.refl _)
        exact hgo _

theorem keeps_tickHeartbeat (e : Eng) (en : Bool) (iv : Nat) : KeepsR id e (e.tickHeartbeat dbg now en iv) := by
  unfold tickHeartbeat
  split
  · exact KeepsR.pure (Keeps.refl _)
  · split
    · dsimp only
      split
      · exact KeepsR.bindE id (keeps_coreHeartbeat _) fun e1 => KeepsR.pure (keeps_same (by keeps))
      · exact KeepsR.bindE id (KeepsR.pure (Keeps.refl _)) fun e1 => KeepsR.pure (keeps_same (by keeps))
    · exact KeepsR.pure (Keeps.refl _)

theorem keeps_input (e : Eng) (i : Input) (hi : Input.noSnap i = true) : KeepsR id e (e.input dbg now i) := by
  cases i with
  | appendReq tx v prev es lc => exact keeps_handleAppend _ _ _ _ _ _
  | voteReq tx v last =>
    simp only [input, coreVoteReq]
    exact KeepsR.bindE Prod.snd (keeps_handleVoteReq _ _ _) fun p => KeepsR.pure (keeps_push _ _)
  | snapReq tx v m => cases hi
  | init tx m =>
    simp only [input, coreInit]
    exact KeepsR.bindE Prod.snd (keeps_initCluster _ _) fun p => KeepsR.pure (keeps_push _ _)
  | write p =>
    simp only [input]
    exact KeepsR.bindE Prod.snd (keeps_writeEntry _ _) fun p => KeepsR.pure (Keeps.refl _)
  | change c r =>
    simp only [input]
    refine KeepsR.bindE Prod.snd ?_ fun p => KeepsR.pure (Keeps.refl _)
    unfold changeMembership
    split
    · exact KeepsR.pure (Keeps.refl _)
    · exact keeps_writeEntry _ _
  | handleTransfer v target =>
    simp only [input, coreHandleTransfer]
    split
    · split
      · exact KeepsR.from' (keeps_same (by keeps)) (keeps_elect _)
      · exact KeepsR.pure (keeps_same (by keeps))
    · exact KeepsR.pure (Keeps.refl _)
  | electCmd =>
    simp only [input, coreElect]
    split
    · exact keeps_elect _
    · exact KeepsR.pure (Keeps.refl _)
  | heartbeatCmd => exact keeps_coreHeartbeat _
  | snapshotCmd => exact KeepsR.pure (keeps_triggerSnapshot _)
  | purgeCmd i => exact keeps_triggerPurge _ _
  | transferCmd t => exact keeps_triggerTransfer _ _
  | voteResp target v last granted sender =>
    simp only [input]
    split
    · exact keeps_handleVoteResp _ _ _ _ _
    · exact KeepsR.pure (Keeps.refl _)
  | higherVote v sender =>
    simp only [input]
    split
    · exact KeepsR.bindE Prod.snd (keeps_updateVote _ _) fun p => KeepsR.pure (Keeps.refl _)
    · exact KeepsR.pure (Keeps.refl _)
  | tick el hb iv =>
    simp only [input, coreTick]
    refine KeepsR.bindE id (keeps_tickElection _ _) fun e1 => KeepsR.bindE id (keeps_tickHeartbeat _ _ _) fun e2 => ?_
    split
    · exact keeps_leaderStepDown _
    · exact KeepsR.pure (Keeps.refl _)
  | localIO io =>
    simp only [input, coreLocalIO]
    refine KeepsR.bind fun p h_p => ?_
    split
    · split
      · split
        · exact KeepsR.from' (e1 := e.withProg p) (keeps_same (by keeps)) (keeps_rhUpdateLocal _ _ _)
        · exact KeepsR.pure (keeps_same (by keeps))
      · exact KeepsR.pure (keeps_same (by keeps))
    · exact KeepsR.pure (keeps_same (by keeps))
  | replProgress s target r =>
    simp only [input, coreReplProgress]
    split
    · exact KeepsR.bind fun l h_l => keeps_rhUpdateProgress _ _ _ _
    · exact KeepsR.pure (Keeps.refl _)
  | hbProgress s target t =>
    simp only [input, coreHbProgress]
    split
    · exact KeepsR.bind fun l h_l => keeps_rhUpdateClock _ _ _ _
    · exact KeepsR.pure (Keeps.refl _)
  | built m => cases hi
  | installed io m =>
    simp only [input, coreInstalled]
    exact KeepsR.bind fun p h_p => KeepsR.bind fun s1 h_s1 => KeepsR.bind fun s2 h_s2 => KeepsR.pure (keeps_same (by keeps))
  | applied last =>
    simp only [input, coreApplied]
    exact KeepsR.bind fun s h_s => KeepsR.pure (keeps_same (by keeps))
  | initiate =>
    simp only [input, coreInitiate]
    refine KeepsR.bind fun o h_o => ?_
    split
    · exact KeepsR.pure (Keeps.refl _)
    · exact keeps_rhInitiate _ _

end Eng
end Openraft.Engine
