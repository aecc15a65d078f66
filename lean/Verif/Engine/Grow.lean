import Verif.Engine.Basic
import Verif.Engine.Input

/-!
# Handlers only add commands

Every handler keeps the configuration and appends to the list of commands.
-/

set_option autoImplicit false

namespace Openraft.Engine
open Openraft.Repl (Panic dassert Inflight)
open Openraft.Cluster (Payload)

/-- same configuration, and the commands are extended -/
def Grow (e e' : Eng) : Prop := e'.cfg = e.cfg ∧ e.out <+: e'.out

theorem Grow.refl (e : Eng) : Grow e e := ⟨rfl, List.prefix_rfl⟩
theorem Grow.trans {a b c : Eng} (h : Grow a b) (k : Grow b c) : Grow a c := ⟨k.1.trans h.1, h.2.trans k.2⟩

/-- `Grow` for a result, `π` picks the engine -/
def GrowR {α : Type} (π : α → Eng) (e : Eng) (r : Res α) : Prop := ∀ a, r = .ok a → Grow e (π a)

namespace GrowR
variable {α β : Type} {π : α → Eng} {e : Eng}

theorem pure {a : α} (h : Grow e (π a)) : GrowR π e (Pure.pure a) := by
  intro b hb; rw [pure_ok] at hb; subst hb; exact h

theorem ok {a : α} (h : Grow e (π a)) : GrowR π e (Except.ok a) := by
  intro b hb; cases hb; exact h

theorem bind {x : Res β} {f : β → Res α} (h : ∀ b, GrowR π e (f b)) : GrowR π e (x >>= f) := by
  intro a ha; rw [bind_ok] at ha
  obtain ⟨b, _, hb⟩ := ha; exact h b a hb

theorem bindE (π' : β → Eng) {x : Res β} {f : β → Res α} (hx : GrowR π' e x) (h : ∀ b, GrowR π (π' b) (f b)) :
    GrowR π e (x >>= f) := by
  intro a ha; rw [bind_ok] at ha
  obtain ⟨b, hx', hb⟩ := ha; exact (hx b hx').trans (h b a hb)

theorem from' {e1 : Eng} {r : Res α} (h : Grow e e1) (k : GrowR π e1 r) : GrowR π e r :=
  fun a ha => h.trans (k a ha)

theorem rebase {e1 : Eng} {r : Res α} (h : GrowR π e1 r) (k : Grow e e1) : GrowR π e r := from' k h

end GrowR

namespace Eng
variable {dbg : Bool} {now : Nat}

theorem grow_push (e : Eng) (c : Cmd) : Grow e (e.push c) := ⟨rfl, List.prefix_append _ _⟩

theorem grow_upd {e e1 : Eng} (c : Cmd) (h : Grow e e1) : Grow e (e1.push c) := h.trans (grow_push _ _)

theorem grow_same {e e1 : Eng} (h1 : e1.cfg = e.cfg) (h2 : e1.out = e.out) : Grow e e1 :=
  ⟨h1, by rw [h2]; exact List.prefix_rfl⟩

theorem grow_logPurge (e : Eng) : Grow e e.logPurge := by
  unfold logPurge
  split
  · exact Grow.refl _
  · split
    · exact Grow.refl _
    · exact grow_upd _ (grow_same rfl rfl)

theorem grow_updatePurgeUpto (e : Eng) (x : LogId) : GrowR id e (e.updatePurgeUpto dbg x) := by
  unfold updatePurgeUpto
  exact GrowR.bind fun _ => GrowR.pure (grow_same rfl rfl)

theorem grow_schedulePurge (e : Eng) : GrowR id e (e.schedulePurge dbg) := by
  unfold schedulePurge
  refine GrowR.bind fun o => ?_
  split
  · exact grow_updatePurgeUpto _ _
  · exact GrowR.pure (Grow.refl _)

theorem grow_triggerSnapshot (e : Eng) : Grow e e.triggerSnapshot := by
  unfold triggerSnapshot
  split
  · exact Grow.refl _
  · exact grow_upd _ (grow_same rfl rfl)

theorem grow_updateSnapshot (e : Eng) (m : SnapMeta) : Grow e (e.updateSnapshot m).2 := by
  unfold updateSnapshot
  split
  · exact Grow.refl _
  · exact grow_same rfl rfl

theorem grow_maybeSnapshot (e : Eng) : Grow e e.maybeSnapshot := by
  unfold maybeSnapshot
  split
  · exact grow_triggerSnapshot _
  · exact Grow.refl _

theorem grow_rhRebuildStreams (e : Eng) (l : Leader) : Grow e (e.rhRebuildStreams l) := by
  unfold rhRebuildStreams
  exact grow_upd _ (grow_same rfl rfl)

theorem grow_rhInitiate (e : Eng) (l : Leader) : GrowR id e (e.rhInitiate dbg l) := by
  unfold rhInitiate
  refine GrowR.bind fun p => ?_
  exact GrowR.pure ⟨rfl, List.prefix_append _ _⟩

theorem grow_rhAppendMembership (e : Eng) (l : Leader) (i : LogId) (m : Membership) :
    GrowR id e (e.rhAppendMembership dbg l i m) := by
  unfold rhAppendMembership
  refine GrowR.bind fun _ => GrowR.bind fun _ => GrowR.bind fun ms => GrowR.bind fun l2 => ?_
  refine GrowR.from' ?_ (grow_rhInitiate _ _)
  exact (grow_same (e1 := { e with st := { e.st with ms := ms } }) rfl rfl).trans (grow_rhRebuildStreams _ _)

theorem grow_rhTryCommit (e : Eng) (g : Option LogId) : GrowR id e (e.rhTryCommit dbg g) := by
  unfold rhTryCommit
  split
  · exact GrowR.pure (Grow.refl _)
  · split
    · refine GrowR.bind fun p => ?_
      obtain ⟨ch, st⟩ := p
      dsimp only
      split
      · exact GrowR.pure ((grow_upd _ (grow_upd _ (grow_upd _ (grow_same rfl rfl)))).trans (grow_maybeSnapshot _))
      · exact GrowR.pure (Grow.refl _)
    · exact GrowR.pure (Grow.refl _)

theorem grow_rhUpdateMatching (e : Eng) (l : Leader) (n : NodeId) (m : Option LogId) :
    GrowR id e (e.rhUpdateMatching dbg l n m) := by
  unfold rhUpdateMatching
  refine GrowR.bind fun _ => GrowR.bind fun _ => GrowR.bind fun en => GrowR.bind fun vp => ?_
  exact GrowR.from' (grow_same rfl rfl) (grow_rhTryCommit _ _)

theorem grow_rhUpdateConflicting (e : Eng) (l : Leader) (n : NodeId) (c : LogId) :
    GrowR id e (e.rhUpdateConflicting dbg l n c) := by
  unfold rhUpdateConflicting
  exact GrowR.bind fun _ => GrowR.bind fun _ => GrowR.pure (grow_same rfl rfl)

theorem grow_rhTryPurge (e : Eng) (l : Leader) : Grow e (e.rhTryPurge l) := by
  unfold rhTryPurge
  split
  · exact Grow.refl _
  · split
    · exact Grow.refl _
    · split
      · exact Grow.refl _
      · exact grow_logPurge _

theorem grow_rhFailed (e : Eng) (l : Leader) (n : NodeId) : GrowR id e (e.rhFailed l n) := by
  unfold rhFailed
  exact GrowR.bind fun _ => GrowR.pure (grow_same rfl rfl)

theorem grow_rhUpdateProgress (e : Eng) (l : Leader) (n : NodeId) (r : ReplResult) :
    GrowR id e (e.rhUpdateProgress dbg l n r) := by
  unfold rhUpdateProgress
  have hgo : ∀ x : Res Eng, GrowR id e x → GrowR id e (x >>= fun e1 => (unwrap e1.leader >>= fun l1 => (pure (rhTryPurge e1 l1) : Res Eng))) :=
    fun x hx => GrowR.bindE id hx fun b => GrowR.bind fun l1 => GrowR.pure (grow_rhTryPurge _ _)
  cases r with
  | matching m => exact hgo _ (grow_rhUpdateMatching _ _ _ _)
  | conflict c => exact hgo _ (grow_rhUpdateConflicting _ _ _ _)
  | failed => exact hgo _ (grow_rhFailed _ _ _)

theorem grow_rhUpdateClock (e : Eng) (l : Leader) (n : NodeId) (t : Nat) : GrowR id e (e.rhUpdateClock l n t) := by
  unfold rhUpdateClock
  exact GrowR.bind fun _ => GrowR.pure (grow_same rfl rfl)

theorem grow_rhUpdateLocal (e : Eng) (l : Leader) (u : Option LogId) : GrowR id e (e.rhUpdateLocal dbg l u) := by
  unfold rhUpdateLocal
  split
  · exact GrowR.pure (Grow.refl _)
  · split
    · split
      · exact GrowR.pure (Grow.refl _)
      · exact grow_rhUpdateMatching _ _ _ _
    · exact GrowR.pure (Grow.refl _)

theorem grow_lhMembership (e : Eng) (l : Leader) (m : Option StoredMem) : GrowR id e (e.lhMembership dbg l m) := by
  unfold lhMembership
  split
  · exact grow_rhAppendMembership _ _ _ _
  · exact GrowR.pure (Grow.refl _)

theorem grow_lhAppend (e : Eng) (l : Leader) (ps : List Payload) : GrowR id e (e.lhAppend dbg l ps) := by
  unfold lhAppend
  split
  · exact GrowR.pure (Grow.refl _)
  · refine GrowR.bind fun _ => GrowR.bind fun ids => GrowR.bind fun _ => GrowR.bind fun st => ?_
    refine GrowR.from' (grow_upd _ (grow_same rfl rfl)) (GrowR.bindE id (grow_lhMembership _ _ _) fun e2 => ?_)
    exact GrowR.bind fun l2 => grow_rhInitiate _ _

theorem grow_lhTransfer (e : Eng) (l : Leader) (t : NodeId) : Grow e (e.lhTransfer l t) :=
  grow_upd _ (grow_same rfl rfl)

theorem grow_updateServerState (e : Eng) : Grow e e.updateServerState := grow_same rfl rfl

theorem grow_becomeNewLeader (e : Eng) : GrowR id e (e.becomeNewLeader dbg now) := by
  unfold becomeNewLeader
  refine GrowR.bind fun l => GrowR.bind fun st => GrowR.bind fun l2 => ?_
  have h1 : Grow e (rhRebuildStreams (updateServerState (Eng.push { e with st := st, leader := some l } (.updateIO none (IOId.newLog l.vote l.lastLogId)))) l) :=
    ((grow_upd _ (grow_same rfl rfl)).trans (grow_updateServerState _)).trans (grow_rhRebuildStreams _ _)
  split
  · exact GrowR.from' h1 (grow_lhAppend _ _ _)
  · exact GrowR.from' h1 (grow_rhInitiate _ _)

theorem grow_becomeLeader (e : Eng) : GrowR id e (e.becomeLeader dbg now) := by
  unfold becomeLeader
  split
  · split
    · exact GrowR.pure (grow_same rfl rfl)
    · exact grow_becomeNewLeader _
  · exact grow_becomeNewLeader _

theorem grow_becomeFollowing (e : Eng) : GrowR id e (e.becomeFollowing dbg) := by
  unfold becomeFollowing
  exact GrowR.bind fun _ => GrowR.pure (grow_same rfl rfl)

theorem grow_updateInternal (e : Eng) : GrowR id e (e.updateInternal dbg now) := by
  unfold updateInternal
  split
  · exact grow_becomeLeader _
  · split
    · exact GrowR.pure (Grow.refl _)
    · exact grow_becomeFollowing _

theorem grow_storeVote (e : Eng) (lease : Nat) (v : Vote) : GrowR id e (e.storeVote dbg now lease v) := by
  unfold storeVote
  split
  · exact GrowR.bind fun st => GrowR.pure (grow_upd _ (grow_same rfl rfl))
  · exact GrowR.bind fun vt => GrowR.pure (grow_same rfl rfl)

theorem grow_updateVote (e : Eng) (v : Vote) : GrowR Prod.snd e (e.updateVote dbg now v) := by
  unfold updateVote
  split
  · refine GrowR.bindE id (grow_storeVote _ _ _) fun e1 => GrowR.bindE id (grow_updateInternal _) fun e2 => ?_
    exact GrowR.pure (Grow.refl _)
  · exact GrowR.pure (Grow.refl _)

theorem grow_fhTruncate (e : Eng) (i : Nat) : GrowR id e (e.fhTruncate dbg i) := by
  unfold fhTruncate
  refine GrowR.bind fun _ => ?_
  split
  · exact GrowR.pure (Grow.refl _)
  · refine GrowR.bind fun ms => ?_
    dsimp only
    split
    · exact GrowR.pure ((grow_upd _ (grow_same rfl rfl)).trans (grow_updateServerState _))
    · exact GrowR.pure (grow_upd _ (grow_same rfl rfl))

theorem grow_fhAppendMembership (e : Eng) (es : List Ent) : GrowR id e (e.fhAppendMembership dbg es) := by
  unfold fhAppendMembership
  split
  · exact GrowR.pure (Grow.refl _)
  · exact GrowR.bind fun ms => GrowR.pure (grow_same rfl rfl)

theorem grow_fhDoAppend (e : Eng) (v : Vote) (es : List Ent) : GrowR id e (e.fhDoAppend dbg v es) := by
  unfold fhDoAppend
  refine GrowR.bind fun _ => GrowR.bind fun _ => GrowR.bind fun _ => ?_
  refine GrowR.from' (e1 := { e with st := { e.st with logIds := LogIdList.extend e.st.logIds (es.map (·.id)) } })
    (grow_same rfl rfl) (GrowR.bindE id (grow_fhAppendMembership _ _) fun e1 => GrowR.pure (grow_push _ _))

theorem grow_fhAppendEntries (e : Eng) (v : Vote) (prev : Option LogId) (es : List Ent) :
    GrowR id e (e.fhAppendEntries dbg v prev es) := by
  unfold fhAppendEntries
  refine GrowR.bind fun _ => GrowR.bind fun st => GrowR.bind fun since => ?_
  split
  · refine GrowR.from' (e1 := { e with st := st }) (grow_same rfl rfl)
      (GrowR.bindE id (grow_fhTruncate _ _) fun e1 => grow_fhDoAppend _ _ _)
  · split
    · exact GrowR.pure (grow_same rfl rfl)
    · exact GrowR.pure (grow_upd _ (grow_same rfl rfl))

theorem grow_fhEnsure (e : Eng) (prev : Option LogId) : GrowR Prod.snd e (e.fhEnsure dbg prev) := by
  unfold fhEnsure
  split
  · exact GrowR.pure (Grow.refl _)
  · refine GrowR.bind fun b => ?_
    split
    · exact GrowR.pure (Grow.refl _)
    · exact GrowR.bindE id (grow_fhTruncate _ _) fun e1 => GrowR.pure (Grow.refl _)

theorem grow_fhCommit (e : Eng) (lc : Option LogId) : GrowR id e (e.fhCommit dbg lc) := by
  unfold fhCommit
  refine GrowR.bind fun p => ?_
  obtain ⟨ch, st⟩ := p
  dsimp only
  split
  · refine GrowR.bind fun i => ?_
    exact GrowR.pure ((grow_upd _ (grow_upd _ (grow_same rfl rfl))).trans (grow_maybeSnapshot _))
  · exact GrowR.pure (Grow.refl _)

theorem grow_fhInstallTruncate (e : Eng) (l : LogId) : GrowR id e (e.fhInstallTruncate dbg l) := by
  unfold fhInstallTruncate
  split
  · split
    · exact grow_fhTruncate _ _
    · exact GrowR.pure (Grow.refl _)
  · exact GrowR.pure (Grow.refl _)

theorem grow_fhInstall (e : Eng) (v : Vote) (m : SnapMeta) : GrowR Prod.snd e (e.fhInstall dbg v m) := by
  unfold fhInstall
  split
  · exact GrowR.pure (Grow.refl _)
  · refine GrowR.bind fun last => ?_
    have hu := grow_updateSnapshot e m
    split
    · next e1 he => rw [he] at hu; exact GrowR.pure hu
    · next e1 he =>
      rw [he] at hu
      refine GrowR.from' hu (GrowR.bindE id (grow_fhInstallTruncate _ _) fun e2 => ?_)
      refine GrowR.bind fun st => GrowR.bind fun ms => GrowR.pure ?_
      refine Grow.trans ?_ (grow_logPurge _)
      exact (grow_upd (e := e2) (.sm (.install m (IOId.newLog v (some last))))
        (e1 := updateServerState { e2 with st := { st with committed := some last, ms := ms } }) (grow_same rfl rfl)).trans (grow_same rfl rfl)

theorem grow_startup (e : Eng) : GrowR id e (e.startup dbg now) := by
  unfold startup
  split
  · exact grow_updateInternal _
  · exact GrowR.pure (grow_same rfl rfl)

theorem grow_elect (e : Eng) : GrowR id e (e.elect dbg now) := by
  unfold elect
  refine GrowR.from' (e1 := { e with candidate := some (Candidate.new now (Vote.new (e.st.vote.data.leaderId.term + 1) e.cfg.id) e.st.lastLogId e.st.ms.effective.mem) })
    (grow_same rfl rfl) (GrowR.bindE Prod.snd (grow_updateVote _ _) fun p => ?_)
  obtain ⟨ok, e2⟩ := p
  refine GrowR.bind fun _ => GrowR.pure ?_
  exact (grow_push _ _).trans (grow_updateServerState _)

theorem grow_initCluster (e : Eng) (m : Membership) : GrowR Prod.snd e (e.initCluster dbg now m) := by
  unfold initCluster
  split
  · exact GrowR.pure (Grow.refl _)
  · split
    · exact GrowR.pure (Grow.refl _)
    · refine GrowR.bind fun v => ?_
      refine GrowR.from' (e1 := { e with st := { e.st with vote := e.st.vote.update now 0 ⟨⟨0, 0⟩, true⟩ } })
        (grow_same rfl rfl) (GrowR.bindE id (grow_fhDoAppend _ _ _) fun e2 => GrowR.bindE id (grow_elect _) fun e3 => ?_)
      exact GrowR.pure (Grow.refl _)

theorem grow_handleVoteReq (e : Eng) (v : Vote) (last : Option LogId) :
    GrowR Prod.snd e (e.handleVoteReq dbg now v last) := by
  unfold handleVoteReq
  split
  · exact GrowR.pure (Grow.refl _)
  · split
    · refine GrowR.bindE Prod.snd (grow_updateVote _ _) fun p => ?_
      exact GrowR.pure (Grow.refl _)
    · exact GrowR.pure (Grow.refl _)

theorem grow_establishLeader (e : Eng) : GrowR id e (e.establishLeader dbg now) := by
  unfold establishLeader
  refine GrowR.bind fun c => GrowR.bind fun o => ?_
  split
  · exact GrowR.pure (grow_same rfl rfl)
  · next l =>
    refine GrowR.from' (e1 := rhRebuildStreams { e with candidate := none, leader := some l } l)
      ((grow_same rfl rfl).trans (grow_rhRebuildStreams _ _)) (GrowR.bindE Prod.snd (grow_updateVote _ _) fun p => ?_)
    obtain ⟨ok, e2⟩ := p
    refine GrowR.bind fun _ => GrowR.bind fun st => GrowR.bind fun lo => GrowR.bind fun l3 => ?_
    exact GrowR.from' (grow_same rfl rfl) (grow_lhAppend _ _ _)

theorem grow_handleVoteResp (e : Eng) (t : NodeId) (v : Vote) (last : Option LogId) (g : Bool) :
    GrowR id e (e.handleVoteResp dbg now t v last g) := by
  unfold handleVoteResp
  split
  · exact GrowR.pure (Grow.refl _)
  · split
    · refine GrowR.bind fun c1 => ?_
      dsimp only
      split
      · exact GrowR.from' (grow_same rfl rfl) (grow_establishLeader _)
      · exact GrowR.pure (grow_same rfl rfl)
    · refine GrowR.from' (e1 := if e.st.lastLogId < last then { e with seenGreater := true } else e) ?_
        (GrowR.bindE Prod.snd (grow_updateVote _ _) fun p => GrowR.pure (Grow.refl _))
      split
      · exact grow_same rfl rfl
      · exact Grow.refl _

theorem grow_appendEntries (e : Eng) (v : Vote) (prev : Option LogId) (es : List Ent) :
    GrowR Prod.snd e (e.appendEntries dbg now v prev es) := by
  unfold appendEntries
  refine GrowR.bindE Prod.snd (grow_updateVote _ _) fun p => ?_
  obtain ⟨ok, e1⟩ := p
  dsimp only
  split
  · refine GrowR.bind fun lv => GrowR.bindE Prod.snd (grow_fhEnsure _ _) fun p => ?_
    obtain ⟨ok2, e2⟩ := p
    dsimp only
    split
    · exact GrowR.bindE id (grow_fhAppendEntries _ _ _ _) fun e3 => GrowR.pure (Grow.refl _)
    · exact GrowR.pure (Grow.refl _)
  · exact GrowR.pure (Grow.refl _)

theorem grow_handleAppend (e : Eng) (tx : Nat) (v : Vote) (prev : Option LogId) (es : List Ent) (lc : Option LogId) :
    GrowR id e (e.handleAppend dbg now tx v prev es lc) := by
  unfold handleAppend
  refine GrowR.bindE Prod.snd (grow_appendEntries _ _ _ _) fun p => ?_
  obtain ⟨r, e1⟩ := p
  dsimp only
  split
  · refine GrowR.bind fun acc => GrowR.bind fun _ => ?_
    exact GrowR.from' (grow_push _ _) (grow_fhCommit _ _)
  · exact GrowR.pure (grow_push _ _)

theorem grow_handleInstall (e : Eng) (tx : Nat) (v : Vote) (m : SnapMeta) :
    GrowR id e (e.handleInstall dbg now tx v m) := by
  unfold handleInstall
  refine GrowR.bindE Prod.snd (grow_updateVote _ _) fun p => ?_
  obtain ⟨ok, e1⟩ := p
  dsimp only
  split
  · refine GrowR.bind fun lv => GrowR.bindE Prod.snd (grow_fhInstall _ _ _) fun p => ?_
    exact GrowR.pure (grow_push _ _)
  · exact GrowR.pure (grow_push _ _)

theorem grow_leaderStepDown (e : Eng) : GrowR id e (e.leaderStepDown dbg now) := by
  unfold leaderStepDown
  split
  · exact grow_updateInternal _
  · exact GrowR.pure (Grow.refl _)

theorem grow_tryPurge (e : Eng) : Grow e e.tryPurge := by
  unfold tryPurge
  split
  · exact grow_rhTryPurge _ _
  · exact grow_logPurge _

theorem grow_finishBuilding (e : Eng) (m : SnapMeta) : GrowR id e (e.finishBuilding dbg m) := by
  unfold finishBuilding
  dsimp only
  have hu := grow_updateSnapshot { e with st := { e.st with io := { e.st.io with building := false } } } m
  have h0 : Grow e { e with st := { e.st with io := { e.st.io with building := false } } } := grow_same rfl rfl
  split
  · next e1 he => rw [he] at hu; exact GrowR.pure (h0.trans hu)
  · next e1 he =>
    rw [he] at hu
    exact GrowR.from' (h0.trans hu) (GrowR.bindE id (grow_schedulePurge _) fun e2 => GrowR.pure (grow_tryPurge _))

theorem grow_triggerPurge (e : Eng) (i : Nat) : GrowR id e (e.triggerPurge dbg i) := by
  unfold triggerPurge
  split
  · exact GrowR.pure (Grow.refl _)
  · split
    · exact GrowR.pure (Grow.refl _)
    · exact GrowR.bind fun x => GrowR.bindE id (grow_updatePurgeUpto _ _) fun e1 => GrowR.pure (grow_tryPurge _)

theorem grow_triggerTransfer (e : Eng) (t : NodeId) : GrowR id e (e.triggerTransfer dbg t) := by
  unfold triggerTransfer
  refine GrowR.bind fun o => ?_
  split
  · exact GrowR.pure (Grow.refl _)
  · exact GrowR.pure (grow_lhTransfer _ _ _)

theorem grow_writeEntry (e : Eng) (p : Payload) : GrowR Prod.snd e (e.writeEntry dbg p) := by
  unfold writeEntry
  refine GrowR.bind fun o => ?_
  split
  · exact GrowR.pure (Grow.refl _)
  · split
    · exact GrowR.pure (Grow.refl _)
    · exact GrowR.bindE id (grow_lhAppend _ _ _) fun e1 => GrowR.bind fun l => GrowR.pure (Grow.refl _)

theorem grow_coreHeartbeat (e : Eng) : GrowR id e (e.coreHeartbeat dbg) := by
  unfold coreHeartbeat
  refine GrowR.bind fun o => ?_
  split
  · exact GrowR.pure (Grow.refl _)
  · split
    · exact GrowR.pure (Grow.refl _)
    · exact GrowR.pure (grow_push _ _)

theorem grow_tickElection (e : Eng) (en : Bool) : GrowR id e (e.tickElection dbg now en) := by
  unfold tickElection
  split
  · exact GrowR.pure (Grow.refl _)
  · split
    · exact GrowR.pure (Grow.refl _)
    · split
      · exact GrowR.pure (Grow.refl _)
      · have hgo : ∀ b : Bool, GrowR id e (if b = true then elect dbg now { e with seenGreater := false } else pure e) := by
          intro b
          split
          · exact GrowR.from' (grow_same rfl rfl) (grow_elect _)
          · exact GrowR.pure (Grow.refl _)
        exact hgo _

theorem grow_tickHeartbeat (e : Eng) (en : Bool) (iv : Nat) : GrowR id e (e.tickHeartbeat dbg now en iv) := by
  unfold tickHeartbeat
  split
  · exact GrowR.pure (Grow.refl _)
  · split
    · dsimp only
      split
      · exact GrowR.bindE id (grow_coreHeartbeat _) fun e1 => GrowR.pure (grow_same rfl rfl)
      · exact GrowR.bindE id (GrowR.pure (Grow.refl _)) fun e1 => GrowR.pure (grow_same rfl rfl)
    · exact GrowR.pure (Grow.refl _)

theorem grow_input (e : Eng) (i : Input) : GrowR id e (e.input dbg now i) := by
  cases i with
  | appendReq tx v prev es lc => exact grow_handleAppend _ _ _ _ _ _
  | voteReq tx v last =>
    simp only [input, coreVoteReq]
    exact GrowR.bindE Prod.snd (grow_handleVoteReq _ _ _) fun p => GrowR.pure (grow_push _ _)
  | snapReq tx v m => exact grow_handleInstall _ _ _ _
  | init tx m =>
    simp only [input, coreInit]
    exact GrowR.bindE Prod.snd (grow_initCluster _ _) fun p => GrowR.pure (grow_push _ _)
  | write p =>
    simp only [input]
    exact GrowR.bindE Prod.snd (grow_writeEntry _ _) fun p => GrowR.pure (Grow.refl _)
  | change c r =>
    simp only [input]
    refine GrowR.bindE Prod.snd ?_ fun p => GrowR.pure (Grow.refl _)
    unfold changeMembership
    split
    · exact GrowR.pure (Grow.refl _)
    · exact grow_writeEntry _ _
  | handleTransfer v target =>
    simp only [input, coreHandleTransfer]
    split
    · split
      · exact GrowR.from' (grow_same rfl rfl) (grow_elect _)
      · exact GrowR.pure (grow_same rfl rfl)
    · exact GrowR.pure (Grow.refl _)
  | electCmd =>
    simp only [input, coreElect]
    split
    · exact grow_elect _
    · exact GrowR.pure (Grow.refl _)
  | heartbeatCmd => exact grow_coreHeartbeat _
  | snapshotCmd => exact GrowR.pure (grow_triggerSnapshot _)
  | purgeCmd i => exact grow_triggerPurge _ _
  | transferCmd t => exact grow_triggerTransfer _ _
  | voteResp target v last granted sender =>
    simp only [input]
    split
    · exact grow_handleVoteResp _ _ _ _ _
    · exact GrowR.pure (Grow.refl _)
  | higherVote v sender =>
    simp only [input]
    split
    · exact GrowR.bindE Prod.snd (grow_updateVote _ _) fun p => GrowR.pure (Grow.refl _)
    · exact GrowR.pure (Grow.refl _)
  | tick el hb iv =>
    simp only [input, coreTick]
    refine GrowR.bindE id (grow_tickElection _ _) fun e1 => GrowR.bindE id (grow_tickHeartbeat _ _ _) fun e2 => ?_
    split
    · exact grow_leaderStepDown _
    · exact GrowR.pure (Grow.refl _)
  | localIO io =>
    simp only [input, coreLocalIO]
    refine GrowR.bind fun p => ?_
    split
    · split
      · split
        · exact GrowR.from' (e1 := e.withProg p) (grow_same rfl rfl) (grow_rhUpdateLocal _ _ _)
        · exact GrowR.pure (grow_same rfl rfl)
      · exact GrowR.pure (grow_same rfl rfl)
    · exact GrowR.pure (grow_same rfl rfl)
  | replProgress s target r =>
    simp only [input, coreReplProgress]
    split
    · exact GrowR.bind fun l => grow_rhUpdateProgress _ _ _ _
    · exact GrowR.pure (Grow.refl _)
  | hbProgress s target t =>
    simp only [input, coreHbProgress]
    split
    · exact GrowR.bind fun l => grow_rhUpdateClock _ _ _ _
    · exact GrowR.pure (Grow.refl _)
  | built m =>
    simp only [input, coreBuilt]
    exact GrowR.bindE id (grow_finishBuilding _ _) fun e1 => GrowR.bind fun io => GrowR.pure (grow_same rfl rfl)
  | installed io m =>
    simp only [input, coreInstalled]
    exact GrowR.bind fun p => GrowR.bind fun s1 => GrowR.bind fun s2 => GrowR.pure (grow_same rfl rfl)
  | applied last =>
    simp only [input, coreApplied]
    exact GrowR.bind fun s => GrowR.pure (grow_same rfl rfl)
  | initiate =>
    simp only [input, coreInitiate]
    refine GrowR.bind fun o => ?_
    split
    · exact GrowR.pure (Grow.refl _)
    · exact grow_rhInitiate _ _

end Eng
end Openraft.Engine
