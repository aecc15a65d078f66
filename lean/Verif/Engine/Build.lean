import Verif.Engine.IoKeep
import Verif.Engine.InvStep

/-!
# One snapshot is built at a time

The engine marks that a snapshot is being built (`IOState::building_snapshot`). Handler by handler: the command to
build one is emitted exactly when the mark is set.
-/

set_option autoImplicit false

namespace Openraft.Engine
open Openraft.Repl (Panic dassert Inflight)
open Openraft.Cluster (Payload)

/-- the command to build a snapshot -/
def Cmd.isBuild : Cmd → Bool
  | .sm .build => true
  | _ => false

/-- the report that a snapshot is built -/
def Input.isBuilt : Input → Bool
  | .built _ => true
  | _ => false

/-- builds that were started, without the one that is marked -/
def Eng.due (e : Eng) : Int := (e.out.countP Cmd.isBuild : Int) - if e.st.io.building then 1 else 0

set_option hygiene false in
/-- closes `due` goals -/
macro "bld" : tactic => `(tactic| first
  | rfl
  | (rw [acceptIo_ok h_st]; rfl)
  | (simp only [Eng.due, (updateCommitted_same h_p).1]; done))

/-- as many builds are started as are marked -/
def Builds (e e' : Eng) : Prop := e'.due = e.due

theorem Builds.refl (e : Eng) : Builds e e := rfl
theorem Builds.trans {a b c : Eng} (h : Builds a b) (k : Builds b c) : Builds a c := Eq.trans k h

/-- `Builds` for a result, `π` picks the engine -/
def BuildsR {α : Type} (π : α → Eng) (e : Eng) (r : Res α) : Prop := ∀ a, r = .ok a → Builds e (π a)

namespace BuildsR
variable {α β : Type} {π : α → Eng} {e : Eng}

theorem pure {a : α} (h : Builds e (π a)) : BuildsR π e (Pure.pure a) := by
  intro b hb; rw [pure_ok] at hb; subst hb; exact h

theorem bind {x : Res β} {f : β → Res α} (h : ∀ b, x = .ok b → BuildsR π e (f b)) : BuildsR π e (x >>= f) := by
  intro a ha; rw [bind_ok] at ha
  obtain ⟨b, hx, hb⟩ := ha; exact h b hx a hb

theorem bindE (π' : β → Eng) {x : Res β} {f : β → Res α} (hx : BuildsR π' e x) (h : ∀ b, BuildsR π (π' b) (f b)) :
    BuildsR π e (x >>= f) := by
  intro a ha; rw [bind_ok] at ha
  obtain ⟨b, hx', hb⟩ := ha; exact (hx b hx').trans (h b a hb)

theorem from' {e1 : Eng} {r : Res α} (h : Builds e e1) (k : BuildsR π e1 r) : BuildsR π e r :=
  fun a ha => h.trans (k a ha)

end BuildsR

namespace Eng
variable {dbg : Bool} {now : Nat}

theorem bld_push (e : Eng) (c : Cmd) (hc : c.isBuild = false := by rfl) : Builds e (e.push c) := by
  show Eng.due (e.push c) = e.due
  simp only [Eng.due, push, List.countP_append, List.countP_cons, List.countP_nil, hc]
  rfl

theorem bld_upd {e e1 : Eng} (c : Cmd) (h : Builds e e1) (hc : c.isBuild = false := by rfl) : Builds e (e1.push c) := h.trans (bld_push _ _ hc)

theorem bld_same {e e1 : Eng} (h1 : e1.due = e.due) : Builds e e1 := h1

theorem bld_logPurge (e : Eng) : Builds e e.logPurge := by
  unfold logPurge
  split
  · exact Builds.refl _
  · split
    · exact Builds.refl _
    · exact bld_upd _ (bld_same (by bld))

theorem bld_updatePurgeUpto (e : Eng) (x : LogId) : BuildsR id e (e.updatePurgeUpto dbg x) := by
  unfold updatePurgeUpto
  exact BuildsR.bind fun _ _ => BuildsR.pure (bld_same (by bld))

theorem bld_schedulePurge (e : Eng) : BuildsR id e (e.schedulePurge dbg) := by
  unfold schedulePurge
  refine BuildsR.bind fun o h_o => ?_
  split
  · exact bld_updatePurgeUpto _ _
  · exact BuildsR.pure (Builds.refl _)

theorem bld_triggerSnapshot (e : Eng) : Builds e e.triggerSnapshot := by
  unfold triggerSnapshot
  split
  · exact Builds.refl _
  · next h =>
    simp only [Builds, due, push, List.countP_append]
    simp [Cmd.isBuild, h]

theorem bld_updateSnapshot (e : Eng) (m : SnapMeta) : Builds e (e.updateSnapshot m).2 := by
  unfold updateSnapshot
  split
  · exact Builds.refl _
  · exact bld_same (by bld)

theorem bld_maybeSnapshot (e : Eng) : Builds e e.maybeSnapshot := by
  unfold maybeSnapshot
  split
  · exact bld_triggerSnapshot _
  · exact Builds.refl _

theorem bld_rhRebuildStreams (e : Eng) (l : Leader) : Builds e (e.rhRebuildStreams l) := by
  unfold rhRebuildStreams
  exact bld_upd _ (bld_same (by bld))

theorem noBuild_rhInitLoop {me : NodeId} {v : Repl.LogView} {max : Nat} {ns : List NodeId} {ent : NodeId → Repl.Entry}
    {out : List Cmd} {r : (NodeId → Repl.Entry) × List Cmd} (h0 : ∀ c ∈ out, c.isBuild = false)
    (h : rhInitLoop dbg me v max ns ent out = .ok r) : ∀ c ∈ r.2, c.isBuild = false := by
  induction ns generalizing ent out with
  | nil => rw [rhInitLoop, pure_ok] at h; subst h; exact h0
  | cons n ns ih =>
    rw [rhInitLoop] at h
    split at h
    · exact ih h0 h
    · rw [bind_ok] at h
      obtain ⟨⟨sent, en⟩, _, h⟩ := h
      dsimp only at h
      split at h
      · rw [bind_ok] at h
        obtain ⟨req, _, h⟩ := h
        refine ih ?_ h
        intro c hc
        rcases List.mem_append.1 hc with hc | hc
        · exact h0 c hc
        · rw [List.mem_singleton] at hc; subst hc; rfl
      · exact ih h0 h

theorem bld_rhInitiate (e : Eng) (l : Leader) : BuildsR id e (e.rhInitiate dbg l) := by
  unfold rhInitiate
  intro e' he
  rw [bind_ok] at he
  obtain ⟨⟨ent, cmds⟩, hp, he⟩ := he
  rw [pure_ok] at he; subst he
  have := noBuild_rhInitLoop (by simp) hp
  have h0 : cmds.countP Cmd.isBuild = 0 := by
    rw [List.countP_eq_zero]
    intro c hc; simp [this c hc]
  show Eng.due _ = Eng.due e
  simp [Eng.due, h0]

theorem bld_rhAppendMembership (e : Eng) (l : Leader) (i : LogId) (m : Membership) :
    BuildsR id e (e.rhAppendMembership dbg l i m) := by
  unfold rhAppendMembership
  refine BuildsR.bind fun _ _ => BuildsR.bind fun _ _ => BuildsR.bind fun ms h_ms => BuildsR.bind fun l2 h_l2 => ?_
  refine BuildsR.from' ?_ (bld_rhInitiate _ _)
  exact (bld_same (e1 := { e with st := { e.st with ms := ms } }) (by bld)).trans (bld_rhRebuildStreams _ _)

theorem bld_rhTryCommit (e : Eng) (g : Option LogId) : BuildsR id e (e.rhTryCommit dbg g) := by
  unfold rhTryCommit
  split
  · exact BuildsR.pure (Builds.refl _)
  · split
    · refine BuildsR.bind fun p h_p => ?_
      obtain ⟨ch, st⟩ := p
      dsimp only
      split
      · exact BuildsR.pure ((bld_upd _ (bld_upd _ (bld_upd _ (bld_same (by bld))))).trans (bld_maybeSnapshot _))
      · exact BuildsR.pure (Builds.refl _)
    · exact BuildsR.pure (Builds.refl _)

theorem bld_rhUpdateMatching (e : Eng) (l : Leader) (n : NodeId) (m : Option LogId) :
    BuildsR id e (e.rhUpdateMatching dbg l n m) := by
  unfold rhUpdateMatching
  refine BuildsR.bind fun _ _ => BuildsR.bind fun _ _ => BuildsR.bind fun en h_en => BuildsR.bind fun vp h_vp => ?_
  exact BuildsR.from' (bld_same (by bld)) (bld_rhTryCommit _ _)

theorem bld_rhUpdateConflicting (e : Eng) (l : Leader) (n : NodeId) (c : LogId) :
    BuildsR id e (e.rhUpdateConflicting dbg l n c) := by
  unfold rhUpdateConflicting
  exact BuildsR.bind fun _ _ => BuildsR.bind fun _ _ => BuildsR.pure (bld_same (by bld))

theorem bld_rhTryPurge (e : Eng) (l : Leader) : Builds e (e.rhTryPurge l) := by
  unfold rhTryPurge
  split
  · exact Builds.refl _
  · split
    · exact Builds.refl _
    · split
      · exact Builds.refl _
      · exact bld_logPurge _

theorem bld_rhFailed (e : Eng) (l : Leader) (n : NodeId) : BuildsR id e (e.rhFailed l n) := by
  unfold rhFailed
  exact BuildsR.bind fun _ _ => BuildsR.pure (bld_same (by bld))

theorem bld_rhUpdateProgress (e : Eng) (l : Leader) (n : NodeId) (r : ReplResult) :
    BuildsR id e (e.rhUpdateProgress dbg l n r) := by
  unfold rhUpdateProgress
  have hgo : ∀ x : Res Eng, BuildsR id e x → BuildsR id e (x >>= fun e1 => (unwrap e1.leader >>= fun l1 => (pure (rhTryPurge e1 l1) : Res Eng))) :=
    fun x hx => BuildsR.bindE id hx fun b => BuildsR.bind fun l1 h_l1 => BuildsR.pure (bld_rhTryPurge _ _)
  cases r with
  | matching m => exact hgo _ (bld_rhUpdateMatching _ _ _ _)
  | conflict c => exact hgo _ (bld_rhUpdateConflicting _ _ _ _)
  | failed => exact hgo _ (bld_rhFailed _ _ _)

theorem bld_rhUpdateClock (e : Eng) (l : Leader) (n : NodeId) (t : Nat) : BuildsR id e (e.rhUpdateClock l n t) := by
  unfold rhUpdateClock
  exact BuildsR.bind fun _ _ => BuildsR.pure (bld_same (by bld))

theorem bld_rhUpdateLocal (e : Eng) (l : Leader) (u : Option LogId) : BuildsR id e (e.rhUpdateLocal dbg l u) := by
  unfold rhUpdateLocal
  split
  · exact BuildsR.pure (Builds.refl _)
  · split
    · split
      · exact BuildsR.pure (Builds.refl _)
      · exact bld_rhUpdateMatching _ _ _ _
    · exact BuildsR.pure (Builds.refl _)

theorem bld_lhMembership (e : Eng) (l : Leader) (m : Option StoredMem) : BuildsR id e (e.lhMembership dbg l m) := by
  unfold lhMembership
  split
  · exact bld_rhAppendMembership _ _ _ _
  · exact BuildsR.pure (Builds.refl _)

theorem bld_lhAppend (e : Eng) (l : Leader) (ps : List Payload) : BuildsR id e (e.lhAppend dbg l ps) := by
  unfold lhAppend
  split
  · exact BuildsR.pure (Builds.refl _)
  · refine BuildsR.bind fun _ _ => BuildsR.bind fun ids h_ids => BuildsR.bind fun _ _ => BuildsR.bind fun st h_st => ?_
    refine BuildsR.from' (bld_upd _ (bld_same (by bld))) (BuildsR.bindE id (bld_lhMembership _ _ _) fun e2 => ?_)
    exact BuildsR.bind fun l2 h_l2 => bld_rhInitiate _ _

theorem bld_lhTransfer (e : Eng) (l : Leader) (t : NodeId) : Builds e (e.lhTransfer l t) :=
  bld_upd _ (bld_same (by bld))

theorem bld_updateServerState (e : Eng) : Builds e e.updateServerState := bld_same (by bld)

theorem bld_becomeNewLeader (e : Eng) : BuildsR id e (e.becomeNewLeader dbg now) := by
  unfold becomeNewLeader
  refine BuildsR.bind fun l h_l => BuildsR.bind fun st h_st => BuildsR.bind fun l2 h_l2 => ?_
  have h1 : Builds e (rhRebuildStreams (updateServerState (Eng.push { e with st := st, leader := some l } (.updateIO none (IOId.newLog l.vote l.lastLogId)))) l) :=
    ((bld_upd _ (bld_same (by bld))).trans (bld_updateServerState _)).trans (bld_rhRebuildStreams _ _)
  split
  · exact BuildsR.from' h1 (bld_lhAppend _ _ _)
  · exact BuildsR.from' h1 (bld_rhInitiate _ _)

theorem bld_becomeLeader (e : Eng) : BuildsR id e (e.becomeLeader dbg now) := by
  unfold becomeLeader
  split
  · split
    · exact BuildsR.pure (bld_same (by bld))
    · exact bld_becomeNewLeader _
  · exact bld_becomeNewLeader _

theorem bld_becomeFollowing (e : Eng) : BuildsR id e (e.becomeFollowing dbg) := by
  unfold becomeFollowing
  exact BuildsR.bind fun _ _ => BuildsR.pure (bld_same (by bld))

theorem bld_updateInternal (e : Eng) : BuildsR id e (e.updateInternal dbg now) := by
  unfold updateInternal
  split
  · exact bld_becomeLeader _
  · split
    · exact BuildsR.pure (Builds.refl _)
    · exact bld_becomeFollowing _

theorem bld_storeVote (e : Eng) (lease : Nat) (v : Vote) : BuildsR id e (e.storeVote dbg now lease v) := by
  unfold storeVote
  split
  · exact BuildsR.bind fun st h_st => BuildsR.pure (bld_upd _ (bld_same (by bld)))
  · exact BuildsR.bind fun vt h_vt => BuildsR.pure (bld_same (by bld))

theorem bld_updateVote (e : Eng) (v : Vote) : BuildsR Prod.snd e (e.updateVote dbg now v) := by
  unfold updateVote
  split
  · refine BuildsR.bindE id (bld_storeVote _ _ _) fun e1 => BuildsR.bindE id (bld_updateInternal _) fun e2 => ?_
    exact BuildsR.pure (Builds.refl _)
  · exact BuildsR.pure (Builds.refl _)

theorem bld_fhTruncate (e : Eng) (i : Nat) : BuildsR id e (e.fhTruncate dbg i) := by
  unfold fhTruncate
  refine BuildsR.bind fun _ _ => ?_
  split
  · exact BuildsR.pure (Builds.refl _)
  · refine BuildsR.bind fun ms h_ms => ?_
    dsimp only
    split
    · exact BuildsR.pure ((bld_upd _ (bld_same (by bld))).trans (bld_updateServerState _))
    · exact BuildsR.pure (bld_upd _ (bld_same (by bld)))

theorem bld_fhAppendMembership (e : Eng) (es : List Ent) : BuildsR id e (e.fhAppendMembership dbg es) := by
  unfold fhAppendMembership
  split
  · exact BuildsR.pure (Builds.refl _)
  · exact BuildsR.bind fun ms h_ms => BuildsR.pure (bld_same (by bld))

theorem bld_fhDoAppend (e : Eng) (v : Vote) (es : List Ent) : BuildsR id e (e.fhDoAppend dbg v es) := by
  unfold fhDoAppend
  refine BuildsR.bind fun _ _ => BuildsR.bind fun _ _ => BuildsR.bind fun _ _ => ?_
  refine BuildsR.from' (e1 := { e with st := { e.st with logIds := LogIdList.extend e.st.logIds (es.map (·.id)) } })
    (bld_same (by bld)) (BuildsR.bindE id (bld_fhAppendMembership _ _) fun e1 => BuildsR.pure (bld_push _ _))

theorem bld_fhAppendEntries (e : Eng) (v : Vote) (prev : Option LogId) (es : List Ent) :
    BuildsR id e (e.fhAppendEntries dbg v prev es) := by
  unfold fhAppendEntries
  refine BuildsR.bind fun _ _ => BuildsR.bind fun st h_st => BuildsR.bind fun since h_since => ?_
  split
  · refine BuildsR.from' (e1 := { e with st := st }) (bld_same (by bld))
      (BuildsR.bindE id (bld_fhTruncate _ _) fun e1 => bld_fhDoAppend _ _ _)
  · split
    · exact BuildsR.pure (bld_same (by bld))
    · exact BuildsR.pure (bld_upd _ (bld_same (by bld)))

theorem bld_fhEnsure (e : Eng) (prev : Option LogId) : BuildsR Prod.snd e (e.fhEnsure dbg prev) := by
  unfold fhEnsure
  split
  · exact BuildsR.pure (Builds.refl _)
  · refine BuildsR.bind fun b h_b => ?_
    split
    · exact BuildsR.pure (Builds.refl _)
    · exact BuildsR.bindE id (bld_fhTruncate _ _) fun e1 => BuildsR.pure (Builds.refl _)

theorem bld_fhCommit (e : Eng) (lc : Option LogId) : BuildsR id e (e.fhCommit dbg lc) := by
  unfold fhCommit
  refine BuildsR.bind fun p h_p => ?_
  obtain ⟨ch, st⟩ := p
  dsimp only
  split
  · refine BuildsR.bind fun i h_i => ?_
    exact BuildsR.pure ((bld_upd _ (bld_upd _ (bld_same (by bld)))).trans (bld_maybeSnapshot _))
  · exact BuildsR.pure (Builds.refl _)

theorem bld_fhInstallTruncate (e : Eng) (l : LogId) : BuildsR id e (e.fhInstallTruncate dbg l) := by
  unfold fhInstallTruncate
  split
  · split
    · exact bld_fhTruncate _ _
    · exact BuildsR.pure (Builds.refl _)
  · exact BuildsR.pure (Builds.refl _)

theorem bld_fhInstall (e : Eng) (v : Vote) (m : SnapMeta) : BuildsR Prod.snd e (e.fhInstall dbg v m) := by
  unfold fhInstall
  split
  · exact BuildsR.pure (Builds.refl _)
  · refine BuildsR.bind fun last h_last => ?_
    have hu := bld_updateSnapshot e m
    split
    · next e1 he => rw [he] at hu; exact BuildsR.pure hu
    · next e1 he =>
      rw [he] at hu
      refine BuildsR.from' hu (BuildsR.bindE id (bld_fhInstallTruncate _ _) fun e2 => ?_)
      refine BuildsR.bind fun st h_st => BuildsR.bind fun ms h_ms => BuildsR.pure ?_
      refine Builds.trans ?_ (bld_logPurge _)
      exact (bld_upd (e := e2) (.sm (.install m (IOId.newLog v (some last))))
        (e1 := updateServerState { e2 with st := { st with committed := some last, ms := ms } }) (bld_same (by bld))).trans (bld_same (by bld))

theorem bld_startup (e : Eng) : BuildsR id e (e.startup dbg now) := by
  unfold startup
  split
  · exact bld_updateInternal _
  · exact BuildsR.pure (bld_same (by bld))

theorem bld_elect (e : Eng) : BuildsR id e (e.elect dbg now) := by
  unfold elect
  refine BuildsR.from' (e1 := { e with candidate := some (Candidate.new now (Vote.new (e.st.vote.data.leaderId.term + 1) e.cfg.id) e.st.lastLogId e.st.ms.effective.mem) })
    (bld_same (by bld)) (BuildsR.bindE Prod.snd (bld_updateVote _ _) fun p => ?_)
  obtain ⟨ok, e2⟩ := p
  refine BuildsR.bind fun _ _ => BuildsR.pure ?_
  exact (bld_push _ _).trans (bld_updateServerState _)

theorem bld_initCluster (e : Eng) (m : Membership) : BuildsR Prod.snd e (e.initCluster dbg now m) := by
  unfold initCluster
  split
  · exact BuildsR.pure (Builds.refl _)
  · split
    · exact BuildsR.pure (Builds.refl _)
    · refine BuildsR.bind fun v h_v => ?_
      refine BuildsR.from' (e1 := { e with st := { e.st with vote := e.st.vote.update now 0 ⟨⟨0, 0⟩, true⟩ } })
        (bld_same (by bld)) (BuildsR.bindE id (bld_fhDoAppend _ _ _) fun e2 => BuildsR.bindE id (bld_elect _) fun e3 => ?_)
      exact BuildsR.pure (Builds.refl _)

theorem bld_handleVoteReq (e : Eng) (v : Vote) (last : Option LogId) :
    BuildsR Prod.snd e (e.handleVoteReq dbg now v last) := by
  unfold handleVoteReq
  split
  · exact BuildsR.pure (Builds.refl _)
  · split
    · refine BuildsR.bindE Prod.snd (bld_updateVote _ _) fun p => ?_
      exact BuildsR.pure (Builds.refl _)
    · exact BuildsR.pure (Builds.refl _)

theorem bld_establishLeader (e : Eng) : BuildsR id e (e.establishLeader dbg now) := by
  unfold establishLeader
  refine BuildsR.bind fun c h_c => BuildsR.bind fun o h_o => ?_
  split
  · exact BuildsR.pure (bld_same (by bld))
  · next l =>
    refine BuildsR.from' (e1 := rhRebuildStreams { e with candidate := none, leader := some l } l)
      ((bld_same (by bld)).trans (bld_rhRebuildStreams _ _)) (BuildsR.bindE Prod.snd (bld_updateVote _ _) fun p => ?_)
    obtain ⟨ok, e2⟩ := p
    refine BuildsR.bind fun _ _ => BuildsR.bind fun st h_st => BuildsR.bind fun lo h_lo => BuildsR.bind fun l3 h_l3 => ?_
    exact BuildsR.from' (bld_same (by bld)) (bld_lhAppend _ _ _)

theorem bld_handleVoteResp (e : Eng) (t : NodeId) (v : Vote) (last : Option LogId) (g : Bool) :
    BuildsR id e (e.handleVoteResp dbg now t v last g) := by
  unfold handleVoteResp
  split
  · exact BuildsR.pure (Builds.refl _)
  · split
    · refine BuildsR.bind fun c1 h_c1 => ?_
      dsimp only
      split
      · exact BuildsR.from' (bld_same (by bld)) (bld_establishLeader _)
      · exact BuildsR.pure (bld_same (by bld))
    · refine BuildsR.from' (e1 := if e.st.lastLogId < last then { e with seenGreater := true } else e) ?_
        (BuildsR.bindE Prod.snd (bld_updateVote _ _) fun p => BuildsR.pure (Builds.refl _))
      split
      · exact bld_same (by bld)
      · exact Builds.refl _

theorem bld_appendEntries (e : Eng) (v : Vote) (prev : Option LogId) (es : List Ent) :
    BuildsR Prod.snd e (e.appendEntries dbg now v prev es) := by
  unfold appendEntries
  refine BuildsR.bindE Prod.snd (bld_updateVote _ _) fun p => ?_
  obtain ⟨ok, e1⟩ := p
  dsimp only
  split
  · refine BuildsR.bind fun lv h_lv => BuildsR.bindE Prod.snd (bld_fhEnsure _ _) fun p => ?_
    obtain ⟨ok2, e2⟩ := p
    dsimp only
    split
    · exact BuildsR.bindE id (bld_fhAppendEntries _ _ _ _) fun e3 => BuildsR.pure (Builds.refl _)
    · exact BuildsR.pure (Builds.refl _)
  · exact BuildsR.pure (Builds.refl _)

theorem bld_handleAppend (e : Eng) (tx : Nat) (v : Vote) (prev : Option LogId) (es : List Ent) (lc : Option LogId) :
    BuildsR id e (e.handleAppend dbg now tx v prev es lc) := by
  unfold handleAppend
  refine BuildsR.bindE Prod.snd (bld_appendEntries _ _ _ _) fun p => ?_
  obtain ⟨r, e1⟩ := p
  dsimp only
  split
  · refine BuildsR.bind fun acc h_acc => BuildsR.bind fun _ _ => ?_
    exact BuildsR.from' (bld_push _ _) (bld_fhCommit _ _)
  · exact BuildsR.pure (bld_push _ _)

theorem bld_handleInstall (e : Eng) (tx : Nat) (v : Vote) (m : SnapMeta) :
    BuildsR id e (e.handleInstall dbg now tx v m) := by
  unfold handleInstall
  refine BuildsR.bindE Prod.snd (bld_updateVote _ _) fun p => ?_
  obtain ⟨ok, e1⟩ := p
  dsimp only
  split
  · refine BuildsR.bind fun lv h_lv => BuildsR.bindE Prod.snd (bld_fhInstall _ _ _) fun p => ?_
    exact BuildsR.pure (bld_push _ _)
  · exact BuildsR.pure (bld_push _ _)

theorem bld_leaderStepDown (e : Eng) : BuildsR id e (e.leaderStepDown dbg now) := by
  unfold leaderStepDown
  split
  · exact bld_updateInternal _
  · exact BuildsR.pure (Builds.refl _)

theorem bld_tryPurge (e : Eng) : Builds e e.tryPurge := by
  unfold tryPurge
  split
  · exact bld_rhTryPurge _ _
  · exact bld_logPurge _

theorem bld_finishBuilding (e : Eng) (m : SnapMeta) :
    BuildsR id { e with st := { e.st with io := { e.st.io with building := false } } } (e.finishBuilding dbg m) := by
  unfold finishBuilding
  dsimp only
  have hu := bld_updateSnapshot { e with st := { e.st with io := { e.st.io with building := false } } } m
  split
  · next e1 he => rw [he] at hu; exact BuildsR.pure hu
  · next e1 he =>
    rw [he] at hu
    exact BuildsR.from' hu (BuildsR.bindE id (bld_schedulePurge _) fun e2 => BuildsR.pure (bld_tryPurge _))

theorem bld_triggerPurge (e : Eng) (i : Nat) : BuildsR id e (e.triggerPurge dbg i) := by
  unfold triggerPurge
  split
  · exact BuildsR.pure (Builds.refl _)
  · split
    · exact BuildsR.pure (Builds.refl _)
    · exact BuildsR.bind fun x h_x => BuildsR.bindE id (bld_updatePurgeUpto _ _) fun e1 => BuildsR.pure (bld_tryPurge _)

theorem bld_triggerTransfer (e : Eng) (t : NodeId) : BuildsR id e (e.triggerTransfer dbg t) := by
  unfold triggerTransfer
  refine BuildsR.bind fun o h_o => ?_
  split
  · exact BuildsR.pure (Builds.refl _)
  · exact BuildsR.pure (bld_lhTransfer _ _ _)

theorem bld_writeEntry (e : Eng) (p : Payload) : BuildsR Prod.snd e (e.writeEntry dbg p) := by
  unfold writeEntry
  refine BuildsR.bind fun o h_o => ?_
  split
  · exact BuildsR.pure (Builds.refl _)
  · split
    · exact BuildsR.pure (Builds.refl _)
    · exact BuildsR.bindE id (bld_lhAppend _ _ _) fun e1 => BuildsR.bind fun l h_l => BuildsR.pure (Builds.refl _)

theorem bld_coreHeartbeat (e : Eng) : BuildsR id e (e.coreHeartbeat dbg) := by
  unfold coreHeartbeat
  refine BuildsR.bind fun o h_o => ?_
  split
  · exact BuildsR.pure (Builds.refl _)
  · split
    · exact BuildsR.pure (Builds.refl _)
    · exact BuildsR.pure (bld_push _ _)

theorem bld_tickElection (e : Eng) (en : Bool) : BuildsR id e (e.tickElection dbg now en) := by
  unfold tickElection
  split
  · exact BuildsR.pure (Builds.refl _)
  · split
    · exact BuildsR.pure (Builds.refl _)
    · split
      · exact BuildsR.pure (Builds.refl _)
      · have hgo : ∀ b : Bool, BuildsR id e (if b = true then elect dbg now { e with seenGreater := false } else pure e) := by
          intro b
          split
          · exact BuildsR.from' (bld_same (by bld)) (bld_elect _)
          · exact BuildsR.pure (Builds.refl _)
        exact hgo _

theorem bld_tickHeartbeat (e : Eng) (en : Bool) (iv : Nat) : BuildsR id e (e.tickHeartbeat dbg now en iv) := by
  unfold tickHeartbeat
  split
  · exact BuildsR.pure (Builds.refl _)
  · split
    · dsimp only
      split
      · exact BuildsR.bindE id (bld_coreHeartbeat _) fun e1 => BuildsR.pure (bld_same (by bld))
      · exact BuildsR.bindE id (BuildsR.pure (Builds.refl _)) fun e1 => BuildsR.pure (bld_same (by bld))
    · exact BuildsR.pure (Builds.refl _)

theorem bld_input (e : Eng) (i : Input) (hi : Input.isBuilt i = false) : BuildsR id e (e.input dbg now i) := by
  cases i with
  | appendReq tx v prev es lc => exact bld_handleAppend _ _ _ _ _ _
  | voteReq tx v last =>
    simp only [input, coreVoteReq]
    exact BuildsR.bindE Prod.snd (bld_handleVoteReq _ _ _) fun p => BuildsR.pure (bld_push _ _)
  | snapReq tx v m => exact bld_handleInstall _ _ _ _
  | init tx m =>
    simp only [input, coreInit]
    exact BuildsR.bindE Prod.snd (bld_initCluster _ _) fun p => BuildsR.pure (bld_push _ _)
  | write p =>
    simp only [input]
    exact BuildsR.bindE Prod.snd (bld_writeEntry _ _) fun p => BuildsR.pure (Builds.refl _)
  | change c r =>
    simp only [input]
    refine BuildsR.bindE Prod.snd ?_ fun p => BuildsR.pure (Builds.refl _)
    unfold changeMembership
    split
    · exact BuildsR.pure (Builds.refl _)
    · exact bld_writeEntry _ _
  | handleTransfer v target =>
    simp only [input, coreHandleTransfer]
    split
    · split
      · exact BuildsR.from' (bld_same (by bld)) (bld_elect _)
      · exact BuildsR.pure (bld_same (by bld))
    · exact BuildsR.pure (Builds.refl _)
  | electCmd =>
    simp only [input, coreElect]
    split
    · exact bld_elect _
    · exact BuildsR.pure (Builds.refl _)
  | heartbeatCmd => exact bld_coreHeartbeat _
  | snapshotCmd => exact BuildsR.pure (bld_triggerSnapshot _)
  | purgeCmd i => exact bld_triggerPurge _ _
  | transferCmd t => exact bld_triggerTransfer _ _
  | voteResp target v last granted sender =>
    simp only [input]
    split
    · exact bld_handleVoteResp _ _ _ _ _
    · exact BuildsR.pure (Builds.refl _)
  | higherVote v sender =>
    simp only [input]
    split
    · exact BuildsR.bindE Prod.snd (bld_updateVote _ _) fun p => BuildsR.pure (Builds.refl _)
    · exact BuildsR.pure (Builds.refl _)
  | tick el hb iv =>
    simp only [input, coreTick]
    refine BuildsR.bindE id (bld_tickElection _ _) fun e1 => BuildsR.bindE id (bld_tickHeartbeat _ _ _) fun e2 => ?_
    split
    · exact bld_leaderStepDown _
    · exact BuildsR.pure (Builds.refl _)
  | localIO io =>
    simp only [input, coreLocalIO]
    refine BuildsR.bind fun p h_p => ?_
    split
    · split
      · split
        · exact BuildsR.from' (e1 := e.withProg p) (bld_same rfl) (bld_rhUpdateLocal _ _ _)
        · exact BuildsR.pure (bld_same rfl)
      · exact BuildsR.pure (bld_same rfl)
    · exact BuildsR.pure (bld_same rfl)
  | replProgress s target r =>
    simp only [input, coreReplProgress]
    split
    · exact BuildsR.bind fun l h_l => bld_rhUpdateProgress _ _ _ _
    · exact BuildsR.pure (Builds.refl _)
  | hbProgress s target t =>
    simp only [input, coreHbProgress]
    split
    · exact BuildsR.bind fun l h_l => bld_rhUpdateClock _ _ _ _
    · exact BuildsR.pure (Builds.refl _)
  | built m => cases hi
  | installed io m =>
    simp only [input, coreInstalled]
    exact BuildsR.bind fun p _ => BuildsR.bind fun s1 h1 => BuildsR.bind fun s2 h2 => BuildsR.pure (by
      have h1 := updateApplied_ok h1
      have h2 := updateSnapshotIO_ok h2
      subst h1; subst h2
      rfl)
  | applied last =>
    simp only [input, coreApplied]
    exact BuildsR.bind fun s h1 => BuildsR.pure (by
      have h1 := updateApplied_ok h1
      subst h1
      rfl)
  | initiate =>
    simp only [input, coreInitiate]
    refine BuildsR.bind fun o h_o => ?_
    split
    · exact BuildsR.pure (Builds.refl _)
    · exact bld_rhInitiate _ _

/-- a finished build clears the mark -/
theorem bld_built {e e' : Eng} {m : SnapMeta} (hr : e.input dbg now (.built m) = .ok e') :
    e'.due = e.due + if e.st.io.building then 1 else 0 := by
  simp only [input, coreBuilt, bind_ok, pure_ok] at hr
  obtain ⟨e1, h1, io, h4, rfl⟩ := hr
  have h4 := updateSnapshotIO_ok h4
  have h2 : e1.due = _ := bld_finishBuilding (dbg := dbg) e m e1 h1
  subst h4
  show Eng.due e1 = _
  rw [h2]
  unfold due
  cases e.st.io.building <;> simp

theorem building_logPurge (e : Eng) : e.logPurge.st.io = e.st.io := by
  unfold logPurge
  split
  · rfl
  · split
    · rfl
    · simp only [push, RState.purgeLog]

theorem building_tryPurge (e : Eng) : e.tryPurge.st.io = e.st.io := by
  unfold tryPurge
  split
  · unfold rhTryPurge
    repeat' split
    all_goals first | rfl | exact building_logPurge _
  · exact building_logPurge _

/-- nothing is being built after the report of a build -/
theorem building_built {e e' : Eng} {m : SnapMeta} (hr : e.input dbg now (.built m) = .ok e') : e'.st.io.building = false := by
  simp only [input, coreBuilt, bind_ok, pure_ok] at hr
  obtain ⟨e1, h1, io, h4, rfl⟩ := hr
  have h4 := updateSnapshotIO_ok h4
  subst h4
  show e1.st.io.building = false
  unfold finishBuilding updateSnapshot at h1
  dsimp only at h1
  split at h1
  · next e2 he =>
    rw [pure_ok] at h1; subst h1
    split at he <;> cases he
    rfl
  · next e2 he =>
    split at he
    · cases he
    · cases he
      simp only [bind_ok, pure_ok] at h1
      obtain ⟨e3, h3, rfl⟩ := h1
      rw [building_tryPurge]
      unfold schedulePurge at h3
      rw [bind_ok] at h3
      obtain ⟨o, _, h3⟩ := h3
      split at h3
      · unfold updatePurgeUpto at h3
        simp only [bind_ok, pure_ok] at h3
        obtain ⟨_, _, rfl⟩ := h3
        rfl
      · rw [pure_ok] at h3; subst h3; rfl

end Eng

end Openraft.Engine
