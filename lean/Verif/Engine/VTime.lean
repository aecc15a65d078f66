import Verif.Engine.VoteFlow
import Verif.Engine.Grow

/-!
# When the vote was last touched

Every input either leaves the time at which the vote was last touched, or sets it to the present.
-/

set_option autoImplicit false

namespace Openraft.Engine
open Openraft.Repl (Panic dassert Inflight)
open Openraft.Cluster (Payload)

/-- the time of the vote is kept, or is the present -/
def VTime (now : Nat) (e e' : Eng) : Prop := e'.st.vote.lastUpdate = e.st.vote.lastUpdate ∨ e'.st.vote.lastUpdate = some now

theorem VTime.refl {now : Nat} (e : Eng) : VTime now e e := Or.inl rfl
theorem VTime.trans {now : Nat} {a b c : Eng} (h : VTime now a b) (k : VTime now b c) : VTime now a c := by
  rcases k with k | k
  · rcases h with h | h
    · exact Or.inl (k.trans h)
    · exact Or.inr (k.trans h)
  · exact Or.inr k

/-- `VTime` for a result, `π` picks the engine -/
def VTimeR {α : Type} (now : Nat) (π : α → Eng) (e : Eng) (r : Res α) : Prop := ∀ a, r = .ok a → VTime now e (π a)

namespace VTimeR
variable {now : Nat} {α β : Type} {π : α → Eng} {e : Eng}

theorem pure {a : α} (h : VTime now e (π a)) : VTimeR now π e (Pure.pure a) := by
  intro b hb; rw [pure_ok] at hb; subst hb; exact h

theorem ok {a : α} (h : VTime now e (π a)) : VTimeR now π e (Except.ok a) := by
  intro b hb; cases hb; exact h

theorem bind {x : Res β} {f : β → Res α} (h : ∀ b, VTimeR now π e (f b)) : VTimeR now π e (x >>= f) := by
  intro a ha; rw [bind_ok] at ha
  obtain ⟨b, _, hb⟩ := ha; exact h b a hb

theorem bindI {x : Res β} {f : β → Res α} (h : ∀ b, x = .ok b → VTimeR now π e (f b)) : VTimeR now π e (x >>= f) := by
  intro a ha; rw [bind_ok] at ha
  obtain ⟨b, hb', hb⟩ := ha; exact h b hb' a hb

theorem bindE (π' : β → Eng) {x : Res β} {f : β → Res α} (hx : VTimeR now π' e x) (h : ∀ b, VTimeR now π (π' b) (f b)) :
    VTimeR now π e (x >>= f) := by
  intro a ha; rw [bind_ok] at ha
  obtain ⟨b, hx', hb⟩ := ha; exact (hx b hx').trans (h b a hb)

theorem from' {e1 : Eng} {r : Res α} (h : VTime now e e1) (k : VTimeR now π e1 r) : VTimeR now π e r :=
  fun a ha => h.trans (k a ha)

theorem rebase {e1 : Eng} {r : Res α} (h : VTimeR now π e1 r) (k : VTime now e e1) : VTimeR now π e r := from' k h

end VTimeR

namespace Eng
variable {dbg : Bool} {now : Nat}

theorem vtime_push (e : Eng) (c : Cmd) : VTime now e (e.push c) := Or.inl rfl

theorem vtime_upd {e e1 : Eng} (c : Cmd) (h : VTime now e e1) : VTime now e (e1.push c) := h.trans (vtime_push _ _)

theorem vtime_same {e e1 : Eng} (h : e1.st.vote.lastUpdate = e.st.vote.lastUpdate) : VTime now e e1 := Or.inl h

theorem vtime_logPurge (e : Eng) : VTime now e e.logPurge := by
  unfold logPurge
  split
  · exact VTime.refl _
  · split
    · exact VTime.refl _
    · exact vtime_upd _ (vtime_same rfl)

theorem vtime_updatePurgeUpto (e : Eng) (x : LogId) : VTimeR now id e (e.updatePurgeUpto dbg x) := by
  unfold updatePurgeUpto
  exact VTimeR.bind fun _ => VTimeR.pure (vtime_same rfl)

theorem vtime_schedulePurge (e : Eng) : VTimeR now id e (e.schedulePurge dbg) := by
  unfold schedulePurge
  refine VTimeR.bind fun o => ?_
  split
  · exact vtime_updatePurgeUpto _ _
  · exact VTimeR.pure (VTime.refl _)

theorem vtime_triggerSnapshot (e : Eng) : VTime now e e.triggerSnapshot := by
  unfold triggerSnapshot
  split
  · exact VTime.refl _
  · exact vtime_upd _ (vtime_same rfl)

theorem vtime_updateSnapshot (e : Eng) (m : SnapMeta) : VTime now e (e.updateSnapshot m).2 := by
  unfold updateSnapshot
  split
  · exact VTime.refl _
  · exact vtime_same rfl

theorem vtime_maybeSnapshot (e : Eng) : VTime now e e.maybeSnapshot := by
  unfold maybeSnapshot
  split
  · exact vtime_triggerSnapshot _
  · exact VTime.refl _

theorem vtime_rhRebuildStreams (e : Eng) (l : Leader) : VTime now e (e.rhRebuildStreams l) := by
  unfold rhRebuildStreams
  exact vtime_upd _ (vtime_same rfl)

theorem vtime_rhInitiate (e : Eng) (l : Leader) : VTimeR now id e (e.rhInitiate dbg l) := by
  unfold rhInitiate
  refine VTimeR.bind fun p => ?_
  exact VTimeR.pure (vtime_same rfl)

theorem vtime_rhAppendMembership (e : Eng) (l : Leader) (i : LogId) (m : Membership) :
    VTimeR now id e (e.rhAppendMembership dbg l i m) := by
  unfold rhAppendMembership
  refine VTimeR.bind fun _ => VTimeR.bind fun _ => VTimeR.bind fun ms => VTimeR.bind fun l2 => ?_
  refine VTimeR.from' ?_ (vtime_rhInitiate _ _)
  exact (vtime_same (e1 := { e with st := { e.st with ms := ms } }) rfl).trans (vtime_rhRebuildStreams _ _)

theorem vtime_rhTryCommit (e : Eng) (g : Option LogId) : VTimeR now id e (e.rhTryCommit dbg g) := by
  unfold rhTryCommit
  split
  · exact VTimeR.pure (VTime.refl _)
  · split
    · refine VTimeR.bindI fun p hp => ?_
      obtain ⟨ch, st⟩ := p
      have hv := congrArg Leased.lastUpdate (updateCommitted_vote hp)
      dsimp only
      split
      · refine VTimeR.pure (VTime.trans ?_ (vtime_maybeSnapshot _))
        refine vtime_upd (e1 := Eng.push (Eng.push { e with st := st } _) _) _ ?_
        refine vtime_upd (e1 := Eng.push { e with st := st } _) _ ?_
        exact vtime_upd (e1 := { e with st := st }) _ (vtime_same hv)
      · exact VTimeR.pure (VTime.refl _)
    · exact VTimeR.pure (VTime.refl _)

theorem vtime_rhUpdateMatching (e : Eng) (l : Leader) (n : NodeId) (m : Option LogId) :
    VTimeR now id e (e.rhUpdateMatching dbg l n m) := by
  unfold rhUpdateMatching
  refine VTimeR.bind fun _ => VTimeR.bind fun _ => VTimeR.bind fun en => VTimeR.bind fun vp => ?_
  exact VTimeR.from' (vtime_same rfl) (vtime_rhTryCommit _ _)

theorem vtime_rhUpdateConflicting (e : Eng) (l : Leader) (n : NodeId) (c : LogId) :
    VTimeR now id e (e.rhUpdateConflicting dbg l n c) := by
  unfold rhUpdateConflicting
  exact VTimeR.bind fun _ => VTimeR.bind fun _ => VTimeR.pure (vtime_same rfl)

theorem vtime_rhTryPurge (e : Eng) (l : Leader) : VTime now e (e.rhTryPurge l) := by
  unfold rhTryPurge
  split
  · exact VTime.refl _
  · split
    · exact VTime.refl _
    · split
      · exact VTime.refl _
      · exact vtime_logPurge _

theorem vtime_rhFailed (e : Eng) (l : Leader) (n : NodeId) : VTimeR now id e (e.rhFailed l n) := by
  unfold rhFailed
  exact VTimeR.bind fun _ => VTimeR.pure (vtime_same rfl)

theorem vtime_rhUpdateProgress (e : Eng) (l : Leader) (n : NodeId) (r : ReplResult) :
    VTimeR now id e (e.rhUpdateProgress dbg l n r) := by
  unfold rhUpdateProgress
  have hgo : ∀ x : Res Eng, VTimeR now id e x → VTimeR now id e (x >>= fun e1 => (unwrap e1.leader >>= fun l1 => (pure (rhTryPurge e1 l1) : Res Eng))) :=
    fun x hx => VTimeR.bindE id hx fun b => VTimeR.bind fun l1 => VTimeR.pure (vtime_rhTryPurge _ _)
  cases r with
  | matching m => exact hgo _ (vtime_rhUpdateMatching _ _ _ _)
  | conflict c => exact hgo _ (vtime_rhUpdateConflicting _ _ _ _)
  | failed => exact hgo _ (vtime_rhFailed _ _ _)

theorem vtime_rhUpdateClock (e : Eng) (l : Leader) (n : NodeId) (t : Nat) : VTimeR now id e (e.rhUpdateClock l n t) := by
  unfold rhUpdateClock
  exact VTimeR.bind fun _ => VTimeR.pure (vtime_same rfl)

theorem vtime_rhUpdateLocal (e : Eng) (l : Leader) (u : Option LogId) : VTimeR now id e (e.rhUpdateLocal dbg l u) := by
  unfold rhUpdateLocal
  split
  · exact VTimeR.pure (VTime.refl _)
  · split
    · split
      · exact VTimeR.pure (VTime.refl _)
      · exact vtime_rhUpdateMatching _ _ _ _
    · exact VTimeR.pure (VTime.refl _)

theorem vtime_lhMembership (e : Eng) (l : Leader) (m : Option StoredMem) : VTimeR now id e (e.lhMembership dbg l m) := by
  unfold lhMembership
  split
  · exact vtime_rhAppendMembership _ _ _ _
  · exact VTimeR.pure (VTime.refl _)

theorem vtime_lhAppend (e : Eng) (l : Leader) (ps : List Payload) : VTimeR now id e (e.lhAppend dbg l ps) := by
  unfold lhAppend
  split
  · exact VTimeR.pure (VTime.refl _)
  · refine VTimeR.bind fun _ => VTimeR.bind fun ids => VTimeR.bind fun _ => VTimeR.bindI fun st hst => ?_
    have hv := congrArg Leased.lastUpdate (acceptIo_vote hst)
    refine VTimeR.from' (e1 := Eng.push { e with st := st, leader := some { l with
      lastLogId := (assign l.vote.leaderId (nextIndex l.lastLogId) ps).getLast?.map (·.id) } }
      (.append l.vote (assign l.vote.leaderId (nextIndex l.lastLogId) ps)))
      (vtime_upd _ (vtime_same hv)) (VTimeR.bindE id (vtime_lhMembership _ _ _) fun e2 => ?_)
    exact VTimeR.bind fun l2 => vtime_rhInitiate _ _

theorem vtime_lhTransfer (e : Eng) (l : Leader) (t : NodeId) : VTime now e (e.lhTransfer l t) :=
  vtime_upd _ (vtime_same rfl)

theorem vtime_updateServerState (e : Eng) : VTime now e e.updateServerState := vtime_same rfl

theorem vtime_becomeNewLeader {t : Nat} (e : Eng) : VTimeR t id e (e.becomeNewLeader dbg now) := by
  unfold becomeNewLeader
  refine VTimeR.bind fun l => VTimeR.bindI fun st hst => VTimeR.bind fun l2 => ?_
  have hv := congrArg Leased.lastUpdate (acceptIo_vote hst)
  have h1 : VTime t e (rhRebuildStreams (updateServerState (Eng.push { e with st := st, leader := some l } (.updateIO none (IOId.newLog l.vote l.lastLogId)))) l) :=
    ((vtime_upd (e1 := { e with st := st, leader := some l }) _ (vtime_same hv)).trans (vtime_updateServerState _)).trans (vtime_rhRebuildStreams _ _)
  split
  · exact VTimeR.from' h1 (vtime_lhAppend _ _ _)
  · exact VTimeR.from' h1 (vtime_rhInitiate _ _)

theorem vtime_becomeLeader {t : Nat} (e : Eng) : VTimeR t id e (e.becomeLeader dbg now) := by
  unfold becomeLeader
  split
  · split
    · exact VTimeR.pure (vtime_same rfl)
    · exact vtime_becomeNewLeader _
  · exact vtime_becomeNewLeader _

theorem vtime_becomeFollowing (e : Eng) : VTimeR now id e (e.becomeFollowing dbg) := by
  unfold becomeFollowing
  exact VTimeR.bind fun _ => VTimeR.pure (vtime_same rfl)

theorem vtime_updateInternal {t : Nat} (e : Eng) : VTimeR t id e (e.updateInternal dbg now) := by
  unfold updateInternal
  split
  · exact vtime_becomeLeader _
  · split
    · exact VTimeR.pure (VTime.refl _)
    · exact vtime_becomeFollowing _

theorem vtime_storeVote (e : Eng) (lease : Nat) (v : Vote) : VTimeR now id e (e.storeVote dbg now lease v) := by
  unfold storeVote
  split
  · refine VTimeR.bindI fun st hst => VTimeR.pure (Or.inr ?_)
    exact congrArg Leased.lastUpdate (acceptIo_vote hst)
  · refine VTimeR.bindI fun vt hvt => VTimeR.pure (Or.inr ?_)
    unfold Leased.touch at hvt
    rw [bind_ok] at hvt
    obtain ⟨_, _, hvt⟩ := hvt
    rw [pure_ok] at hvt; subst hvt; rfl

theorem vtime_updateVote (e : Eng) (v : Vote) : VTimeR now Prod.snd e (e.updateVote dbg now v) := by
  unfold updateVote
  split
  · refine VTimeR.bindE id (vtime_storeVote _ _ _) fun e1 => VTimeR.bindE id (vtime_updateInternal _) fun e2 => ?_
    exact VTimeR.pure (VTime.refl _)
  · exact VTimeR.pure (VTime.refl _)

theorem vtime_fhTruncate (e : Eng) (i : Nat) : VTimeR now id e (e.fhTruncate dbg i) := by
  unfold fhTruncate
  refine VTimeR.bind fun _ => ?_
  split
  · exact VTimeR.pure (VTime.refl _)
  · refine VTimeR.bind fun ms => ?_
    dsimp only
    split
    · exact VTimeR.pure (vtime_same rfl)
    · exact VTimeR.pure (vtime_same rfl)

theorem vtime_fhAppendMembership (e : Eng) (es : List Ent) : VTimeR now id e (e.fhAppendMembership dbg es) := by
  unfold fhAppendMembership
  split
  · exact VTimeR.pure (VTime.refl _)
  · exact VTimeR.bind fun ms => VTimeR.pure (vtime_same rfl)

theorem vtime_fhDoAppend (e : Eng) (v : Vote) (es : List Ent) : VTimeR now id e (e.fhDoAppend dbg v es) := by
  unfold fhDoAppend
  refine VTimeR.bind fun _ => VTimeR.bind fun _ => VTimeR.bind fun _ => ?_
  refine VTimeR.from' (e1 := { e with st := { e.st with logIds := LogIdList.extend e.st.logIds (es.map (·.id)) } })
    (vtime_same rfl) (VTimeR.bindE id (vtime_fhAppendMembership _ _) fun e1 => VTimeR.pure (vtime_push _ _))

theorem vtime_fhAppendEntries (e : Eng) (v : Vote) (prev : Option LogId) (es : List Ent) :
    VTimeR now id e (e.fhAppendEntries dbg v prev es) := by
  unfold fhAppendEntries
  refine VTimeR.bind fun _ => VTimeR.bindI fun st hst => VTimeR.bind fun since => ?_
  have hv := congrArg Leased.lastUpdate (acceptIo_vote hst)
  split
  · refine VTimeR.from' (e1 := { e with st := st }) (vtime_same hv)
      (VTimeR.bindE id (vtime_fhTruncate _ _) fun e1 => vtime_fhDoAppend _ _ _)
  · split
    · exact VTimeR.pure (vtime_same hv)
    · exact VTimeR.pure (vtime_upd (e1 := { e with st := st }) _ (vtime_same hv))

theorem vtime_fhEnsure (e : Eng) (prev : Option LogId) : VTimeR now Prod.snd e (e.fhEnsure dbg prev) := by
  unfold fhEnsure
  split
  · exact VTimeR.pure (VTime.refl _)
  · refine VTimeR.bind fun b => ?_
    split
    · exact VTimeR.pure (VTime.refl _)
    · exact VTimeR.bindE id (vtime_fhTruncate _ _) fun e1 => VTimeR.pure (VTime.refl _)

theorem vtime_fhCommit (e : Eng) (lc : Option LogId) : VTimeR now id e (e.fhCommit dbg lc) := by
  unfold fhCommit
  refine VTimeR.bindI fun p hp => ?_
  obtain ⟨ch, st⟩ := p
  have hv := congrArg Leased.lastUpdate (updateCommitted_vote hp)
  dsimp only
  split
  · refine VTimeR.bind fun i => VTimeR.pure (VTime.trans ?_ (vtime_maybeSnapshot _))
    refine vtime_upd (e1 := Eng.push { e with st := st } _) _ ?_
    exact vtime_upd (e1 := { e with st := st }) _ (vtime_same hv)
  · exact VTimeR.pure (VTime.refl _)

theorem vtime_fhInstallTruncate (e : Eng) (l : LogId) : VTimeR now id e (e.fhInstallTruncate dbg l) := by
  unfold fhInstallTruncate
  split
  · split
    · exact vtime_fhTruncate _ _
    · exact VTimeR.pure (VTime.refl _)
  · exact VTimeR.pure (VTime.refl _)

theorem vtime_fhInstall (e : Eng) (v : Vote) (m : SnapMeta) : VTimeR now Prod.snd e (e.fhInstall dbg v m) := by
  unfold fhInstall
  split
  · exact VTimeR.pure (VTime.refl _)
  · refine VTimeR.bind fun last => ?_
    have hu := vtime_updateSnapshot (now := now) e m
    split
    · next e1 he => rw [he] at hu; exact VTimeR.pure hu
    · next e1 he =>
      rw [he] at hu
      refine VTimeR.from' hu (VTimeR.bindE id (vtime_fhInstallTruncate _ _) fun e2 => ?_)
      refine VTimeR.bindI fun st hst => VTimeR.bind fun ms => VTimeR.pure ?_
      have hv : st.vote.lastUpdate = e2.st.vote.lastUpdate := congrArg Leased.lastUpdate (acceptIo_vote hst)
      refine VTime.trans ?_ (vtime_logPurge _)
      exact (vtime_upd (e := e2) (.sm (.install m (IOId.newLog v (some last))))
        (e1 := updateServerState { e2 with st := { st with committed := some last, ms := ms } }) (vtime_same hv)).trans (vtime_same rfl)

theorem vtime_startup (e : Eng) : VTimeR now id e (e.startup dbg now) := by
  unfold startup
  split
  · exact vtime_updateInternal _
  · exact VTimeR.pure (vtime_same rfl)

theorem vtime_elect (e : Eng) : VTimeR now id e (e.elect dbg now) := by
  unfold elect
  refine VTimeR.from' (e1 := { e with candidate := some (Candidate.new now (Vote.new (e.st.vote.data.leaderId.term + 1) e.cfg.id) e.st.lastLogId e.st.ms.effective.mem) })
    (vtime_same rfl) (VTimeR.bindE Prod.snd (vtime_updateVote _ _) fun p => ?_)
  obtain ⟨ok, e2⟩ := p
  refine VTimeR.bind fun _ => VTimeR.pure ?_
  exact (vtime_push _ _).trans (vtime_updateServerState _)

theorem vtime_initCluster (e : Eng) (m : Membership) : VTimeR now Prod.snd e (e.initCluster dbg now m) := by
  unfold initCluster
  split
  · exact VTimeR.pure (VTime.refl _)
  · split
    · exact VTimeR.pure (VTime.refl _)
    · refine VTimeR.bind fun v => ?_
      refine VTimeR.from' (e1 := { e with st := { e.st with vote := e.st.vote.update now 0 ⟨⟨0, 0⟩, true⟩ } })
        (Or.inr rfl) (VTimeR.bindE id (vtime_fhDoAppend _ _ _) fun e2 => VTimeR.bindE id (vtime_elect _) fun e3 => ?_)
      exact VTimeR.pure (VTime.refl _)

theorem vtime_handleVoteReq (e : Eng) (v : Vote) (last : Option LogId) :
    VTimeR now Prod.snd e (e.handleVoteReq dbg now v last) := by
  unfold handleVoteReq
  split
  · exact VTimeR.pure (VTime.refl _)
  · split
    · refine VTimeR.bindE Prod.snd (vtime_updateVote _ _) fun p => ?_
      exact VTimeR.pure (VTime.refl _)
    · exact VTimeR.pure (VTime.refl _)

theorem vtime_establishLeader (e : Eng) : VTimeR now id e (e.establishLeader dbg now) := by
  unfold establishLeader
  refine VTimeR.bind fun c => VTimeR.bind fun o => ?_
  split
  · exact VTimeR.pure (vtime_same rfl)
  · next l =>
    refine VTimeR.from' (e1 := rhRebuildStreams { e with candidate := none, leader := some l } l)
      ((vtime_same rfl).trans (vtime_rhRebuildStreams _ _)) (VTimeR.bindE Prod.snd (vtime_updateVote _ _) fun p => ?_)
    obtain ⟨ok, e2⟩ := p
    refine VTimeR.bind fun _ => VTimeR.bindI fun st hst => VTimeR.bind fun lo => VTimeR.bind fun l3 => ?_
    have hv : st.vote.lastUpdate = e2.st.vote.lastUpdate := congrArg Leased.lastUpdate (acceptIo_vote hst)
    exact VTimeR.from' (e1 := { e2 with st := st }) (vtime_same hv) (vtime_lhAppend _ _ _)

theorem vtime_handleVoteResp (e : Eng) (t : NodeId) (v : Vote) (last : Option LogId) (g : Bool) :
    VTimeR now id e (e.handleVoteResp dbg now t v last g) := by
  unfold handleVoteResp
  split
  · exact VTimeR.pure (VTime.refl _)
  · split
    · refine VTimeR.bind fun c1 => ?_
      dsimp only
      split
      · exact VTimeR.from' (vtime_same rfl) (vtime_establishLeader _)
      · exact VTimeR.pure (vtime_same rfl)
    · refine VTimeR.from' (e1 := if e.st.lastLogId < last then { e with seenGreater := true } else e) ?_
        (VTimeR.bindE Prod.snd (vtime_updateVote _ _) fun p => VTimeR.pure (VTime.refl _))
      split
      · exact vtime_same rfl
      · exact VTime.refl _

theorem vtime_appendEntries (e : Eng) (v : Vote) (prev : Option LogId) (es : List Ent) :
    VTimeR now Prod.snd e (e.appendEntries dbg now v prev es) := by
  unfold appendEntries
  refine VTimeR.bindE Prod.snd (vtime_updateVote _ _) fun p => ?_
  obtain ⟨ok, e1⟩ := p
  dsimp only
  split
  · refine VTimeR.bind fun lv => VTimeR.bindE Prod.snd (vtime_fhEnsure _ _) fun p => ?_
    obtain ⟨ok2, e2⟩ := p
    dsimp only
    split
    · exact VTimeR.bindE id (vtime_fhAppendEntries _ _ _ _) fun e3 => VTimeR.pure (VTime.refl _)
    · exact VTimeR.pure (VTime.refl _)
  · exact VTimeR.pure (VTime.refl _)

theorem vtime_handleAppend (e : Eng) (tx : Nat) (v : Vote) (prev : Option LogId) (es : List Ent) (lc : Option LogId) :
    VTimeR now id e (e.handleAppend dbg now tx v prev es lc) := by
  unfold handleAppend
  refine VTimeR.bindE Prod.snd (vtime_appendEntries _ _ _ _) fun p => ?_
  obtain ⟨r, e1⟩ := p
  dsimp only
  split
  · refine VTimeR.bind fun acc => VTimeR.bind fun _ => ?_
    exact VTimeR.from' (vtime_push _ _) (vtime_fhCommit _ _)
  · exact VTimeR.pure (vtime_push _ _)

theorem vtime_handleInstall (e : Eng) (tx : Nat) (v : Vote) (m : SnapMeta) :
    VTimeR now id e (e.handleInstall dbg now tx v m) := by
  unfold handleInstall
  refine VTimeR.bindE Prod.snd (vtime_updateVote _ _) fun p => ?_
  obtain ⟨ok, e1⟩ := p
  dsimp only
  split
  · refine VTimeR.bind fun lv => VTimeR.bindE Prod.snd (vtime_fhInstall _ _ _) fun p => ?_
    exact VTimeR.pure (vtime_push _ _)
  · exact VTimeR.pure (vtime_push _ _)

theorem vtime_leaderStepDown {t : Nat} (e : Eng) : VTimeR t id e (e.leaderStepDown dbg now) := by
  unfold leaderStepDown
  split
  · exact vtime_updateInternal _
  · exact VTimeR.pure (VTime.refl _)

theorem vtime_tryPurge (e : Eng) : VTime now e e.tryPurge := by
  unfold tryPurge
  split
  · exact vtime_rhTryPurge _ _
  · exact vtime_logPurge _

theorem vtime_finishBuilding (e : Eng) (m : SnapMeta) : VTimeR now id e (e.finishBuilding dbg m) := by
  unfold finishBuilding
  dsimp only
  have hu := vtime_updateSnapshot (now := now) { e with st := { e.st with io := { e.st.io with building := false } } } m
  have h0 : VTime now e { e with st := { e.st with io := { e.st.io with building := false } } } := vtime_same rfl
  split
  · next e1 he => rw [he] at hu; exact VTimeR.pure (h0.trans hu)
  · next e1 he =>
    rw [he] at hu
    exact VTimeR.from' (h0.trans hu) (VTimeR.bindE id (vtime_schedulePurge _) fun e2 => VTimeR.pure (vtime_tryPurge _))

theorem vtime_triggerPurge (e : Eng) (i : Nat) : VTimeR now id e (e.triggerPurge dbg i) := by
  unfold triggerPurge
  split
  · exact VTimeR.pure (VTime.refl _)
  · split
    · exact VTimeR.pure (VTime.refl _)
    · exact VTimeR.bind fun x => VTimeR.bindE id (vtime_updatePurgeUpto _ _) fun e1 => VTimeR.pure (vtime_tryPurge _)

theorem vtime_triggerTransfer (e : Eng) (t : NodeId) : VTimeR now id e (e.triggerTransfer dbg t) := by
  unfold triggerTransfer
  refine VTimeR.bind fun o => ?_
  split
  · exact VTimeR.pure (VTime.refl _)
  · exact VTimeR.pure (vtime_lhTransfer _ _ _)

theorem vtime_writeEntry (e : Eng) (p : Payload) : VTimeR now Prod.snd e (e.writeEntry dbg p) := by
  unfold writeEntry
  refine VTimeR.bind fun o => ?_
  split
  · exact VTimeR.pure (VTime.refl _)
  · split
    · exact VTimeR.pure (VTime.refl _)
    · exact VTimeR.bindE id (vtime_lhAppend _ _ _) fun e1 => VTimeR.bind fun l => VTimeR.pure (VTime.refl _)

theorem vtime_coreHeartbeat (e : Eng) : VTimeR now id e (e.coreHeartbeat dbg) := by
  unfold coreHeartbeat
  refine VTimeR.bind fun o => ?_
  split
  · exact VTimeR.pure (VTime.refl _)
  · split
    · exact VTimeR.pure (VTime.refl _)
    · exact VTimeR.pure (vtime_push _ _)

theorem vtime_tickElection (e : Eng) (en : Bool) : VTimeR now id e (e.tickElection dbg now en) := by
  unfold tickElection
  split
  · exact VTimeR.pure (VTime.refl _)
  · split
    · exact VTimeR.pure (VTime.refl _)
    · split
      · exact VTimeR.pure (VTime.refl _)
      · have hgo : ∀ b : Bool, VTimeR now id e (if b = true then elect dbg now { e with seenGreater := false } else pure e) := by
          intro b
          split
          · exact VTimeR.from' (vtime_same rfl) (vtime_elect _)
          · exact VTimeR.pure (VTime.refl _)
        exact hgo _

theorem vtime_tickHeartbeat {t : Nat} (e : Eng) (en : Bool) (iv : Nat) : VTimeR t id e (e.tickHeartbeat dbg now en iv) := by
  unfold tickHeartbeat
  split
  · exact VTimeR.pure (VTime.refl _)
  · split
    · dsimp only
      split
      · exact VTimeR.bindE id (vtime_coreHeartbeat _) fun e1 => VTimeR.pure (vtime_same rfl)
      · exact VTimeR.bindE id (VTimeR.pure (VTime.refl _)) fun e1 => VTimeR.pure (vtime_same rfl)
    · exact VTimeR.pure (VTime.refl _)

theorem vtime_input (e : Eng) (i : Input) : VTimeR now id e (e.input dbg now i) := by
  cases i with
  | appendReq tx v prev es lc => exact vtime_handleAppend _ _ _ _ _ _
  | voteReq tx v last =>
    simp only [input, coreVoteReq]
    exact VTimeR.bindE Prod.snd (vtime_handleVoteReq _ _ _) fun p => VTimeR.pure (vtime_push _ _)
  | snapReq tx v m => exact vtime_handleInstall _ _ _ _
  | init tx m =>
    simp only [input, coreInit]
    exact VTimeR.bindE Prod.snd (vtime_initCluster _ _) fun p => VTimeR.pure (vtime_push _ _)
  | write p =>
    simp only [input]
    exact VTimeR.bindE Prod.snd (vtime_writeEntry _ _) fun p => VTimeR.pure (VTime.refl _)
  | change c r =>
    simp only [input]
    refine VTimeR.bindE Prod.snd ?_ fun p => VTimeR.pure (VTime.refl _)
    unfold changeMembership
    split
    · exact VTimeR.pure (VTime.refl _)
    · exact vtime_writeEntry _ _
  | handleTransfer v target =>
    simp only [input, coreHandleTransfer]
    split
    · split
      · exact VTimeR.from' (vtime_same rfl) (vtime_elect _)
      · exact VTimeR.pure (vtime_same rfl)
    · exact VTimeR.pure (VTime.refl _)
  | electCmd =>
    simp only [input, coreElect]
    split
    · exact vtime_elect _
    · exact VTimeR.pure (VTime.refl _)
  | heartbeatCmd => exact vtime_coreHeartbeat _
  | snapshotCmd => exact VTimeR.pure (vtime_triggerSnapshot _)
  | purgeCmd i => exact vtime_triggerPurge _ _
  | transferCmd t => exact vtime_triggerTransfer _ _
  | voteResp target v last granted sender =>
    simp only [input]
    split
    · exact vtime_handleVoteResp _ _ _ _ _
    · exact VTimeR.pure (VTime.refl _)
  | higherVote v sender =>
    simp only [input]
    split
    · exact VTimeR.bindE Prod.snd (vtime_updateVote _ _) fun p => VTimeR.pure (VTime.refl _)
    · exact VTimeR.pure (VTime.refl _)
  | tick el hb iv =>
    simp only [input, coreTick]
    refine VTimeR.bindE id (vtime_tickElection _ _) fun e1 => VTimeR.bindE id (vtime_tickHeartbeat _ _ _) fun e2 => ?_
    split
    · exact vtime_leaderStepDown _
    · exact VTimeR.pure (VTime.refl _)
  | localIO io =>
    simp only [input, coreLocalIO]
    refine VTimeR.bind fun p => ?_
    split
    · split
      · split
        · exact VTimeR.from' (e1 := e.withProg p) (vtime_same rfl) (vtime_rhUpdateLocal _ _ _)
        · exact VTimeR.pure (vtime_same rfl)
      · exact VTimeR.pure (vtime_same rfl)
    · exact VTimeR.pure (vtime_same rfl)
  | replProgress s target r =>
    simp only [input, coreReplProgress]
    split
    · exact VTimeR.bind fun l => vtime_rhUpdateProgress _ _ _ _
    · exact VTimeR.pure (VTime.refl _)
  | hbProgress s target t =>
    simp only [input, coreHbProgress]
    split
    · exact VTimeR.bind fun l => vtime_rhUpdateClock _ _ _ _
    · exact VTimeR.pure (VTime.refl _)
  | built m =>
    simp only [input, coreBuilt]
    exact VTimeR.bindE id (vtime_finishBuilding _ _) fun e1 => VTimeR.bind fun io => VTimeR.pure (vtime_same rfl)
  | installed io m =>
    simp only [input, coreInstalled]
    exact VTimeR.bind fun p => VTimeR.bind fun s1 => VTimeR.bind fun s2 => VTimeR.pure (vtime_same rfl)
  | applied last =>
    simp only [input, coreApplied]
    exact VTimeR.bind fun s => VTimeR.pure (vtime_same rfl)
  | initiate =>
    simp only [input, coreInitiate]
    refine VTimeR.bind fun o => ?_
    split
    · exact VTimeR.pure (VTime.refl _)
    · exact vtime_rhInitiate _ _

/-! ## what sets the time to the present -/

theorem vtime_now {a b : Eng} (h : VTime now a b) (k : a.st.vote.lastUpdate = some now) : b.st.vote.lastUpdate = some now := by
  rcases h with h | h
  · exact h.trans k
  · exact h

theorem touch_storeVote {e e1 : Eng} {lease : Nat} {v : Vote} (h : e.storeVote dbg now lease v = .ok e1) :
    e1.st.vote.lastUpdate = some now := by
  unfold storeVote at h
  split at h
  · rw [bind_ok] at h
    obtain ⟨st, hst, h⟩ := h
    rw [pure_ok] at h; subst h
    exact congrArg Leased.lastUpdate (acceptIo_vote hst)
  · rw [bind_ok] at h
    obtain ⟨vt, hvt, h⟩ := h
    rw [pure_ok] at h; subst h
    unfold Leased.touch at hvt
    rw [bind_ok] at hvt
    obtain ⟨_, _, hvt⟩ := hvt
    rw [pure_ok] at hvt; subst hvt; rfl

/-- a vote that is taken over or renewed -/
theorem touch_updateVote {e e1 : Eng} {v : Vote} (h : e.updateVote dbg now v = .ok (true, e1)) : e1.st.vote.lastUpdate = some now := by
  unfold updateVote at h
  split at h
  · rw [bind_ok] at h
    obtain ⟨a, ha, h⟩ := h
    rw [bind_ok] at h
    obtain ⟨b, hb, h⟩ := h
    rw [pure_ok] at h
    cases h
    exact vtime_now (vtime_updateInternal a _ hb) (touch_storeVote ha)
  · rw [pure_ok] at h; cases h

theorem touch_elect {e e1 : Eng} (h : e.elect dbg now = .ok e1) : e1.st.vote.lastUpdate = some now := by
  unfold elect at h
  dsimp only at h
  rw [bind_ok] at h
  obtain ⟨⟨ok, e2⟩, h2, h⟩ := h
  rw [bind_ok] at h
  obtain ⟨_, hu, h⟩ := h
  rw [pure_ok] at h; subst h
  cases ok
  · cases hu
  · have := touch_updateVote h2
    exact this

/-- an election asks for votes -/
theorem asks_elect {e e1 : Eng} (h : e.elect dbg now = .ok e1) :
    ∃ o, e1.out = e.out ++ o ++ [.sendVote (Vote.new (e.st.vote.data.leaderId.term + 1) e.cfg.id) e.st.lastLogId] := by
  unfold elect at h
  dsimp only at h
  rw [bind_ok] at h
  obtain ⟨⟨ok, e2⟩, h2, h⟩ := h
  rw [bind_ok] at h
  obtain ⟨_, hu, h⟩ := h
  rw [pure_ok] at h; subst h
  obtain ⟨o, ho⟩ := (grow_updateVote _ _ _ h2).2
  exact ⟨o, congrArg (· ++ [_]) ho.symm⟩

/-- what is kept or the present, whatever the present is, is kept -/
theorem vtime_kept {e e' : Eng} (h : ∀ t, VTime t e e') : e'.st.vote.lastUpdate = e.st.vote.lastUpdate := by
  rcases h 0 with h0 | h0
  · exact h0
  · rcases h 1 with h1 | h1
    · exact h1
    · rw [h0] at h1; cases h1

end Eng
end Openraft.Engine
