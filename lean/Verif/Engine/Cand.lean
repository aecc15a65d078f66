import Verif.Engine.Emits

/-!
# The candidate's count of votes

`Keep e e'`: the handler left the candidate as it was, or dropped it. Every handler does, except the
start of an election and the answer to a vote request that grants it.
-/

set_option autoImplicit false

namespace Openraft.Engine
open Openraft.Repl (Panic dassert Inflight)
open Openraft.Cluster (Payload)

/-- the candidate is the same or gone -/
def Keep (e e' : Eng) : Prop := e'.candidate = e.candidate ∨ e'.candidate = none

theorem Keep.refl (e : Eng) : Keep e e := Or.inl rfl
theorem Keep.trans {a b c : Eng} (h : Keep a b) (k : Keep b c) : Keep a c := by
  rcases k with k | k
  · rcases h with h | h
    · exact Or.inl (k.trans h)
    · exact Or.inr (k.trans h)
  · exact Or.inr k

/-- `Keep` for a result, `π` picks the engine -/
def KeepR {α : Type} (π : α → Eng) (e : Eng) (r : Res α) : Prop := ∀ a, r = .ok a → Keep e (π a)

namespace KeepR
variable {α β : Type} {π : α → Eng} {e : Eng}

theorem pure {a : α} (h : Keep e (π a)) : KeepR π e (Pure.pure a) := by
  intro b hb; rw [pure_ok] at hb; subst hb; exact h

theorem ok {a : α} (h : Keep e (π a)) : KeepR π e (Except.ok a) := by
  intro b hb; cases hb; exact h

theorem bind {x : Res β} {f : β → Res α} (h : ∀ b, KeepR π e (f b)) : KeepR π e (x >>= f) := by
  intro a ha; rw [bind_ok] at ha
  obtain ⟨b, _, hb⟩ := ha; exact h b a hb

theorem bindE (π' : β → Eng) {x : Res β} {f : β → Res α} (hx : KeepR π' e x) (h : ∀ b, KeepR π (π' b) (f b)) :
    KeepR π e (x >>= f) := by
  intro a ha; rw [bind_ok] at ha
  obtain ⟨b, hx', hb⟩ := ha; exact (hx b hx').trans (h b a hb)

theorem from' {e1 : Eng} {r : Res α} (h : Keep e e1) (k : KeepR π e1 r) : KeepR π e r :=
  fun a ha => h.trans (k a ha)

theorem rebase {e1 : Eng} {r : Res α} (h : KeepR π e1 r) (k : Keep e e1) : KeepR π e r := from' k h

end KeepR

namespace Eng
variable {dbg : Bool} {now : Nat}

theorem keep_push (e : Eng) (c : Cmd) : Keep e (e.push c) := Or.inl rfl

theorem keep_upd {e e1 : Eng} (c : Cmd) (h : Keep e e1) : Keep e (e1.push c) :=
  h.trans (keep_push _ _)

theorem keep_same {e e1 : Eng} (h : e1.candidate = e.candidate := by rfl) : Keep e e1 := Or.inl h

theorem keep_logPurge (e : Eng) : Keep e e.logPurge := by
  unfold logPurge
  split
  · exact Keep.refl _
  · split
    · exact Keep.refl _
    · exact keep_upd _ keep_same

theorem keep_updatePurgeUpto (e : Eng) (x : LogId) : KeepR id e (e.updatePurgeUpto dbg x) := by
  unfold updatePurgeUpto
  exact KeepR.bind fun _ => KeepR.pure keep_same

theorem keep_schedulePurge (e : Eng) : KeepR id e (e.schedulePurge dbg) := by
  unfold schedulePurge
  refine KeepR.bind fun o => ?_
  split
  · exact keep_updatePurgeUpto _ _
  · exact KeepR.pure (Keep.refl _)

theorem keep_triggerSnapshot (e : Eng) : Keep e e.triggerSnapshot := by
  unfold triggerSnapshot
  split
  · exact Keep.refl _
  · exact keep_upd _ keep_same

theorem keep_updateSnapshot  (e : Eng) (m : SnapMeta) : Keep e (e.updateSnapshot m).2 := by
  unfold updateSnapshot
  split
  · exact Keep.refl _
  · exact keep_same

theorem keep_maybeSnapshot (e : Eng) : Keep e e.maybeSnapshot := by
  unfold maybeSnapshot
  split
  · exact keep_triggerSnapshot _
  · exact Keep.refl _

theorem keep_rhRebuildStreams (e : Eng) (l : Leader) : Keep e (e.rhRebuildStreams l) := by
  unfold rhRebuildStreams
  exact keep_upd _ keep_same

theorem keep_rhInitiate (e : Eng) (l : Leader) : KeepR id e (e.rhInitiate dbg l) := by
  unfold rhInitiate
  intro e' he
  rw [bind_ok] at he
  obtain ⟨⟨ent, cmds⟩, hp, he⟩ := he
  rw [pure_ok] at he; subst he
  exact Or.inl rfl

theorem keep_rhAppendMembership (e : Eng) (l : Leader) (i : LogId) (m : Membership) :
    KeepR id e (e.rhAppendMembership dbg l i m) := by
  unfold rhAppendMembership
  refine KeepR.bind fun _ => KeepR.bind fun _ => KeepR.bind fun ms => KeepR.bind fun l2 => ?_
  refine KeepR.from' ?_ (keep_rhInitiate _ _)
  exact (keep_same (e1 := { e with st := { e.st with ms := ms } })).trans (keep_rhRebuildStreams _ _)

theorem keep_rhTryCommit (e : Eng) (g : Option LogId) : KeepR id e (e.rhTryCommit dbg g) := by
  unfold rhTryCommit
  split
  · exact KeepR.pure (Keep.refl _)
  · split
    · refine KeepR.bind fun p => ?_
      obtain ⟨ch, st⟩ := p
      dsimp only
      split
      · exact KeepR.pure ((keep_upd _ (keep_upd _ (keep_upd _ keep_same))).trans (keep_maybeSnapshot _))
      · exact KeepR.pure (Keep.refl _)
    · exact KeepR.pure (Keep.refl _)

theorem keep_rhUpdateMatching (e : Eng) (l : Leader) (n : NodeId) (m : Option LogId) :
    KeepR id e (e.rhUpdateMatching dbg l n m) := by
  unfold rhUpdateMatching
  refine KeepR.bind fun _ => KeepR.bind fun _ => KeepR.bind fun en => KeepR.bind fun vp => ?_
  exact KeepR.from' keep_same (keep_rhTryCommit _ _)

theorem keep_rhUpdateConflicting (e : Eng) (l : Leader) (n : NodeId) (c : LogId) :
    KeepR id e (e.rhUpdateConflicting dbg l n c) := by
  unfold rhUpdateConflicting
  exact KeepR.bind fun _ => KeepR.bind fun _ => KeepR.pure keep_same

theorem keep_rhTryPurge (e : Eng) (l : Leader) : Keep e (e.rhTryPurge l) := by
  unfold rhTryPurge
  split
  · exact Keep.refl _
  · split
    · exact Keep.refl _
    · split
      · exact Keep.refl _
      · exact keep_logPurge _

theorem keep_rhFailed (e : Eng) (l : Leader) (n : NodeId) : KeepR id e (e.rhFailed l n) := by
  unfold rhFailed
  exact KeepR.bind fun _ => KeepR.pure keep_same

theorem keep_rhUpdateProgress (e : Eng) (l : Leader) (n : NodeId) (r : ReplResult) :
    KeepR id e (e.rhUpdateProgress dbg l n r) := by
  unfold rhUpdateProgress
  have hgo : ∀ x : Res Eng, KeepR id e x → KeepR id e (x >>= fun e1 => (unwrap e1.leader >>= fun l1 => (pure (rhTryPurge e1 l1) : Res Eng))) :=
    fun x hx => KeepR.bindE id hx fun b => KeepR.bind fun l1 => KeepR.pure (keep_rhTryPurge _ _)
  cases r with
  | matching m => exact hgo _ (keep_rhUpdateMatching _ _ _ _)
  | conflict c => exact hgo _ (keep_rhUpdateConflicting _ _ _ _)
  | failed => exact hgo _ (keep_rhFailed _ _ _)

theorem keep_rhUpdateClock (e : Eng) (l : Leader) (n : NodeId) (t : Nat) : KeepR id e (e.rhUpdateClock l n t) := by
  unfold rhUpdateClock
  exact KeepR.bind fun _ => KeepR.pure keep_same

theorem keep_rhUpdateLocal (e : Eng) (l : Leader) (u : Option LogId) : KeepR id e (e.rhUpdateLocal dbg l u) := by
  unfold rhUpdateLocal
  split
  · exact KeepR.pure (Keep.refl _)
  · split
    · split
      · exact KeepR.pure (Keep.refl _)
      · exact keep_rhUpdateMatching _ _ _ _
    · exact KeepR.pure (Keep.refl _)

theorem keep_lhMembership (e : Eng) (l : Leader) (m : Option StoredMem) : KeepR id e (e.lhMembership dbg l m) := by
  unfold lhMembership
  split
  · exact keep_rhAppendMembership _ _ _ _
  · exact KeepR.pure (Keep.refl _)

theorem keep_lhAppend (e : Eng) (l : Leader) (ps : List Payload) : KeepR id e (e.lhAppend dbg l ps) := by
  unfold lhAppend
  split
  · exact KeepR.pure (Keep.refl _)
  · refine KeepR.bind fun _ => KeepR.bind fun ids => KeepR.bind fun _ => KeepR.bind fun st => ?_
    refine KeepR.from' (keep_upd _ keep_same) (KeepR.bindE id (keep_lhMembership _ _ _) fun e2 => ?_)
    exact KeepR.bind fun l2 => keep_rhInitiate _ _

theorem keep_lhTransfer (e : Eng) (l : Leader) (t : NodeId) : Keep e (e.lhTransfer l t) :=
  keep_upd _ keep_same

theorem keep_updateServerState  (e : Eng) : Keep e e.updateServerState := keep_same

theorem keep_becomeNewLeader (e : Eng) : KeepR id e (e.becomeNewLeader dbg now) := by
  unfold becomeNewLeader
  refine KeepR.bind fun l => KeepR.bind fun st => KeepR.bind fun l2 => ?_
  have h1 : Keep e (rhRebuildStreams (updateServerState (Eng.push { e with st := st, leader := some l } (.updateIO none (IOId.newLog l.vote l.lastLogId)))) l) :=
    ((keep_upd _ keep_same).trans (keep_updateServerState _)).trans (keep_rhRebuildStreams _ _)
  split
  · exact KeepR.from' h1 (keep_lhAppend _ _ _)
  · exact KeepR.from' h1 (keep_rhInitiate _ _)

theorem keep_becomeLeader (e : Eng) : KeepR id e (e.becomeLeader dbg now) := by
  unfold becomeLeader
  split
  · split
    · exact KeepR.pure keep_same
    · exact keep_becomeNewLeader _
  · exact keep_becomeNewLeader _

theorem keep_becomeFollowing (e : Eng) : KeepR id e (e.becomeFollowing dbg) := by
  unfold becomeFollowing
  exact KeepR.bind fun _ => KeepR.pure (Or.inr rfl)

theorem keep_updateInternal (e : Eng) : KeepR id e (e.updateInternal dbg now) := by
  unfold updateInternal
  split
  · exact keep_becomeLeader _
  · split
    · exact KeepR.pure (Keep.refl _)
    · exact keep_becomeFollowing _

theorem keep_storeVote (e : Eng) (lease : Nat) (v : Vote) : KeepR id e (e.storeVote dbg now lease v) := by
  unfold storeVote
  split
  · exact KeepR.bind fun st => KeepR.pure (keep_upd _ keep_same)
  · exact KeepR.bind fun vt => KeepR.pure keep_same

theorem keep_updateVote (e : Eng) (v : Vote) : KeepR Prod.snd e (e.updateVote dbg now v) := by
  unfold updateVote
  split
  · refine KeepR.bindE id (keep_storeVote _ _ _) fun e1 => KeepR.bindE id (keep_updateInternal _) fun e2 => ?_
    exact KeepR.pure (Keep.refl _)
  · exact KeepR.pure (Keep.refl _)

theorem keep_fhTruncate (e : Eng) (i : Nat) : KeepR id e (e.fhTruncate dbg i) := by
  unfold fhTruncate
  refine KeepR.bind fun _ => ?_
  split
  · exact KeepR.pure (Keep.refl _)
  · refine KeepR.bind fun ms => ?_
    dsimp only
    split
    · exact KeepR.pure ((keep_upd _ keep_same).trans (keep_updateServerState _))
    · exact KeepR.pure (keep_upd _ keep_same)

theorem keep_fhAppendMembership (e : Eng) (es : List Ent) : KeepR id e (e.fhAppendMembership dbg es) := by
  unfold fhAppendMembership
  split
  · exact KeepR.pure (Keep.refl _)
  · exact KeepR.bind fun ms => KeepR.pure keep_same

theorem keep_fhDoAppend (e : Eng) (v : Vote) (es : List Ent) : KeepR id e (e.fhDoAppend dbg v es) := by
  unfold fhDoAppend
  refine KeepR.bind fun _ => KeepR.bind fun _ => KeepR.bind fun _ => ?_
  refine KeepR.from' (e1 := { e with st := { e.st with logIds := LogIdList.extend e.st.logIds (es.map (·.id)) } })
    keep_same (KeepR.bindE id (keep_fhAppendMembership _ _) fun e1 => KeepR.pure (keep_push _ _))

theorem keep_fhAppendEntries (e : Eng) (v : Vote) (prev : Option LogId) (es : List Ent) :
    KeepR id e (e.fhAppendEntries dbg v prev es) := by
  unfold fhAppendEntries
  refine KeepR.bind fun _ => KeepR.bind fun st => KeepR.bind fun since => ?_
  split
  · refine KeepR.from' (e1 := { e with st := st }) keep_same
      (KeepR.bindE id (keep_fhTruncate _ _) fun e1 => keep_fhDoAppend _ _ _)
  · split
    · exact KeepR.pure keep_same
    · exact KeepR.pure (keep_upd _ keep_same)

theorem keep_fhEnsure (e : Eng) (prev : Option LogId) : KeepR Prod.snd e (e.fhEnsure dbg prev) := by
  unfold fhEnsure
  split
  · exact KeepR.pure (Keep.refl _)
  · refine KeepR.bind fun b => ?_
    split
    · exact KeepR.pure (Keep.refl _)
    · exact KeepR.bindE id (keep_fhTruncate _ _) fun e1 => KeepR.pure (Keep.refl _)

theorem keep_fhCommit (e : Eng) (lc : Option LogId) : KeepR id e (e.fhCommit dbg lc) := by
  unfold fhCommit
  refine KeepR.bind fun p => ?_
  obtain ⟨ch, st⟩ := p
  dsimp only
  split
  · refine KeepR.bind fun i => ?_
    exact KeepR.pure ((keep_upd _ (keep_upd _ keep_same)).trans (keep_maybeSnapshot _))
  · exact KeepR.pure (Keep.refl _)

theorem keep_fhInstallTruncate (e : Eng) (l : LogId) : KeepR id e (e.fhInstallTruncate dbg l) := by
  unfold fhInstallTruncate
  split
  · split
    · exact keep_fhTruncate _ _
    · exact KeepR.pure (Keep.refl _)
  · exact KeepR.pure (Keep.refl _)

theorem keep_fhInstall (e : Eng) (v : Vote) (m : SnapMeta) : KeepR Prod.snd e (e.fhInstall dbg v m) := by
  unfold fhInstall
  split
  · exact KeepR.pure (Keep.refl _)
  · refine KeepR.bind fun last => ?_
    have hu := keep_updateSnapshot e m
    split
    · next e1 he => rw [he] at hu; exact KeepR.pure hu
    · next e1 he =>
      rw [he] at hu
      refine KeepR.from' hu (KeepR.bindE id (keep_fhInstallTruncate _ _) fun e2 => ?_)
      refine KeepR.bind fun st => KeepR.bind fun ms => KeepR.pure ?_
      refine Keep.trans ?_ (keep_logPurge _)
      exact (keep_upd (e := e2) (.sm (.install m (IOId.newLog v (some last))))
        (e1 := updateServerState { e2 with st := { st with committed := some last, ms := ms } }) keep_same).trans keep_same

theorem keep_startup (e : Eng) : KeepR id e (e.startup dbg now) := by
  unfold startup
  split
  · exact keep_updateInternal _
  · exact KeepR.pure keep_same

theorem keep_handleVoteReq (e : Eng) (v : Vote) (last : Option LogId) :
    KeepR Prod.snd e (e.handleVoteReq dbg now v last) := by
  unfold handleVoteReq
  split
  · exact KeepR.pure (Keep.refl _)
  · split
    · refine KeepR.bindE Prod.snd (keep_updateVote _ _) fun p => ?_
      exact KeepR.pure (Keep.refl _)
    · exact KeepR.pure (Keep.refl _)

theorem keep_establishLeader (e : Eng) : KeepR id e (e.establishLeader dbg now) := by
  unfold establishLeader
  refine KeepR.bind fun c => KeepR.bind fun o => ?_
  split
  · exact KeepR.pure (Or.inr rfl)
  · next l =>
    refine KeepR.from' (e1 := rhRebuildStreams { e with candidate := none, leader := some l } l)
      (Or.inr rfl) (KeepR.bindE Prod.snd (keep_updateVote _ _) fun p => ?_)
    obtain ⟨ok, e2⟩ := p
    refine KeepR.bind fun _ => KeepR.bind fun st => KeepR.bind fun lo => KeepR.bind fun l3 => ?_
    exact KeepR.from' keep_same (keep_lhAppend _ _ _)

theorem keep_appendEntries (e : Eng) (v : Vote) (prev : Option LogId) (es : List Ent) :
    KeepR Prod.snd e (e.appendEntries dbg now v prev es) := by
  unfold appendEntries
  refine KeepR.bindE Prod.snd (keep_updateVote _ _) fun p => ?_
  obtain ⟨ok, e1⟩ := p
  dsimp only
  split
  · refine KeepR.bind fun lv => KeepR.bindE Prod.snd (keep_fhEnsure _ _) fun p => ?_
    obtain ⟨ok2, e2⟩ := p
    dsimp only
    split
    · exact KeepR.bindE id (keep_fhAppendEntries _ _ _ _) fun e3 => KeepR.pure (Keep.refl _)
    · exact KeepR.pure (Keep.refl _)
  · exact KeepR.pure (Keep.refl _)

theorem keep_handleAppend (e : Eng) (tx : Nat) (v : Vote) (prev : Option LogId) (es : List Ent) (lc : Option LogId) :
    KeepR id e (e.handleAppend dbg now tx v prev es lc) := by
  unfold handleAppend
  refine KeepR.bindE Prod.snd (keep_appendEntries _ _ _ _) fun p => ?_
  obtain ⟨r, e1⟩ := p
  dsimp only
  split
  · refine KeepR.bind fun acc => KeepR.bind fun _ => ?_
    exact KeepR.from' (keep_push _ _) (keep_fhCommit _ _)
  · exact KeepR.pure (keep_push _ _)

theorem keep_handleInstall (e : Eng) (tx : Nat) (v : Vote) (m : SnapMeta) :
    KeepR id e (e.handleInstall dbg now tx v m) := by
  unfold handleInstall
  refine KeepR.bindE Prod.snd (keep_updateVote _ _) fun p => ?_
  obtain ⟨ok, e1⟩ := p
  dsimp only
  split
  · refine KeepR.bind fun lv => KeepR.bindE Prod.snd (keep_fhInstall _ _ _) fun p => ?_
    exact KeepR.pure (keep_push _ _)
  · exact KeepR.pure (keep_push _ _)

theorem keep_leaderStepDown (e : Eng) : KeepR id e (e.leaderStepDown dbg now) := by
  unfold leaderStepDown
  split
  · exact keep_updateInternal _
  · exact KeepR.pure (Keep.refl _)

theorem keep_tryPurge (e : Eng) : Keep e e.tryPurge := by
  unfold tryPurge
  split
  · exact keep_rhTryPurge _ _
  · exact keep_logPurge _

theorem keep_finishBuilding (e : Eng) (m : SnapMeta) : KeepR id e (e.finishBuilding dbg m) := by
  unfold finishBuilding
  dsimp only
  have hu := keep_updateSnapshot { e with st := { e.st with io := { e.st.io with building := false } } } m
  have h0 : Keep e { e with st := { e.st with io := { e.st.io with building := false } } } := keep_same
  split
  · next e1 he => rw [he] at hu; exact KeepR.pure (h0.trans hu)
  · next e1 he =>
    rw [he] at hu
    exact KeepR.from' (h0.trans hu) (KeepR.bindE id (keep_schedulePurge _) fun e2 => KeepR.pure (keep_tryPurge _))

theorem keep_triggerPurge (e : Eng) (i : Nat) : KeepR id e (e.triggerPurge dbg i) := by
  unfold triggerPurge
  split
  · exact KeepR.pure (Keep.refl _)
  · split
    · exact KeepR.pure (Keep.refl _)
    · exact KeepR.bind fun x => KeepR.bindE id (keep_updatePurgeUpto _ _) fun e1 => KeepR.pure (keep_tryPurge _)

theorem keep_triggerTransfer (e : Eng) (t : NodeId) : KeepR id e (e.triggerTransfer dbg t) := by
  unfold triggerTransfer
  refine KeepR.bind fun o => ?_
  split
  · exact KeepR.pure (Keep.refl _)
  · exact KeepR.pure (keep_lhTransfer _ _ _)

theorem keep_writeEntry (e : Eng) (p : Payload) : KeepR Prod.snd e (e.writeEntry dbg p) := by
  unfold writeEntry
  refine KeepR.bind fun o => ?_
  split
  · exact KeepR.pure (Keep.refl _)
  · split
    · exact KeepR.pure (Keep.refl _)
    · exact KeepR.bindE id (keep_lhAppend _ _ _) fun e1 => KeepR.bind fun l => KeepR.pure (Keep.refl _)

theorem keep_coreHeartbeat (e : Eng) : KeepR id e (e.coreHeartbeat dbg) := by
  unfold coreHeartbeat
  refine KeepR.bind fun o => ?_
  split
  · exact KeepR.pure (Keep.refl _)
  · split
    · exact KeepR.pure (Keep.refl _)
    · exact KeepR.pure (keep_push _ _)

theorem keep_tickHeartbeat (e : Eng) (en : Bool) (iv : Nat) : KeepR id e (e.tickHeartbeat dbg now en iv) := by
  unfold tickHeartbeat
  split
  · exact KeepR.pure (Keep.refl _)
  · split
    · dsimp only
      split
      · exact KeepR.bindE id (keep_coreHeartbeat _) fun e1 => KeepR.pure keep_same
      · exact KeepR.bindE id (KeepR.pure (Keep.refl _)) fun e1 => KeepR.pure keep_same
    · exact KeepR.pure (Keep.refl _)

/-- the inputs that may start an election or count a vote -/
def _root_.Openraft.Engine.Input.mayElect : Input → Bool
  | .init _ _ => true
  | .handleTransfer _ _ => true
  | .electCmd => true
  | .voteResp _ _ _ _ _ => true
  | .tick _ _ _ => true
  | _ => false

theorem keep_input (e : Eng) (i : Input) (hi : i.mayElect = false) : KeepR id e (e.input dbg now i) := by
  cases i with
  | appendReq tx v prev es lc => exact keep_handleAppend _ _ _ _ _ _
  | voteReq tx v last =>
    simp only [input, coreVoteReq]
    exact KeepR.bindE Prod.snd (keep_handleVoteReq _ _ _) fun p => KeepR.pure (keep_push _ _)
  | snapReq tx v m => exact keep_handleInstall _ _ _ _
  | init tx m => cases hi
  | write p =>
    simp only [input]
    exact KeepR.bindE Prod.snd (keep_writeEntry _ _) fun p => KeepR.pure (Keep.refl _)
  | change c r =>
    simp only [input]
    refine KeepR.bindE Prod.snd ?_ fun p => KeepR.pure (Keep.refl _)
    unfold changeMembership
    split
    · exact KeepR.pure (Keep.refl _)
    · exact keep_writeEntry _ _
  | handleTransfer v target => cases hi
  | electCmd => cases hi
  | heartbeatCmd => exact keep_coreHeartbeat _
  | snapshotCmd => exact KeepR.pure (keep_triggerSnapshot _)
  | purgeCmd i => exact keep_triggerPurge _ _
  | transferCmd t => exact keep_triggerTransfer _ _
  | voteResp target v last granted sender => cases hi
  | higherVote v sender =>
    simp only [input]
    split
    · exact KeepR.bindE Prod.snd (keep_updateVote _ _) fun p => KeepR.pure (Keep.refl _)
    · exact KeepR.pure (Keep.refl _)
  | tick el hb iv => cases hi
  | localIO io =>
    simp only [input, coreLocalIO]
    refine KeepR.bind fun p => ?_
    split
    · split
      · split
        · exact KeepR.from' (e1 := e.withProg p) keep_same (keep_rhUpdateLocal _ _ _)
        · exact KeepR.pure keep_same
      · exact KeepR.pure keep_same
    · exact KeepR.pure keep_same
  | replProgress s target r =>
    simp only [input, coreReplProgress]
    split
    · exact KeepR.bind fun l => keep_rhUpdateProgress _ _ _ _
    · exact KeepR.pure (Keep.refl _)
  | hbProgress s target t =>
    simp only [input, coreHbProgress]
    split
    · exact KeepR.bind fun l => keep_rhUpdateClock _ _ _ _
    · exact KeepR.pure (Keep.refl _)
  | built m =>
    simp only [input, coreBuilt]
    exact KeepR.bindE id (keep_finishBuilding _ _) fun e1 => KeepR.bind fun io => KeepR.pure keep_same
  | installed io m =>
    simp only [input, coreInstalled]
    exact KeepR.bind fun p => KeepR.bind fun s1 => KeepR.bind fun s2 => KeepR.pure keep_same
  | applied last =>
    simp only [input, coreApplied]
    exact KeepR.bind fun s => KeepR.pure keep_same
  | initiate =>
    simp only [input, coreInitiate]
    refine KeepR.bind fun o => ?_
    split
    · exact KeepR.pure (Keep.refl _)
    · exact keep_rhInitiate _ _

/-- a candidate for the voters of a membership that has no vote yet -/
def FreshCand (now : Nat) (mem : Membership) (c : Candidate) : Prop :=
  ∃ v last, c = Candidate.new now v last mem

/-- an election starts with a new candidate, or ends at once -/
theorem elect_cand {e e' : Eng} (hr : e.elect dbg now = .ok e') :
    (∃ c, FreshCand now e.st.ms.effective.mem c ∧ e'.candidate = some c) ∨ e'.candidate = none := by
  unfold elect at hr
  simp only [bind_ok] at hr
  obtain ⟨⟨ok, e2⟩, he2, _, _, hr⟩ := hr
  rw [pure_ok] at hr
  have hk := keep_updateVote _ _ _ he2
  subst hr
  rcases hk with hk | hk
  · exact Or.inl ⟨_, ⟨_, _, rfl⟩, hk⟩
  · exact Or.inr hk

/-- What an input does to the candidate: it stays, it is dropped, it is a new one, or it counts a grant
of the sender for its own vote. -/
theorem input_cand {e e' : Eng} {i : Input} (hr : e.input dbg now i = .ok e') :
    Keep e e' ∨ (∃ mem c, (mem = e.st.ms.effective.mem ∨ ∃ tx, i = .init tx mem) ∧ FreshCand now mem c ∧
      e'.candidate = some c) ∨
    ∃ target last c c1 sender, i = .voteResp target c.vote last true sender ∧ e.voteMatch sender = true ∧
      e.candidate = some c ∧
      grantBy c target = .ok c1 ∧ (e'.candidate = some c1 ∧ c1.progress.granted = false ∨
        e'.candidate = none ∧ c1.progress.granted = true) := by
  have hel : ∀ {e1 : Eng}, e1.st.ms = e.st.ms → e1.elect dbg now = .ok e' → Keep e e' ∨
      (∃ mem c, (mem = e.st.ms.effective.mem ∨ ∃ tx, i = .init tx mem) ∧ FreshCand now mem c ∧ e'.candidate = some c) := by
    intro e1 hm h
    rcases elect_cand h with ⟨c, h1, h2⟩ | h1
    · rw [hm] at h1; exact Or.inr ⟨_, c, Or.inl rfl, h1, h2⟩
    · exact Or.inl (Or.inr h1)
  by_cases hi : i.mayElect = false
  · exact Or.inl (keep_input e i hi e' hr)
  cases i with
  | init tx m =>
    simp only [input, coreInit, bind_ok, pure_ok] at hr
    obtain ⟨⟨ok, e1⟩, he1, hr⟩ := hr
    have hc : e'.candidate = e1.candidate := by rw [← hr]; rfl
    unfold initCluster at he1
    split at he1
    · rw [pure_ok] at he1; cases he1; exact Or.inl (Or.inl hc)
    · split at he1
      · rw [pure_ok] at he1; cases he1; exact Or.inl (Or.inl hc)
      · simp only [bind_ok, pure_ok] at he1
        obtain ⟨v, _, e2, he2, e3, he3, he1⟩ := he1
        cases he1
        have hme : e2.st.ms.effective.mem = m := by
          unfold fhDoAppend fhAppendMembership at he2
          rw [if_neg (by simp [lastTwo, Ent.stored?, Ent.membership?])] at he2
          simp only [bind_ok, pure_ok] at he2
          obtain ⟨_, _, _, _, _, _, e4, ⟨ms, hms, he4⟩, he2⟩ := he2
          have : lastTwo [(⟨⟨⟨0, 0⟩, 0⟩, .membership m⟩ : Ent)] = [⟨some ⟨⟨0, 0⟩, 0⟩, m⟩] := rfl
          rw [this] at hms
          simp only [appendMems, RState.MemState.append, bind_ok, pure_ok] at hms
          obtain ⟨ms1, ⟨_, _, _, _, hms1⟩, hms⟩ := hms
          rw [← he2, ← he4]
          show ms.effective.mem = m
          rw [← hms, ← hms1]
        rcases elect_cand he3 with ⟨c, h1, h2⟩ | h1
        · exact Or.inr (Or.inl ⟨m, c, Or.inr ⟨tx, rfl⟩, by rw [hme] at h1; exact h1, hc.trans h2⟩)
        · exact Or.inl (Or.inr (hc.trans h1))
  | handleTransfer v target =>
    simp only [input, coreHandleTransfer] at hr
    split at hr
    · split at hr
      · rcases hel (by rfl) hr with h | h
        · exact Or.inl h
        · exact Or.inr (Or.inl h)
      · rw [pure_ok] at hr; rw [← hr]; exact Or.inl (Or.inl rfl)
    · rw [pure_ok] at hr; rw [← hr]; exact Or.inl (Or.inl rfl)
  | electCmd =>
    simp only [input, coreElect] at hr
    split at hr
    · rcases hel (by rfl) hr with h | h
      · exact Or.inl h
      · exact Or.inr (Or.inl h)
    · rw [pure_ok] at hr; rw [← hr]; exact Or.inl (Or.inl rfl)
  | tick el hb iv =>
    simp only [input, coreTick, bind_ok] at hr
    obtain ⟨e1, he1, e2, he2, hr⟩ := hr
    have hk2 : Keep e1 e2 := keep_tickHeartbeat e1 hb iv e2 he2
    have hk3 : Keep e2 e' := by
      split at hr
      · exact keep_leaderStepDown e2 e' hr
      · rw [pure_ok] at hr; rw [hr]; exact Keep.refl _
    have hk := hk2.trans hk3
    have h1 : Keep e e1 ∨ ∃ c, FreshCand now e.st.ms.effective.mem c ∧ e1.candidate = some c := by
      unfold tickElection at he1
      split at he1
      · rw [pure_ok] at he1; rw [he1]; exact Or.inl (Keep.refl _)
      · split at he1
        · rw [pure_ok] at he1; rw [he1]; exact Or.inl (Keep.refl _)
        · split at he1
          · rw [pure_ok] at he1; rw [he1]; exact Or.inl (Keep.refl _)
          · have hgo : ∀ b : Bool, (if b = true then elect dbg now { e with seenGreater := false } else pure e) = .ok e1 →
                Keep e e1 ∨ ∃ c, FreshCand now e.st.ms.effective.mem c ∧ e1.candidate = some c := by
              intro b hb
              split at hb
              · rcases elect_cand hb with ⟨c, h1, h2⟩ | h1
                · exact Or.inr ⟨c, h1, h2⟩
                · exact Or.inl (Or.inr h1)
              · rw [pure_ok] at hb; rw [hb]; exact Or.inl (Keep.refl _)
            exact hgo _ he1
    rcases h1 with h1 | ⟨c, h1, h2⟩
    · exact Or.inl (h1.trans hk)
    · rcases hk with hk | hk
      · exact Or.inr (Or.inl ⟨_, c, Or.inl rfl, h1, hk.trans h2⟩)
      · exact Or.inl (Or.inr hk)
  | voteResp target v last granted sender =>
    simp only [input] at hr
    split at hr
    · next hm =>
      rw [Bool.and_eq_true] at hm
      unfold handleVoteResp at hr
      split at hr
      · rw [pure_ok] at hr; rw [← hr]; exact Or.inl (Keep.refl _)
      · next c hc =>
        split at hr
        · next hg =>
          rw [Bool.and_eq_true, beq_iff_eq] at hg
          rw [bind_ok] at hr
          obtain ⟨c1, hc1, hr⟩ := hr
          dsimp only at hr
          have hsame : ∀ e1 : Eng, e1.candidate = some c1 → (if c1.progress.granted = true then e1.establishLeader dbg now
              else pure e1) = .ok e' → e'.candidate = some c1 ∧ c1.progress.granted = false ∨
                e'.candidate = none ∧ c1.progress.granted = true := by
            intro e1 h1 h2
            split at h2
            · next hgr =>
              refine Or.inr ⟨?_, hgr⟩
              unfold establishLeader at h2
              simp only [bind_ok] at h2
              obtain ⟨c2, _, o, _, h2⟩ := h2
              split at h2
              · rw [pure_ok] at h2; rw [← h2]
              · next l =>
                simp only [bind_ok] at h2
                obtain ⟨⟨ok, e2⟩, he2, _, _, st, _, lo, _, l3, _, h2⟩ := h2
                have hk := keep_lhAppend _ _ _ _ h2
                have hk1 := keep_updateVote _ _ _ he2
                have hz : e2.candidate = none := by
                  rcases hk1 with hk1 | hk1
                  · exact hk1
                  · exact hk1
                rcases hk with hk | hk
                · exact hk.trans hz
                · exact hk
            · next hgr =>
              rw [pure_ok] at h2
              rw [← h2]; exact Or.inl ⟨h1, by simpa using hgr⟩
          have hso := hsame { e with candidate := some c1 } rfl hr
          obtain ⟨hg1, hg2⟩ := hg
          exact Or.inr (Or.inr ⟨target, last, c, c1, sender, by rw [hg1, hg2], hm.2, hc, hc1, hso⟩)
        · rw [bind_ok] at hr
          obtain ⟨⟨ok, e2⟩, he2, hr⟩ := hr
          rw [pure_ok] at hr
          have hk := keep_updateVote _ _ _ he2
          left
          rw [← hr]
          have hif : (if e.st.lastLogId < last then { e with seenGreater := true } else e : Eng).candidate = e.candidate := by
            split <;> rfl
          rcases hk with hk | hk
          · exact Or.inl (hk.trans hif)
          · exact Or.inr hk
    · rw [pure_ok] at hr; rw [← hr]; exact Or.inl (Or.inl rfl)
  | _ => exact absurd rfl hi

end Eng
end Openraft.Engine
