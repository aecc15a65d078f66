import Verif.Engine.Streams

/-!
# The blank entry of a leader

`Leader::noop_log_id` is the log id of the first entry of a leader's own term: the walk below shows that it
always carries the leader's own id.
-/

set_option autoImplicit false
set_option linter.unusedSectionVars false

namespace Openraft.Engine
open Openraft.LogIdList
open Openraft.Repl (Panic dassert Inflight)
open Openraft.Cluster (Payload)

/-- the noop log id of a leader, and its id, are related by `T` -/
def NoopL (T : LeaderId → Option LogId → Prop) (l : Leader) : Prop := T l.vote.leaderId l.noopLogId

/-- `NoopL` for the leader of a node, if it is one -/
def NoopInv (T : LeaderId → Option LogId → Prop) (e : Eng) : Prop := ∀ l, e.leader = some l → NoopL T l

/-- every new leader is related to its noop log id -/
class NewOk (T : LeaderId → Option LogId → Prop) : Prop where
  new : ∀ {dbg : Bool} {now : Nat} {v : Vote} {m : Membership} {ks : List LogId} {l : Leader}, Leader.new dbg now v m ks = .ok l → NoopL T l

/-- the noop log id is one of the leader itself -/
def OwnNoop (L : LeaderId) (o : Option LogId) : Prop := ∃ x, o = some x ∧ x.leaderId = L

instance : NewOk OwnNoop := ⟨by
  intro dbg now v m ks l h
  unfold Leader.new at h
  simp only [bind_ok, pure_ok] at h
  obtain ⟨_, _, _, _, rfl⟩ := h
  unfold NoopL OwnNoop
  dsimp only
  split
  · next hh =>
    obtain ⟨x, h1, h2⟩ := Option.map_eq_some_iff.1 hh
    exact ⟨x, h1, h2⟩
  · exact ⟨_, rfl, rfl⟩⟩

variable {T : LeaderId → Option LogId → Prop}

theorem NoopL.same {l l' : Leader} (h : NoopL T l) (h1 : l'.noopLogId = l.noopLogId := by rfl) (h2 : l'.vote.leaderId = l.vote.leaderId := by rfl) : NoopL T l' := by
  unfold NoopL; rw [h1, h2]; exact h

theorem NoopInv.same {e e1 : Eng} (h : NoopInv T e) (h2 : e1.leader = e.leader := by rfl) : NoopInv T e1 :=
  fun l hl => h l (by rw [← h2]; exact hl)

theorem NoopInv.none {e : Eng} (h2 : e.leader = none := by rfl) : NoopInv T e :=
  fun l hl => by rw [h2] at hl; cases hl

theorem NoopInv.set {e1 : Eng} {l : Leader} (h2 : e1.leader = some l) (hl : NoopL T l) : NoopInv T e1 :=
  fun l' hl' => by rw [h2] at hl'; cases hl'; exact hl

theorem NoopInv.push {e : Eng} {c : Cmd} (h : NoopInv T e) : NoopInv T (e.push c) := h

/-- `NoopInv` for a result -/
def NoopR (T : LeaderId → Option LogId → Prop) {α : Type} (π : α → Eng) (x : Res α) : Prop := ∀ a, x = .ok a → NoopInv T (π a)

namespace NoopR
variable {α β : Type} {π : α → Eng}

theorem pure {a : α} (h : NoopInv T (π a)) : NoopR T π (Pure.pure a) := by
  intro b hb; rw [pure_ok] at hb; subst hb; exact h

theorem bind {x : Res β} {f : β → Res α} (h : ∀ b, x = .ok b → NoopR T π (f b)) : NoopR T π (x >>= f) := by
  intro a ha; rw [bind_ok] at ha
  obtain ⟨b, hx, hb⟩ := ha; exact h b hx a hb

theorem bindE (π' : β → Eng) {x : Res β} {f : β → Res α} (hx : NoopR T π' x) (h : ∀ b, NoopInv T (π' b) → NoopR T π (f b)) :
    NoopR T π (x >>= f) := by
  intro a ha; rw [bind_ok] at ha
  obtain ⟨b, hx', hb⟩ := ha; exact h b (hx b hx') a hb

end NoopR

namespace Eng
variable {dbg : Bool} {now : Nat} {e : Eng} {l : Leader}

theorem noop_logPurge (h : NoopInv T e) : NoopInv T e.logPurge := by
  unfold logPurge
  split
  · exact h
  · split
    · exact h
    · exact NoopInv.push h.same

theorem noop_updatePurgeUpto (h : NoopInv T e) (x : LogId) : NoopR T id (e.updatePurgeUpto dbg x) := by
  unfold updatePurgeUpto
  exact NoopR.bind fun _ _ => NoopR.pure h.same

theorem noop_schedulePurge (h : NoopInv T e) : NoopR T id (e.schedulePurge dbg) := by
  unfold schedulePurge
  refine NoopR.bind fun o _ => ?_
  split
  · exact noop_updatePurgeUpto h _
  · exact NoopR.pure h

theorem noop_triggerSnapshot (h : NoopInv T e) : NoopInv T e.triggerSnapshot := by
  unfold triggerSnapshot
  split
  · exact h
  · exact NoopInv.push h.same

theorem noop_updateSnapshot (h : NoopInv T e) (m : SnapMeta) : NoopInv T (e.updateSnapshot m).2 := by
  unfold updateSnapshot
  split
  · exact h
  · exact h.same

theorem noop_maybeSnapshot (h : NoopInv T e) : NoopInv T e.maybeSnapshot := by
  unfold maybeSnapshot
  split
  · exact noop_triggerSnapshot h
  · exact h

theorem noop_rhRebuildStreams (hl : NoopL T l) : NoopInv T (e.rhRebuildStreams l) := by
  unfold rhRebuildStreams
  exact NoopInv.set rfl hl.same

theorem noop_rhInitiate (hl : NoopL T l) : NoopR T id (e.rhInitiate dbg l) := by
  unfold rhInitiate
  exact NoopR.bind fun p hp => NoopR.pure (NoopInv.set rfl hl.same)

theorem noop_rhAppendMembership (hl : NoopL T l) {i : LogId} {m : Membership} : NoopR T id (e.rhAppendMembership dbg l i m) := by
  unfold rhAppendMembership
  refine NoopR.bind fun _ _ => NoopR.bind fun _ _ => NoopR.bind fun ms hms => ?_
  have k := noop_rhRebuildStreams (e := { e with st := { e.st with ms := ms } })
    (l := rhRebuildProgresses { e with st := { e.st with ms := ms } } l) hl.same
  exact NoopR.bind fun l2 hl2 => noop_rhInitiate (k l2 (unwrap_some hl2))

theorem noop_rhTryCommit (h : NoopInv T e) (g : Option LogId) : NoopR T id (e.rhTryCommit dbg g) := by
  unfold rhTryCommit
  split
  · exact NoopR.pure h
  · split
    · refine NoopR.bind fun p hp => ?_
      obtain ⟨ch, st⟩ := p
      dsimp only
      split
      · exact NoopR.pure (noop_maybeSnapshot (NoopInv.push (NoopInv.push (NoopInv.push h.same))))
      · exact NoopR.pure h
    · exact NoopR.pure h

theorem noop_rhUpdateMatching (h : NoopInv T e) (hl : NoopL T l) (n : NodeId) (m : Option LogId) :
    NoopR T id (e.rhUpdateMatching dbg l n m) := by
  unfold rhUpdateMatching
  refine NoopR.bind fun _ _ => NoopR.bind fun _ _ => NoopR.bind fun en hen => NoopR.bind fun vp hvp => ?_
  exact noop_rhTryCommit (NoopInv.set rfl hl.same) _

theorem noop_rhUpdateConflicting (h : NoopInv T e) (hl : NoopL T l) (n : NodeId) (c : LogId) :
    NoopR T id (e.rhUpdateConflicting dbg l n c) := by
  unfold rhUpdateConflicting
  exact NoopR.bind fun _ _ => NoopR.bind fun en hen => NoopR.pure (NoopInv.set rfl hl.same)

theorem noop_rhTryPurge (h : NoopInv T e) : NoopInv T (e.rhTryPurge l) := by
  unfold rhTryPurge
  split
  · exact h
  · split
    · exact h
    · split
      · exact h
      · exact noop_logPurge h

theorem noop_rhFailed (h : NoopInv T e) (hl : NoopL T l) (n : NodeId) : NoopR T id (e.rhFailed l n) := by
  unfold rhFailed
  exact NoopR.bind fun _ _ => NoopR.pure (NoopInv.set rfl hl.same)

theorem noop_rhUpdateProgress (h : NoopInv T e) (hl : NoopL T l) (n : NodeId) (q : ReplResult) :
    NoopR T id (e.rhUpdateProgress dbg l n q) := by
  unfold rhUpdateProgress
  have hgo : ∀ x : Res Eng, NoopR T id x → NoopR T id (x >>= fun e1 => (unwrap e1.leader >>= fun l1 => (pure (rhTryPurge e1 l1) : Res Eng))) :=
    fun x hx => NoopR.bindE id hx fun b hb => NoopR.bind fun l1 _ => NoopR.pure (noop_rhTryPurge hb)
  cases q with
  | matching m => exact hgo _ (noop_rhUpdateMatching h hl _ _)
  | conflict c => exact hgo _ (noop_rhUpdateConflicting h hl _ _)
  | failed => exact hgo _ (noop_rhFailed h hl _)

theorem noop_rhUpdateLocal (h : NoopInv T e) (hl : NoopL T l) (u : Option LogId) : NoopR T id (e.rhUpdateLocal dbg l u) := by
  unfold rhUpdateLocal
  split
  · exact NoopR.pure h
  · split
    · split
      · exact NoopR.pure h
      · exact noop_rhUpdateMatching h (NoopL.same hl) _ _
    · exact NoopR.pure h

theorem noop_lhMembership (h : NoopInv T e) (hl : NoopL T l) {m : Option StoredMem} : NoopR T id (e.lhMembership dbg l m) := by
  unfold lhMembership
  split
  · exact noop_rhAppendMembership hl
  · exact NoopR.pure h

theorem noop_lhAppend (h : NoopInv T e) (hl : NoopL T l) {ps : List Payload} : NoopR T id (e.lhAppend dbg l ps) := by
  unfold lhAppend
  split
  · exact NoopR.pure h
  · refine NoopR.bind fun _ _ => NoopR.bind fun ids _ => NoopR.bind fun _ _ => NoopR.bind fun st hst => ?_
    refine NoopR.bindE id (noop_lhMembership (NoopInv.push (NoopInv.set rfl hl.same)) hl.same) fun e2 h2 => ?_
    exact NoopR.bind fun l2 hl2 => noop_rhInitiate (h2 l2 (unwrap_some hl2))

theorem noop_tryPurge (h : NoopInv T e) : NoopInv T e.tryPurge := by
  unfold tryPurge
  split
  · exact noop_rhTryPurge h
  · exact noop_logPurge h

theorem noop_finishBuilding (h : NoopInv T e) (m : SnapMeta) : NoopR T id (e.finishBuilding dbg m) := by
  unfold finishBuilding
  dsimp only
  have h0 : NoopInv T { e with st := { e.st with io := { e.st.io with building := false } } } := h.same
  have hu := noop_updateSnapshot h0 m
  split
  · next e1 he => rw [he] at hu; exact NoopR.pure hu
  · next e1 he =>
    rw [he] at hu
    exact NoopR.bindE id (noop_schedulePurge hu) fun e2 h2 => NoopR.pure (noop_tryPurge h2)

theorem noop_triggerPurge (h : NoopInv T e) (i : Nat) : NoopR T id (e.triggerPurge dbg i) := by
  unfold triggerPurge
  split
  · exact NoopR.pure h
  · split
    · exact NoopR.pure h
    · exact NoopR.bind fun x _ => NoopR.bindE id (noop_updatePurgeUpto h _) fun e1 h1 => NoopR.pure (noop_tryPurge h1)

theorem noop_triggerTransfer (h : NoopInv T e) (t : NodeId) : NoopR T id (e.triggerTransfer dbg t) := by
  unfold triggerTransfer
  refine NoopR.bind fun o ho => ?_
  split
  · exact NoopR.pure h
  · next l =>
    refine NoopR.pure (NoopInv.push (NoopInv.set (e1 := { e with
      leader := some { l with transferTo := some t }
      st := { e.st with vote := e.st.vote.disable } }) rfl (NoopL.same (h l (leaderHandler_some ho)))))

theorem noop_writeEntry (h : NoopInv T e) {p : Payload} : NoopR T Prod.snd (e.writeEntry dbg p) := by
  unfold writeEntry
  refine NoopR.bind fun o ho => ?_
  split
  · exact NoopR.pure h
  · split
    · exact NoopR.pure h
    · exact NoopR.bindE id (noop_lhAppend h (h _ (leaderHandler_some ho))) fun e1 h1 => NoopR.bind fun l _ => NoopR.pure h1

theorem noop_coreHeartbeat (h : NoopInv T e) : NoopR T id (e.coreHeartbeat dbg) := by
  unfold coreHeartbeat
  refine NoopR.bind fun o _ => ?_
  split
  · exact NoopR.pure h
  · split
    · exact NoopR.pure h
    · exact NoopR.pure h.push

theorem noop_tickHeartbeat (h : NoopInv T e) (en : Bool) (iv : Nat) : NoopR T id (e.tickHeartbeat dbg now en iv) := by
  have hmap : ∀ {e1 : Eng}, NoopInv T e1 → NoopInv T { e1 with leader := e1.leader.map fun l => { l with nextHeartbeat := now + iv } } := by
    intro e1 h1
    intro l hl
    obtain ⟨l0, h0, rfl⟩ := Option.map_eq_some_iff.1 hl
    exact NoopL.same (h1 l0 h0)
  unfold tickHeartbeat
  split
  · exact NoopR.pure h
  · split
    · dsimp only
      split
      · exact NoopR.bindE id (noop_coreHeartbeat h) fun e1 h1 => NoopR.pure (hmap h1)
      · exact NoopR.bindE id (NoopR.pure (π := id) h) fun e1 h1 => NoopR.pure (hmap h1)
    · exact NoopR.pure h

/-- the inputs by which a node cannot come to lead -/
def _root_.Openraft.Engine.Input.calm : Input → Bool
  | .write _ | .change _ _ | .heartbeatCmd | .snapshotCmd | .purgeCmd _ | .transferCmd _ | .localIO _ | .replProgress _ _ _
  | .hbProgress _ _ _ | .built _ | .installed _ _ | .applied _ | .initiate => true
  | _ => false

/-- a calm input keeps the noop log id of the leader -/
theorem noop_calm (h : NoopInv T e) {i : Input} (hi : i.calm = true) : NoopR T id (e.input dbg now i) := by
  cases i with
  | write p =>
    simp only [input]
    exact NoopR.bindE Prod.snd (noop_writeEntry h) fun p hp => NoopR.pure hp
  | change c q =>
    simp only [input]
    refine NoopR.bindE Prod.snd ?_ fun p hp => NoopR.pure hp
    unfold changeMembership
    split
    · exact NoopR.pure h
    · exact noop_writeEntry h
  | heartbeatCmd => exact noop_coreHeartbeat h
  | snapshotCmd => exact NoopR.pure (noop_triggerSnapshot h)
  | purgeCmd i => exact noop_triggerPurge h _
  | transferCmd t => exact noop_triggerTransfer h _
  | localIO io =>
    simp only [input, coreLocalIO]
    refine NoopR.bind fun p _ => ?_
    have h1 : NoopInv T (e.withProg p) := h.same
    split
    · split
      · next l hl =>
        split
        · exact noop_rhUpdateLocal h1 (h1 l hl) _
        · exact NoopR.pure h1
      · exact NoopR.pure h1
    · exact NoopR.pure h1
  | replProgress s target q =>
    simp only [input, coreReplProgress]
    split
    · exact NoopR.bind fun l hl => noop_rhUpdateProgress h (h _ (unwrap_some hl)) _ _
    · exact NoopR.pure h
  | hbProgress s target t =>
    simp only [input, coreHbProgress]
    split
    · refine NoopR.bind fun l hl => ?_
      unfold rhUpdateClock
      exact NoopR.bind fun c hc => NoopR.pure (NoopInv.set rfl (NoopL.same (h _ (unwrap_some hl))))
    · exact NoopR.pure h
  | built m =>
    simp only [input, coreBuilt]
    exact NoopR.bindE id (noop_finishBuilding h _) fun e1 h1 => NoopR.bind fun io _ => NoopR.pure h1.same
  | installed io m =>
    simp only [input, coreInstalled]
    exact NoopR.bind fun p _ => NoopR.bind fun s1 _ => NoopR.bind fun s2 _ => NoopR.pure h.same
  | applied last =>
    simp only [input, coreApplied]
    exact NoopR.bind fun s _ => NoopR.pure h.same
  | initiate =>
    simp only [input, coreInitiate]
    refine NoopR.bind fun o ho => ?_
    split
    · exact NoopR.pure h
    · exact noop_rhInitiate (h _ (leaderHandler_some ho))
  | _ => cases hi

variable [NewOk T]

theorem noop_becomeNewLeader (h : NoopInv T e) : NoopR T id (e.becomeNewLeader dbg now) := by
  unfold becomeNewLeader
  refine NoopR.bind fun l hl => NoopR.bind fun st hst => ?_
  have k := noop_rhRebuildStreams (T := T) (e := updateServerState (Eng.push { e with st := st, leader := some l } (.updateIO none (IOId.newLog l.vote l.lastLogId))))
    (l := l) (NewOk.new hl)
  refine NoopR.bind fun l2 hl2 => ?_
  have hc2 := k l2 (unwrap_some hl2)
  split
  · exact noop_lhAppend k hc2
  · exact noop_rhInitiate hc2

theorem noop_becomeLeader (h : NoopInv T e) : NoopR T id (e.becomeLeader dbg now) := by
  unfold becomeLeader
  split
  · next l hl =>
    split
    · next hv =>
      exact NoopR.pure (NoopInv.set rfl (NoopL.same (h l hl) rfl hv.symm))
    · exact noop_becomeNewLeader h
  · exact noop_becomeNewLeader h

theorem noop_becomeFollowing (_h : NoopInv T e) : NoopR T id (e.becomeFollowing dbg) := by
  unfold becomeFollowing
  exact NoopR.bind fun _ _ => NoopR.pure NoopInv.none

theorem noop_updateInternal (h : NoopInv T e) : NoopR T id (e.updateInternal dbg now) := by
  unfold updateInternal
  split
  · exact noop_becomeLeader h
  · split
    · exact NoopR.pure h
    · exact noop_becomeFollowing h

theorem noop_storeVote (h : NoopInv T e) (lease : Nat) (v : Vote) : NoopR T id (e.storeVote dbg now lease v) := by
  unfold storeVote
  split
  · exact NoopR.bind fun st hst => NoopR.pure (NoopInv.push h.same)
  · exact NoopR.bind fun vt _ => NoopR.pure h.same

theorem noop_updateVote (h : NoopInv T e) (v : Vote) : NoopR T Prod.snd (e.updateVote dbg now v) := by
  unfold updateVote
  split
  · exact NoopR.bindE id (noop_storeVote h _ _) fun e1 h1 => NoopR.bindE id (noop_updateInternal h1) fun e2 h2 => NoopR.pure h2
  · exact NoopR.pure h

theorem noop_fhTruncate (h : NoopInv T e) (i : Nat) : NoopR T id (e.fhTruncate dbg i) := by
  unfold fhTruncate
  refine NoopR.bind fun _ _ => ?_
  split
  · exact NoopR.pure h
  · refine NoopR.bind fun ms hms => ?_
    dsimp only
    have h1 : ∀ st u, NoopInv T (Eng.push { e with st := st } (.truncate u)) := fun st u => NoopInv.push (NoopInv.same h)
    split
    · exact NoopR.pure (h1 _ _).same
    · exact NoopR.pure (h1 _ _)

theorem noop_fhAppendMembership (h : NoopInv T e) {es : List Ent} : NoopR T id (e.fhAppendMembership dbg es) := by
  unfold fhAppendMembership
  split
  · exact NoopR.pure h
  · exact NoopR.bind fun ms hms => NoopR.pure h.same

theorem noop_fhDoAppend (h : NoopInv T e) (v : Vote) {es : List Ent} : NoopR T id (e.fhDoAppend dbg v es) := by
  unfold fhDoAppend
  refine NoopR.bind fun _ _ => NoopR.bind fun _ _ => NoopR.bind fun _ _ => ?_
  exact NoopR.bindE id (noop_fhAppendMembership h.same) fun e1 h1 => NoopR.pure h1.push

theorem noop_fhAppendEntries (h : NoopInv T e) (v : Vote) (prev : Option LogId) {es : List Ent} :
    NoopR T id (e.fhAppendEntries dbg v prev es) := by
  unfold fhAppendEntries
  refine NoopR.bind fun _ _ => NoopR.bind fun st hst => NoopR.bind fun since _ => ?_
  have h1 : NoopInv T { e with st := st } := h.same
  split
  · exact NoopR.bindE id (noop_fhTruncate h1 _) fun e1 h2 => noop_fhDoAppend h2 _
  · split
    · exact NoopR.pure h1
    · exact NoopR.pure h1.push

theorem noop_fhEnsure (h : NoopInv T e) (prev : Option LogId) : NoopR T Prod.snd (e.fhEnsure dbg prev) := by
  unfold fhEnsure
  split
  · exact NoopR.pure h
  · refine NoopR.bind fun b _ => ?_
    split
    · exact NoopR.pure h
    · exact NoopR.bindE id (noop_fhTruncate h _) fun e1 h1 => NoopR.pure h1

theorem noop_fhCommit (h : NoopInv T e) (lc : Option LogId) : NoopR T id (e.fhCommit dbg lc) := by
  unfold fhCommit
  refine NoopR.bind fun p hp => ?_
  obtain ⟨ch, st⟩ := p
  dsimp only
  split
  · exact NoopR.bind fun i _ => NoopR.pure (noop_maybeSnapshot (NoopInv.push (NoopInv.push h.same)))
  · exact NoopR.pure h

theorem noop_fhInstall (h : NoopInv T e) (v : Vote) {m : SnapMeta} : NoopR T Prod.snd (e.fhInstall dbg v m) := by
  unfold fhInstall
  split
  · exact NoopR.pure h
  · refine NoopR.bind fun last hlast => ?_
    have hu := noop_updateSnapshot h m
    split
    · next e1 he => rw [he] at hu; exact NoopR.pure hu
    · next e1 he =>
      rw [he] at hu
      refine NoopR.bindE id ?_ fun e2 h2 => ?_
      · unfold fhInstallTruncate
        split
        · split
          · exact noop_fhTruncate hu _
          · exact NoopR.pure hu
        · exact NoopR.pure hu
      · refine NoopR.bind fun st hst => NoopR.bind fun ms hms => NoopR.pure (noop_logPurge ?_)
        have h3 : NoopInv T (updateServerState { e2 with st := { st with committed := some last, ms := ms } }) := NoopInv.same (e := e2) h2
        have h4 : NoopInv T (Eng.push (updateServerState { e2 with st := { st with committed := some last, ms := ms } }) (.sm (.install m (IOId.newLog v (some last))))) := h3.push
        exact h4.same

theorem noop_startup (h : NoopInv T e) : NoopR T id (e.startup dbg now) := by
  unfold startup
  split
  · exact noop_updateInternal h
  · exact NoopR.pure h.same

theorem noop_handleVoteReq (h : NoopInv T e) (v : Vote) (last : Option LogId) : NoopR T Prod.snd (e.handleVoteReq dbg now v last) := by
  unfold handleVoteReq
  split
  · exact NoopR.pure h
  · split
    · exact NoopR.bindE Prod.snd (noop_updateVote h _) fun p hp => NoopR.pure hp
    · exact NoopR.pure h

theorem noop_establishLeader (h : NoopInv T e) : NoopR T id (e.establishLeader dbg now) := by
  unfold establishLeader
  refine NoopR.bind fun c hc => NoopR.bind fun o ho => ?_
  have h0 : NoopInv T { e with candidate := none } := h.same
  split
  · exact NoopR.pure h0
  · next l =>
    have hl : NoopL T l := by
      unfold establish at ho
      simp only [bind_ok] at ho
      obtain ⟨_, _, ho⟩ := ho
      have hgo : ∀ b : Bool, (if b = true then (pure none : Res (Option Leader)) else
          c.intoLeader dbg now >>= fun l => pure (some l)) = .ok (some l) → NoopL T l := by
        intro b hb
        cases b
        · simp only [Bool.false_eq_true, if_false, bind_ok, pure_ok] at hb
          obtain ⟨l1, h1, h2⟩ := hb
          cases h2
          unfold Candidate.intoLeader at h1
          rw [bind_ok] at h1
          obtain ⟨_, _, h1⟩ := h1
          exact NewOk.new h1
        · cases hb
      exact hgo _ ho
    have h1 := noop_rhRebuildStreams (e := { e with candidate := none, leader := some l }) (l := l) hl
    refine NoopR.bindE Prod.snd (noop_updateVote h1 _) fun p hp => ?_
    obtain ⟨ok, e2⟩ := p
    refine NoopR.bind fun _ _ => NoopR.bind fun st hst => NoopR.bind fun lo hlo => NoopR.bind fun l3 hl3 => ?_
    have h3 : NoopInv T { e2 with st := st } := NoopInv.same (e := e2) hp
    refine noop_lhAppend h3 ?_
    have hl3' := unwrap_some hl3
    rw [hl3'] at hlo
    exact h3 l3 (leaderHandler_some hlo)

theorem noop_appendEntries (h : NoopInv T e) (v : Vote) (prev : Option LogId) {es : List Ent} :
    NoopR T Prod.snd (e.appendEntries dbg now v prev es) := by
  unfold appendEntries
  refine NoopR.bindE Prod.snd (noop_updateVote h _) fun p hp => ?_
  obtain ⟨ok, e1⟩ := p
  dsimp only
  split
  · refine NoopR.bind fun lv _ => NoopR.bindE Prod.snd (noop_fhEnsure hp _) fun p hp => ?_
    obtain ⟨ok2, e2⟩ := p
    dsimp only
    split
    · exact NoopR.bindE id (noop_fhAppendEntries hp _ _) fun e3 h3 => NoopR.pure h3
    · exact NoopR.pure hp
  · exact NoopR.pure hp

theorem noop_handleAppend (h : NoopInv T e) (tx : Nat) (v : Vote) (prev : Option LogId) {es : List Ent} (lc : Option LogId) :
    NoopR T id (e.handleAppend dbg now tx v prev es lc) := by
  unfold handleAppend
  refine NoopR.bindE Prod.snd (noop_appendEntries h _ _) fun p hp => ?_
  obtain ⟨q, e1⟩ := p
  dsimp only at hp ⊢
  split
  · exact NoopR.bind fun acc _ => NoopR.bind fun _ _ => noop_fhCommit hp.push _
  · exact NoopR.pure hp.push

theorem noop_handleInstall (h : NoopInv T e) (tx : Nat) (v : Vote) {m : SnapMeta} : NoopR T id (e.handleInstall dbg now tx v m) := by
  unfold handleInstall
  refine NoopR.bindE Prod.snd (noop_updateVote h _) fun p hp => ?_
  obtain ⟨ok, e1⟩ := p
  dsimp only at hp ⊢
  split
  · exact NoopR.bind fun lv _ => NoopR.bindE Prod.snd (noop_fhInstall hp _) fun p hp => NoopR.pure (NoopInv.push hp)
  · exact NoopR.pure hp.push

theorem noop_leaderStepDown (h : NoopInv T e) : NoopR T id (e.leaderStepDown dbg now) := by
  unfold leaderStepDown
  split
  · exact noop_updateInternal h
  · exact NoopR.pure h

theorem noop_elect (h : NoopInv T e) : NoopR T id (e.elect dbg now) := by
  unfold elect
  refine NoopR.bindE Prod.snd (noop_updateVote h.same _) fun p hp => ?_
  obtain ⟨ok, e2⟩ := p
  refine NoopR.bind fun _ _ => NoopR.pure ?_
  have h2 : ∀ v last, NoopInv T (Eng.push e2 (.sendVote v last)) := fun v last => NoopInv.push (e := e2) hp
  exact NoopInv.same (h2 (Vote.new (e.st.vote.data.leaderId.term + 1) e.cfg.id) e.st.lastLogId)

theorem noop_handleVoteResp (h : NoopInv T e) (target : NodeId) (v : Vote) (last : Option LogId) (granted : Bool) :
    NoopR T id (e.handleVoteResp dbg now target v last granted) := by
  unfold handleVoteResp
  split
  · exact NoopR.pure h
  · next c hc =>
    split
    · refine NoopR.bind fun c1 hc1 => ?_
      have h1 : NoopInv T { e with candidate := some c1 } := h.same
      dsimp only
      split
      · exact noop_establishLeader h1
      · exact NoopR.pure h1
    · have hs : NoopInv T (if e.st.lastLogId < last then { e with seenGreater := true } else e) := by
        split
        · exact h.same
        · exact h
      exact NoopR.bindE Prod.snd (noop_updateVote hs _) fun p hp => NoopR.pure hp

theorem noop_initCluster (h : NoopInv T e) {m : Membership} : NoopR T Prod.snd (e.initCluster dbg now m) := by
  unfold initCluster
  split
  · exact NoopR.pure h
  · split
    · exact NoopR.pure h
    · exact NoopR.bind fun v _ => NoopR.bindE id (noop_fhDoAppend h.same _) fun e2 h2 => NoopR.bindE id (noop_elect h2) fun e3 h3 => NoopR.pure h3

/-- every input keeps the noop log id of the leader -/
theorem noop_input (h : NoopInv T e) (i : Input) : NoopR T id (e.input dbg now i) := by
  by_cases hi : i.calm = true
  · exact noop_calm h hi
  cases i with
  | appendReq tx v prev es lc => exact noop_handleAppend h _ _ _ _
  | voteReq tx v last =>
    simp only [input, coreVoteReq]
    exact NoopR.bindE Prod.snd (noop_handleVoteReq h _ _) fun p hp => NoopR.pure (NoopInv.push (e := p.2) hp)
  | snapReq tx v m => exact noop_handleInstall h _ _
  | init tx m =>
    simp only [input, coreInit]
    exact NoopR.bindE Prod.snd (noop_initCluster h) fun p hp => NoopR.pure (NoopInv.push (e := p.2) hp)
  | handleTransfer v target =>
    simp only [input, coreHandleTransfer]
    split
    · split
      · exact noop_elect h.same
      · exact NoopR.pure h.same
    · exact NoopR.pure h
  | electCmd =>
    simp only [input, coreElect]
    split
    · exact noop_elect h
    · exact NoopR.pure h
  | voteResp target v last granted sender =>
    simp only [input]
    split
    · exact noop_handleVoteResp h _ _ _ _
    · exact NoopR.pure h
  | higherVote v sender =>
    simp only [input]
    split
    · exact NoopR.bindE Prod.snd (noop_updateVote h _) fun p hp => NoopR.pure hp
    · exact NoopR.pure h
  | tick el hb iv =>
    simp only [input, coreTick]
    refine NoopR.bindE id ?_ fun e1 h1 => NoopR.bindE id (noop_tickHeartbeat h1 _ _) fun e2 h2 => ?_
    · unfold tickElection
      split
      · exact NoopR.pure h
      · split
        · exact NoopR.pure h
        · split
          · exact NoopR.pure h
          · have hx : ∀ b : Bool, NoopR T id (if b = true then elect dbg now { e with seenGreater := false } else pure e) := by
              intro b
              split
              · exact noop_elect h.same
              · exact NoopR.pure h
            dsimp only
            split <;> exact hx _
    · split
      · exact noop_leaderStepDown h2
      · exact NoopR.pure h2
  | _ => exact absurd rfl hi

/-! ## The blank entry is in the log -/

/-- the leader after an entry was appended -/
theorem lhAppend_leader {e' : Eng} {p : Payload} (h : e.lhAppend dbg l [p] = .ok e') :
    ∃ l', e'.leader = some l' ∧ l'.vote = l.vote ∧ l'.noopLogId = l.noopLogId ∧
      l'.lastLogId = some ⟨l.vote.leaderId, nextIndex l.lastLogId⟩ := by
  unfold lhAppend at h
  rw [if_neg (by simp)] at h
  simp only [bind_ok, unwrap_ok, assign_single] at h
  obtain ⟨_, _, ids, hids, _, _, st, hst, e2, he2, l2, hl2, hr⟩ := h
  have hini : ∀ {a : Eng} {m : Leader} {b : Eng}, a.rhInitiate dbg m = .ok b →
      ∃ m', b.leader = some m' ∧ m'.vote = m.vote ∧ m'.noopLogId = m.noopLogId ∧ m'.lastLogId = m.lastLogId := by
    intro a m b hb
    unfold rhInitiate at hb
    rw [bind_ok] at hb
    obtain ⟨_, _, hb⟩ := hb
    rw [pure_ok] at hb; subst hb
    exact ⟨_, rfl, rfl, rfl, rfl⟩
  obtain ⟨l', h1, h2, h3, h4⟩ := hini hr
  have key : l2.vote = l.vote ∧ l2.noopLogId = l.noopLogId ∧ l2.lastLogId = some ⟨l.vote.leaderId, nextIndex l.lastLogId⟩ := by
    unfold lhMembership at he2
    split at he2
    · unfold rhAppendMembership at he2
      simp only [bind_ok, unwrap_ok] at he2
      obtain ⟨_, _, _, _, ms, _, l3, hl3, he2⟩ := he2
      obtain ⟨l4, k1, k2, k3, k4⟩ := hini he2
      rw [hl2] at k1; cases k1
      have hl3' : some _ = some l3 := hl3
      cases hl3'
      exact ⟨k2, k3, k4⟩
    · rw [pure_ok] at he2; subst he2
      have hl2' : some _ = some l2 := hl2
      cases hl2'
      exact ⟨rfl, rfl, rfl⟩
  exact ⟨l', h1, h2.trans key.1, h3.trans key.2.1, h4.trans key.2.2⟩

/-- the first of the last ids of one leader is not above the last -/
theorem byLastLeader_le {ks : LogIdList} (hs : SortedIdx ks) {a : LogId} (ha : (LogIdList.byLastLeader ks).head? = some a) :
    some a ≤ ks.getLast? := by
  rw [← byLastLeader_last]
  unfold LogIdList.byLastLeader at ha ⊢
  simp only at ha ⊢
  split
  · next hl =>
    rw [if_pos hl] at ha
    match ks, hl, ha with
    | [x], _, ha => exact le_of_eq ha.symm
  · next hl =>
    rw [if_neg hl] at ha
    split
    · next hq =>
      rw [if_pos hq] at ha
      have h1 : (ks.drop (ks.length - 2)).length = 2 := by rw [List.length_drop]; omega
      have hsd : SortedIdx (ks.drop (ks.length - 2)) := hs.sublist (List.drop_sublist _ _)
      have e2 : ks[ks.length - 2]? = (ks.drop (ks.length - 2))[0]? := by rw [List.getElem?_drop]; simp
      have e1 : ks[ks.length - 1]? = (ks.drop (ks.length - 2))[1]? := by rw [List.getElem?_drop]; congr 1; omega
      rw [e1, e2] at hq
      generalize ks.drop (ks.length - 2) = d at *
      match d, h1, ha, hq, hsd with
      | [x, y], _, ha, hq, hsd =>
        simp at ha hq
        subst ha
        have : x.index < y.index := by simpa [SortedIdx] using hsd
        show x ≤ y
        exact LogId.le_def.2 (Or.inr ⟨hq.symm, le_of_lt this⟩)
    · next hq =>
      rw [if_neg hq] at ha
      have h1 : (ks.drop (ks.length - 1)).length = 1 := by rw [List.length_drop]; omega
      generalize ks.drop (ks.length - 1) = d at *
      match d, h1, ha with
      | [x], _, ha => exact le_of_eq ha.symm

/-- the fields of a new leader -/
theorem Leader.new_fields {v : Vote} {m : Membership} {ks : List LogId} {l : Leader} (h : Leader.new dbg now v m ks = .ok l) :
    l.vote = v.toCommitted ∧ l.lastLogId = ks.getLast? ∧
      l.noopLogId = if ks.head?.map (·.leaderId) = some v.leaderId then ks.head? else some ⟨v.leaderId, nextIndex ks.getLast?⟩ := by
  unfold Leader.new at h
  simp only [bind_ok, pure_ok] at h
  obtain ⟨_, _, _, _, rfl⟩ := h
  exact ⟨rfl, rfl, rfl⟩

/-- **A leader that starts from a committed vote has an entry of its own.** -/
theorem becomeNewLeader_blank {e' : Eng} (hs : SortedIdx e.st.logIds) (h : e.becomeNewLeader dbg now = .ok e') :
    ∃ l x, e'.leader = some l ∧ l.noopLogId = some x ∧ x.leaderId = e.st.vote.data.leaderId ∧ some x ≤ l.lastLogId := by
  unfold becomeNewLeader at h
  simp only [bind_ok, unwrap_ok] at h
  obtain ⟨l, hl, st, hst, l2, hl2, h⟩ := h
  have hl2' : some _ = some l2 := hl2
  obtain ⟨f1, f2, f3⟩ := Leader.new_fields hl
  rw [byLastLeader_last] at f2 f3
  cases hl2'
  by_cases hh : (LogIdList.byLastLeader e.st.logIds).head?.map (·.leaderId) = some e.st.vote.data.leaderId
  · rw [if_pos hh] at f3
    obtain ⟨x, k1, k2⟩ := Option.map_eq_some_iff.1 hh
    have hle : l.noopLogId ≤ l.lastLogId := by rw [f3, f2, k1]; exact byLastLeader_le hs k1
    rw [if_neg (not_lt.2 hle)] at h
    unfold rhInitiate at h
    rw [bind_ok] at h
    obtain ⟨_, _, h⟩ := h
    rw [pure_ok] at h; subst h
    exact ⟨_, x, rfl, f3.trans k1, k2, by rw [f3, k1] at hle; exact hle⟩
  · rw [if_neg hh] at f3
    split at h
    · obtain ⟨l', h1, h2, h3, h4⟩ := lhAppend_leader h
      refine ⟨l', _, h1, h3.trans f3, rfl, ?_⟩
      rw [h4]
      show some _ ≤ some (LogId.mk l.vote.leaderId (nextIndex l.lastLogId))
      rw [f1, f2]; exact le_refl _
    · next hn =>
      unfold rhInitiate at h
      rw [bind_ok] at h
      obtain ⟨_, _, h⟩ := h
      rw [pure_ok] at h; subst h
      refine ⟨_, _, rfl, f3, rfl, ?_⟩
      rw [f3] at hn; exact not_lt.1 hn

end Eng
end Openraft.Engine
