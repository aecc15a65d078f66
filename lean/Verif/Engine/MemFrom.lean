import Verif.Engine.Clock
import Verif.Engine.Emits

/-!
# Where the memberships that a node stores come from

Every entry that is appended and every snapshot that is installed comes from an input. For any property `M` of
memberships that those of the inputs have, those that a node writes have it, too.
-/

set_option autoImplicit false

namespace Openraft.Engine
open Openraft.Repl (Panic dassert Inflight)
open Openraft.Cluster (Payload)

/-- the memberships that a command stores have `M` -/
def CmdM (M : Membership → Prop) : Cmd → Prop
  | .append _ es => EntsOk M es
  | .sm (.install m _) => M m.mem.mem
  | _ => True

variable {M : Membership → Prop} {C : Option LogId → Prop}

instance : LetsBare (CmdM M) := ⟨fun c h _ h' => by
  cases c with
  | append v es => exact absurd rfl (h' v es)
  | sm c => cases c <;> first | trivial | cases h
  | _ => trivial⟩
instance : LetsVote (CmdM M) := ⟨fun _ => trivial⟩
instance : LetsAsk (CmdM M) := ⟨fun _ _ => trivial⟩
instance : LetsTrunc (CmdM M) := ⟨fun _ => trivial⟩
instance : LetsPurge (CmdM M) := ⟨fun _ => trivial⟩
instance : LetsAnswer (CmdM M) := ⟨fun _ _ _ => trivial⟩

theorem paysOk_blank : PaysOk M [Payload.blank] := by
  intro m hm
  simp at hm

namespace Eng
variable {dbg : Bool} {now : Nat}

theorem mf_rhRebuildStreams (e : Eng) (l : Leader) : Emits (CmdM M) e (e.rhRebuildStreams l) := by
  unfold rhRebuildStreams
  exact emits_upd _ (emits_same rfl rfl) trivial

theorem mf_rhAppendMembership (e : Eng) (l : Leader) (i : LogId) (m : Membership) :
    EmitsR (CmdM M) id e (e.rhAppendMembership dbg l i m) := by
  unfold rhAppendMembership
  refine EmitsR.bind fun _ => EmitsR.bind fun _ => EmitsR.bind fun ms => EmitsR.bind fun l2 => ?_
  refine EmitsR.from' ?_ (emits_rhInitiate _ _)
  exact (emits_same (e1 := { e with st := { e.st with ms := ms } }) rfl rfl).trans (mf_rhRebuildStreams _ _)

theorem mf_lhMembership (e : Eng) (l : Leader) (m : Option StoredMem) : EmitsR (CmdM M) id e (e.lhMembership dbg l m) := by
  unfold lhMembership
  split
  · exact mf_rhAppendMembership _ _ _ _
  · exact EmitsR.pure (Emits.refl _)

theorem mf_lhAppend (e : Eng) (l : Leader) {ps : List Payload} (hp : PaysOk M ps) : EmitsR (CmdM M) id e (e.lhAppend dbg l ps) := by
  unfold lhAppend
  split
  · exact EmitsR.pure (Emits.refl _)
  · refine EmitsR.bind fun _ => EmitsR.bind fun ids => EmitsR.bind fun _ => EmitsR.bind fun st => ?_
    refine EmitsR.from' (emits_upd (.append l.vote (assign l.vote.leaderId (nextIndex l.lastLogId) ps)) (emits_same rfl rfl) (assign_ok hp _ _)) (EmitsR.bindE id (mf_lhMembership _ _ _) fun e2 => ?_)
    exact EmitsR.bind fun l2 => emits_rhInitiate _ _

theorem mf_becomeNewLeader (e : Eng) : EmitsR (CmdM M) id e (e.becomeNewLeader dbg now) := by
  unfold becomeNewLeader
  refine EmitsR.bind fun l => EmitsR.bind fun st => EmitsR.bind fun l2 => ?_
  have h1 : Emits (CmdM M) e (rhRebuildStreams (updateServerState (Eng.push { e with st := st, leader := some l } (.updateIO none (IOId.newLog l.vote l.lastLogId)))) l) :=
    ((emits_upd _ (emits_same rfl rfl)).trans (emits_updateServerState _)).trans (mf_rhRebuildStreams _ _)
  split
  · exact EmitsR.from' h1 (mf_lhAppend _ _ paysOk_blank)
  · exact EmitsR.from' h1 (emits_rhInitiate _ _)

theorem mf_becomeLeader (e : Eng) : EmitsR (CmdM M) id e (e.becomeLeader dbg now) := by
  unfold becomeLeader
  split
  · split
    · exact EmitsR.pure (emits_same rfl rfl)
    · exact mf_becomeNewLeader _
  · exact mf_becomeNewLeader _

theorem mf_updateInternal (e : Eng) : EmitsR (CmdM M) id e (e.updateInternal dbg now) := by
  unfold updateInternal
  split
  · exact mf_becomeLeader _
  · split
    · exact EmitsR.pure (Emits.refl _)
    · exact emits_becomeFollowing _

theorem mf_updateVote (e : Eng) (v : Vote) : EmitsR (CmdM M) Prod.snd e (e.updateVote dbg now v) := by
  unfold updateVote
  split
  · exact EmitsR.bindE id (emits_storeVote _ _ _) fun e1 => EmitsR.bindE id (mf_updateInternal _) fun e2 => EmitsR.pure (Emits.refl _)
  · exact EmitsR.pure (Emits.refl _)

theorem mf_fhDoAppend (e : Eng) (v : Vote) {es : List Ent} (he : EntsOk M es) : EmitsR (CmdM M) id e (e.fhDoAppend dbg v es) := by
  unfold fhDoAppend
  refine EmitsR.bind fun _ => EmitsR.bind fun _ => EmitsR.bind fun _ => ?_
  exact EmitsR.from' (e1 := { e with st := { e.st with logIds := LogIdList.extend e.st.logIds (es.map (·.id)) } })
    (emits_same rfl rfl) (EmitsR.bindE id (emits_fhAppendMembership _ _) fun e1 => EmitsR.pure (emits_push _ _ he))

theorem mf_fhAppendEntries (e : Eng) (v : Vote) (prev : Option LogId) {es : List Ent} (he : EntsOk M es) :
    EmitsR (CmdM M) id e (e.fhAppendEntries dbg v prev es) := by
  unfold fhAppendEntries
  refine EmitsR.bind fun _ => EmitsR.bind fun st => EmitsR.bind fun since => ?_
  split
  · next x xs hx =>
    exact EmitsR.from' (e1 := { e with st := st }) (emits_same rfl rfl)
      (EmitsR.bindE id (emits_fhTruncate _ _) fun e1 => mf_fhDoAppend _ _ (by rw [← hx]; exact he.drop _))
  · split
    · exact EmitsR.pure (emits_same rfl rfl)
    · exact EmitsR.pure (emits_upd _ (emits_same rfl rfl))

theorem mf_fhInstall (e : Eng) (v : Vote) {m : SnapMeta} (hm : M m.mem.mem) : EmitsR (CmdM M) Prod.snd e (e.fhInstall dbg v m) := by
  unfold fhInstall
  split
  · exact EmitsR.pure (Emits.refl _)
  · refine EmitsR.bind fun last => ?_
    have hu := emits_updateSnapshot (P := CmdM M) e m
    split
    · next e1 he => rw [he] at hu; exact EmitsR.pure hu
    · next e1 he =>
      rw [he] at hu
      refine EmitsR.from' hu (EmitsR.bindE id (emits_fhInstallTruncate _ _) fun e2 => ?_)
      refine EmitsR.bind fun st => EmitsR.bind fun ms => EmitsR.pure ?_
      refine Emits.trans ?_ (emits_logPurge _)
      exact (emits_upd (e := e2) (.sm (.install m (IOId.newLog v (some last))))
        (e1 := updateServerState { e2 with st := { st with committed := some last, ms := ms } }) (emits_same rfl rfl) hm).trans (emits_same rfl rfl)

theorem mf_startup (e : Eng) : EmitsR (CmdM M) id e (e.startup dbg now) := by
  unfold startup
  split
  · exact mf_updateInternal _
  · exact EmitsR.pure (emits_same rfl rfl)

theorem mf_elect (e : Eng) : EmitsR (CmdM M) id e (e.elect dbg now) := by
  unfold elect
  refine EmitsR.from' (e1 := { e with candidate := some (Candidate.new now (Vote.new (e.st.vote.data.leaderId.term + 1) e.cfg.id) e.st.lastLogId e.st.ms.effective.mem) })
    (emits_same rfl rfl) (EmitsR.bindE Prod.snd (mf_updateVote _ _) fun p => ?_)
  obtain ⟨ok, e2⟩ := p
  refine EmitsR.bind fun _ => EmitsR.pure ?_
  exact (emits_push _ _).trans (emits_updateServerState _)

theorem mf_initCluster (e : Eng) {m : Membership} (hm : M m) : EmitsR (CmdM M) Prod.snd e (e.initCluster dbg now m) := by
  unfold initCluster
  split
  · exact EmitsR.pure (Emits.refl _)
  · split
    · exact EmitsR.pure (Emits.refl _)
    · refine EmitsR.bind fun v => ?_
      refine EmitsR.from' (e1 := { e with st := { e.st with vote := e.st.vote.update now 0 ⟨⟨0, 0⟩, true⟩ } })
        (emits_same rfl rfl) (EmitsR.bindE id (mf_fhDoAppend _ _ ?_) fun e2 => EmitsR.bindE id (mf_elect _) fun e3 => ?_)
      · intro x hx k hk
        rw [List.mem_singleton] at hx
        subst hx
        cases hk; exact hm
      · exact EmitsR.pure (Emits.refl _)

theorem mf_handleVoteReq (e : Eng) (v : Vote) (last : Option LogId) :
    EmitsR (CmdM M) Prod.snd e (e.handleVoteReq dbg now v last) := by
  unfold handleVoteReq
  split
  · exact EmitsR.pure (Emits.refl _)
  · split
    · exact EmitsR.bindE Prod.snd (mf_updateVote _ _) fun p => EmitsR.pure (Emits.refl _)
    · exact EmitsR.pure (Emits.refl _)

theorem mf_establishLeader (e : Eng) : EmitsR (CmdM M) id e (e.establishLeader dbg now) := by
  unfold establishLeader
  refine EmitsR.bind fun c => EmitsR.bind fun o => ?_
  split
  · exact EmitsR.pure (emits_same rfl rfl)
  · next l =>
    refine EmitsR.from' (e1 := rhRebuildStreams { e with candidate := none, leader := some l } l)
      ((emits_same rfl rfl).trans (mf_rhRebuildStreams _ _)) (EmitsR.bindE Prod.snd (mf_updateVote _ _) fun p => ?_)
    obtain ⟨ok, e2⟩ := p
    refine EmitsR.bind fun _ => EmitsR.bind fun st => EmitsR.bind fun lo => EmitsR.bind fun l3 => ?_
    exact EmitsR.from' (emits_same rfl rfl) (mf_lhAppend _ _ paysOk_blank)

theorem mf_handleVoteResp (e : Eng) (t : NodeId) (v : Vote) (last : Option LogId) (g : Bool) :
    EmitsR (CmdM M) id e (e.handleVoteResp dbg now t v last g) := by
  unfold handleVoteResp
  split
  · exact EmitsR.pure (Emits.refl _)
  · split
    · refine EmitsR.bind fun c1 => ?_
      dsimp only
      split
      · exact EmitsR.from' (emits_same rfl rfl) (mf_establishLeader _)
      · exact EmitsR.pure (emits_same rfl rfl)
    · refine EmitsR.from' (e1 := if e.st.lastLogId < last then { e with seenGreater := true } else e) ?_
        (EmitsR.bindE Prod.snd (mf_updateVote _ _) fun p => EmitsR.pure (Emits.refl _))
      split
      · exact emits_same rfl rfl
      · exact Emits.refl _

theorem mf_handleAppend (e : Eng) (tx : Nat) (v : Vote) (prev : Option LogId) {es : List Ent} (he : EntsOk M es) (lc : Option LogId) :
    EmitsR (CmdM M) id e (e.handleAppend dbg now tx v prev es lc) := by
  unfold handleAppend
  have h1 : EmitsR (CmdM M) Prod.snd e (e.appendEntries dbg now v prev es) := by
    unfold appendEntries
    refine EmitsR.bindE Prod.snd (mf_updateVote _ _) fun p => ?_
    obtain ⟨ok, e1⟩ := p
    dsimp only
    split
    · refine EmitsR.bind fun lv => EmitsR.bindE Prod.snd (emits_fhEnsure _ _) fun p => ?_
      obtain ⟨ok2, e2⟩ := p
      dsimp only
      split
      · exact EmitsR.bindE id (mf_fhAppendEntries _ _ _ he) fun e3 => EmitsR.pure (Emits.refl _)
      · exact EmitsR.pure (Emits.refl _)
    · exact EmitsR.pure (Emits.refl _)
  refine EmitsR.bindE Prod.snd h1 fun p => ?_
  obtain ⟨r, e1⟩ := p
  dsimp only
  split
  · refine EmitsR.bind fun acc => EmitsR.bind fun _ => ?_
    exact EmitsR.from' (emits_push _ _) (emits_fhCommit _ _)
  · exact EmitsR.pure (emits_push _ _)

theorem mf_handleInstall (e : Eng) (tx : Nat) (v : Vote) {m : SnapMeta} (hm : M m.mem.mem) :
    EmitsR (CmdM M) id e (e.handleInstall dbg now tx v m) := by
  unfold handleInstall
  refine EmitsR.bindE Prod.snd (mf_updateVote _ _) fun p => ?_
  obtain ⟨ok, e1⟩ := p
  dsimp only
  split
  · refine EmitsR.bind fun lv => EmitsR.bindE Prod.snd (mf_fhInstall _ _ hm) fun p => ?_
    exact EmitsR.pure (emits_push _ _)
  · exact EmitsR.pure (emits_push _ _)

theorem mf_writeEntry (e : Eng) {p : Payload} (hp : PaysOk M [p]) : EmitsR (CmdM M) Prod.snd e (e.writeEntry dbg p) := by
  unfold writeEntry
  refine EmitsR.bind fun o => ?_
  split
  · exact EmitsR.pure (Emits.refl _)
  · split
    · exact EmitsR.pure (Emits.refl _)
    · exact EmitsR.bindE id (mf_lhAppend _ _ hp) fun e1 => EmitsR.bind fun l => EmitsR.pure (Emits.refl _)

/-- the memberships that an input makes a node store have `M` -/
theorem mf_input (e : Eng) {i : Input} (hi : InM M C e i) : EmitsR (CmdM M) id e (e.input dbg now i) := by
  cases i with
  | appendReq tx v prev es lc => exact mf_handleAppend _ _ _ _ hi.1 _
  | voteReq tx v last =>
    simp only [input, coreVoteReq]
    exact EmitsR.bindE Prod.snd (mf_handleVoteReq _ _ _) fun p => EmitsR.pure (emits_push _ _)
  | snapReq tx v m => exact mf_handleInstall _ _ _ hi.1
  | init tx m =>
    simp only [input, coreInit]
    exact EmitsR.bindE Prod.snd (mf_initCluster _ hi) fun p => EmitsR.pure (emits_push _ _)
  | write p =>
    simp only [input]
    exact EmitsR.bindE Prod.snd (mf_writeEntry _ hi) fun p => EmitsR.pure (Emits.refl _)
  | change c r =>
    simp only [input]
    refine EmitsR.bindE Prod.snd ?_ fun p => EmitsR.pure (Emits.refl _)
    unfold changeMembership
    split
    · exact EmitsR.pure (Emits.refl _)
    · next m hm =>
      refine mf_writeEntry _ ?_
      intro k hk
      simp only [List.mem_singleton, Payload.membership.injEq] at hk
      rw [hk]; exact hi m hm
  | handleTransfer v target =>
    simp only [input, coreHandleTransfer]
    split
    · split
      · exact EmitsR.from' (emits_same rfl rfl) (mf_elect _)
      · exact EmitsR.pure (emits_same rfl rfl)
    · exact EmitsR.pure (Emits.refl _)
  | electCmd =>
    simp only [input, coreElect]
    split
    · exact mf_elect _
    · exact EmitsR.pure (Emits.refl _)
  | heartbeatCmd => exact emits_coreHeartbeat _
  | snapshotCmd => exact EmitsR.pure (emits_triggerSnapshot _)
  | purgeCmd i => exact emits_triggerPurge _ _
  | transferCmd t => exact emits_triggerTransfer _ _
  | voteResp target v last granted sender =>
    simp only [input]
    split
    · exact mf_handleVoteResp _ _ _ _ _
    · exact EmitsR.pure (Emits.refl _)
  | higherVote v sender =>
    simp only [input]
    split
    · exact EmitsR.bindE Prod.snd (mf_updateVote _ _) fun p => EmitsR.pure (Emits.refl _)
    · exact EmitsR.pure (Emits.refl _)
  | tick el hb iv =>
    simp only [input, coreTick]
    refine EmitsR.bindE id ?_ fun e1 => EmitsR.bindE id (emits_tickHeartbeat _ _ _) fun e2 => ?_
    · unfold tickElection
      split
      · exact EmitsR.pure (Emits.refl _)
      · split
        · exact EmitsR.pure (Emits.refl _)
        · split
          · exact EmitsR.pure (Emits.refl _)
          · have hgo : ∀ b : Bool, EmitsR (CmdM M) id e (if b = true then elect dbg now { e with seenGreater := false } else pure e) := by
              intro b
              split
              · exact EmitsR.from' (emits_same rfl rfl) (mf_elect _)
              · exact EmitsR.pure (Emits.refl _)
            exact hgo _
    · split
      · unfold leaderStepDown
        split
        · exact mf_updateInternal _
        · exact EmitsR.pure (Emits.refl _)
      · exact EmitsR.pure (Emits.refl _)
  | localIO io =>
    simp only [input, coreLocalIO]
    refine EmitsR.bind fun p => ?_
    split
    · split
      · split
        · exact EmitsR.from' (e1 := e.withProg p) (emits_same rfl rfl) (emits_rhUpdateLocal _ _ _)
        · exact EmitsR.pure (emits_same rfl rfl)
      · exact EmitsR.pure (emits_same rfl rfl)
    · exact EmitsR.pure (emits_same rfl rfl)
  | replProgress s target r =>
    simp only [input, coreReplProgress]
    split
    · exact EmitsR.bind fun l => emits_rhUpdateProgress _ _ _ _
    · exact EmitsR.pure (Emits.refl _)
  | hbProgress s target t =>
    simp only [input, coreHbProgress]
    split
    · exact EmitsR.bind fun l => emits_rhUpdateClock _ _ _ _
    · exact EmitsR.pure (Emits.refl _)
  | built m =>
    simp only [input, coreBuilt]
    exact EmitsR.bindE id (emits_finishBuilding _ _) fun e1 => EmitsR.bind fun io => EmitsR.pure (emits_same rfl rfl)
  | installed io m =>
    simp only [input, coreInstalled]
    exact EmitsR.bind fun p => EmitsR.bind fun s1 => EmitsR.bind fun s2 => EmitsR.pure (emits_same rfl rfl)
  | applied last =>
    simp only [input, coreApplied]
    exact EmitsR.bind fun s => EmitsR.pure (emits_same rfl rfl)
  | initiate =>
    simp only [input, coreInitiate]
    refine EmitsR.bind fun o => ?_
    split
    · exact EmitsR.pure (Emits.refl _)
    · exact emits_rhInitiate _ _

end Eng
end Openraft.Engine
