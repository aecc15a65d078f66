import Verif.Engine.Types

/-!
# The engine: every handler of `engine/`

Each function is one Rust function. A Rust function that mutates the engine becomes a function that
returns the new engine. `dbg` selects a debug build, where a failed `debug_assert!` aborts the node.
`now` is the time of the handler: the code reads the clock at several places of one handler, here
they all give the same time. Not modelled: the validity checks that the wrapper `Valid<RaftState>`
makes on access in debug builds, tracing, metrics.
-/

set_option autoImplicit false

namespace Openraft.Engine
open Openraft.Repl (Panic dassert Inflight)
open Openraft.Cluster (Payload)

namespace Eng

/-! ## `ServerStateHandler` -/

/-- `update_server_state_if_changed`, `engine/handler/server_state_handler/mod.rs:22-48` -/
def updateServerState (e : Eng) : Eng :=
  { e with st := { e.st with server := e.st.calcServerState e.cfg.id } }

/-! ## `LogHandler` -/

/-- `purge_log`, `engine/handler/log_handler/mod.rs:30-48` (the `unwrap` of line 44 cannot fail) -/
def logPurge (e : Eng) : Eng :=
  if e.st.purgeUpto ≤ e.st.lastPurged then e
  else match e.st.purgeUpto with
    | none => e
    | some upto => Eng.push { e with st := e.st.purgeLog upto } (.purge upto)

/-- `calc_purge_upto`, `engine/handler/log_handler/mod.rs:77-112`. For `purge_end = 0` the
subtraction of line 103 overflows: it aborts in debug builds, and wraps to an index without a log id
in release builds. -/
def calcPurgeUpto (dbg : Bool) (e : Eng) : Res (Option LogId) :=
  let purgeEnd := nextIndex e.st.snap.lastLogId - e.cfg.maxKeep
  if purgeEnd < nextIndex e.st.lastPurged + e.cfg.purgeBatch then return none
  else if purgeEnd = 0 then do
    dassert dbg false
    return none
  else do
    dassert dbg (LogIdList.get e.st.logIds (purgeEnd - 1)).isSome
    return LogIdList.get e.st.logIds (purgeEnd - 1)

/-- `update_purge_upto`, `engine/handler/log_handler/mod.rs:64-67` -/
def updatePurgeUpto (dbg : Bool) (e : Eng) (x : LogId) : Res Eng := do
  dassert dbg (decide (e.st.purgeUpto ≤ some x))
  return { e with st := { e.st with purgeUpto := some x } }

/-- `schedule_policy_based_purge`, `engine/handler/log_handler/mod.rs:56-60` -/
def schedulePurge (dbg : Bool) (e : Eng) : Res Eng := do
  match ← e.calcPurgeUpto dbg with
  | some x => e.updatePurgeUpto dbg x
  | none => return e

/-! ## `SnapshotHandler` -/

/-- `trigger_snapshot`, `engine/handler/snapshot_handler/mod.rs:30-44` -/
def triggerSnapshot (e : Eng) : Eng :=
  if e.st.io.building then e
  else Eng.push { e with st := { e.st with io := { e.st.io with building := true } } } (.sm .build)

/-- `update_snapshot`, `engine/handler/snapshot_handler/mod.rs:53-68` -/
def updateSnapshot (e : Eng) (m : SnapMeta) : Bool × Eng :=
  if m.lastLogId ≤ e.st.snap.lastLogId then (false, e)
  else (true, { e with st := { e.st with snap := m } })

/-- `if should_snapshot { trigger_snapshot() }`, `following_handler/mod.rs:184-186` and
`replication_handler/mod.rs:201-203` -/
def maybeSnapshot (e : Eng) : Eng :=
  if shouldSnapshot e.cfg.snapshotPolicy e.st then e.triggerSnapshot else e

/-! ## `ReplicationHandler` -/

/-- the ids of the progress entries, in the order of the vector -/
def progIds (l : Leader) : List NodeId := l.progress.vp.vector.map (·.1)

/-- `rebuild_progresses`, `engine/handler/replication_handler/mod.rs:88-109` -/
def rhRebuildProgresses (e : Eng) (l : Leader) : Leader :=
  let m := e.st.ms.effective.mem
  let ids := progIds l
  { l with
    progress := {
      vp := l.progress.vp.upgrade m.configs m.learnerIds none
      ent := fun n => if ids.contains n then l.progress.ent n
        else Repl.Entry.empty (nextIndex e.st.lastLogId) }
    clock := l.clock.upgrade m.configs m.learnerIds none }

/-- `rebuild_replication_streams`, `engine/handler/replication_handler/mod.rs:254-267` -/
def rhRebuildStreams (e : Eng) (l : Leader) : Eng :=
  let ent := fun n => if n = e.cfg.id then l.progress.ent n else (l.progress.ent n).resetInflight
  Eng.push { e with leader := some { l with progress := { l.progress with ent := ent } } }
    (.rebuild (((progIds l).filter fun n => n != e.cfg.id).map fun n => (n, ent n)))

/-- loop of `initiate_replication`, `engine/handler/replication_handler/mod.rs:276-294`, with
`send_to_target` (lines 298-305) -/
def rhInitLoop (dbg : Bool) (me : NodeId) (v : Repl.LogView) (max : Nat) :
    List NodeId → (NodeId → Repl.Entry) → List Cmd → Res ((NodeId → Repl.Entry) × List Cmd)
  | [], ent, out => return (ent, out)
  | n :: ns, ent, out =>
    if n = me then rhInitLoop dbg me v max ns ent out
    else do
      let (sent, en) ← (ent n).nextSend dbg v max
      let ent' := fun k => if k = n then en else ent k
      if sent then
        let req ← Repl.sendToTarget en.inflight
        rhInitLoop dbg me v max ns ent' (out ++ [.replicate n req])
      else rhInitLoop dbg me v max ns ent' out

/-- `initiate_replication`, `engine/handler/replication_handler/mod.rs:273-295` -/
def rhInitiate (dbg : Bool) (e : Eng) (l : Leader) : Res Eng := do
  let (ent, cmds) ← rhInitLoop dbg e.cfg.id e.st.view e.cfg.maxPayload (progIds l) l.progress.ent []
  return { e with
    leader := some { l with progress := { l.progress with ent := ent } }
    out := e.out ++ cmds }

/-- `append_membership`, `engine/handler/replication_handler/mod.rs:56-82` -/
def rhAppendMembership (dbg : Bool) (e : Eng) (l : Leader) (id : LogId) (m : Membership) : Res Eng := do
  dassert dbg (decide (e.st.server = .leader))
  dassert dbg (e.st.isLeader e.cfg.id)
  let ms ← RState.MemState.append dbg e.st.ms ⟨some id, m⟩
  let e1 := { e with st := { e.st with ms := ms } }
  let e2 := rhRebuildStreams e1 (rhRebuildProgresses e1 l)
  let l2 ← unwrap e2.leader
  rhInitiate dbg e2 l2

/-- `try_commit_quorum_accepted`, `engine/handler/replication_handler/mod.rs:179-205` -/
def rhTryCommit (dbg : Bool) (e : Eng) (granted : Option LogId) : Res Eng :=
  match granted with
  | none => return e
  | some c =>
    if e.st.vote.data.isSameLeader c.leaderId then do
      let (ch, st) ← e.st.updateCommitted dbg (some c)
      if ch then
        let e1 := Eng.push { e with st := st } (.replCommitted (some c))
        let e2 := Eng.push e1 (.saveCommitted c)
        let e3 := Eng.push e2 (.apply e.st.committed c)
        return e3.maybeSnapshot
      else return e
    else return e

/-- `update_matching`, `engine/handler/replication_handler/mod.rs:149-173` -/
def rhUpdateMatching (dbg : Bool) (e : Eng) (l : Leader) (node : NodeId) (m : Option LogId) : Res Eng := do
  dassert dbg m.isSome
  let _ ← unwrap (l.progress.vp.index node)
  let en ← (l.progress.ent node).updateMatching dbg m
  let vp ← unwrap (l.progress.vp.update node en.matching)
  let l1 := { l with progress := ⟨vp, fun k => if k = node then en else l.progress.ent k⟩ }
  rhTryCommit dbg { e with leader := some l1 } vp.granted

/-- `update_conflicting`, `engine/handler/replication_handler/mod.rs:210-216` -/
def rhUpdateConflicting (dbg : Bool) (e : Eng) (l : Leader) (node : NodeId) (conflict : LogId) : Res Eng := do
  let _ ← unwrap (l.progress.vp.index node)
  let en ← (l.progress.ent node).updateConflicting dbg conflict.index
  return { e with leader := some { l with
    progress := { l.progress with ent := fun k => if k = node then en else l.progress.ent k } } }

/-- `try_purge_log`, `engine/handler/replication_handler/mod.rs:312-346` -/
def rhTryPurge (e : Eng) (l : Leader) : Eng :=
  if e.st.purgeUpto ≤ e.st.lastPurged then e
  else match e.st.purgeUpto with
    | none => e
    | some upto =>
      if (progIds l).any fun n => (l.progress.ent n).isLogRangeInflight upto then e
      else e.logPurge

/-- the error arm of `update_progress`, `engine/handler/replication_handler/mod.rs:238-244` -/
def rhFailed (e : Eng) (l : Leader) (node : NodeId) : Res Eng := do
  let _ ← unwrap (l.progress.vp.index node)
  return { e with leader := some { l with progress := { l.progress with
    ent := fun k => if k = node then (l.progress.ent k).resetInflight else l.progress.ent k } } }

/-- what a replication task reports: `Result<ReplicationResult, String>`,
`replication/response.rs:53-58` -/
inductive ReplResult where
  | matching (m : Option LogId)
  | conflict (c : LogId)
  | failed
deriving DecidableEq, Repr

/-- `update_progress`, `engine/handler/replication_handler/mod.rs:220-250` -/
def rhUpdateProgress (dbg : Bool) (e : Eng) (l : Leader) (node : NodeId) (r : ReplResult) : Res Eng := do
  let e1 ← match r with
    | .matching m => rhUpdateMatching dbg e l node m
    | .conflict c => rhUpdateConflicting dbg e l node c
    | .failed => rhFailed e l node
  let l1 ← unwrap e1.leader
  return rhTryPurge e1 l1

/-- `update_leader_clock`, `engine/handler/replication_handler/mod.rs:114-144` -/
def rhUpdateClock (e : Eng) (l : Leader) (node : NodeId) (t : Nat) : Res Eng := do
  let c ← unwrap (l.clock.increaseTo node (some t))
  return { e with leader := some { l with clock := c } }

/-- `update_local_progress`, `engine/handler/replication_handler/mod.rs:354-378` -/
def rhUpdateLocal (dbg : Bool) (e : Eng) (l : Leader) (upto : Option LogId) : Res Eng :=
  if upto = none then return e
  else if (l.progress.vp.index e.cfg.id).isSome then
    if upto ≤ (l.progress.ent e.cfg.id).matching then return e
    else
      let en := { l.progress.ent e.cfg.id with inflight := Inflight.mkLogs none upto }
      rhUpdateMatching dbg e { l with progress := { l.progress with
        ent := fun k => if k = e.cfg.id then en else l.progress.ent k } } e.cfg.id upto
  else return e

/-! ## `LeaderHandler` -/

/-- `assign_log_ids`, `proposer/leader.rs:163-184`: the entries from index `i` on -/
def assign (lid : LeaderId) : Nat → List Payload → List Ent
  | _, [] => []
  | i, p :: ps => ⟨⟨lid, i⟩, p⟩ :: assign lid (i + 1) ps

/-- the membership part of `leader_append_entries`, `engine/handler/leader_handler/mod.rs:91-93` -/
def lhMembership (dbg : Bool) (e : Eng) (l : Leader) (m : Option StoredMem) : Res Eng :=
  match m with
  | some ⟨some id, m⟩ => rhAppendMembership dbg e l id m
  | _ => pure e

/-- `leader_append_entries`, `engine/handler/leader_handler/mod.rs:53-96` -/
def lhAppend (dbg : Bool) (e : Eng) (l : Leader) (ps : List Payload) : Res Eng :=
  if ps = [] then return e
  else do
    dassert dbg l.transferTo.isNone
    let es := assign l.vote.leaderId (nextIndex l.lastLogId) ps
    let l1 := { l with lastLogId := es.getLast?.map (·.id) }
    let ids ← unwrap (LogIdList.extendFromSameLeader e.st.logIds (es.map (·.id)))
    let mems := es.filterMap (·.stored?)
    dassert dbg (decide (mems.length ≤ 1))
    let st ← ({ e.st with logIds := ids } : RState).acceptIo dbg (IOId.newLog l.vote l1.lastLogId)
    let e1 := Eng.push { e with st := st, leader := some l1 } (.append l.vote es)
    let e2 ← lhMembership dbg e1 l1 mems.getLast?
    let l2 ← unwrap e2.leader
    rhInitiate dbg e2 l2

/-- `send_heartbeat`, `engine/handler/leader_handler/mod.rs:99-107` -/
def lhHeartbeat (e : Eng) (l : Leader) : Eng :=
  e.push (.heartbeat l.vote e.st.ms.effective.logId e.st.committed)

/-- `get_read_log_id`, `engine/handler/leader_handler/mod.rs:112-116` -/
def lhReadLogId (e : Eng) (l : Leader) : Option LogId := max l.noopLogId e.st.committed

/-- `transfer_leader`, `engine/handler/leader_handler/mod.rs:119-126` -/
def lhTransfer (e : Eng) (l : Leader) (target : NodeId) : Eng :=
  Eng.push { e with
    leader := some { l with transferTo := some target }
    st := { e.st with vote := e.st.vote.disable } } (.transfer l.vote target l.lastLogId)

/-- `leader_handler`, `engine/engine_impl.rs:745-767` -/
def leaderHandler (dbg : Bool) (e : Eng) : Res (Option Leader) :=
  match e.leader with
  | none => return none
  | some l => do
    dassert dbg (decide (e.st.vote.data ≤ l.vote))
    return some l

/-! ## `VoteHandler` -/

/-- `become_leader`, `engine/handler/vote_handler/mod.rs:188-216`: no leader of this vote exists yet.
`new_leader` is `raft_state/mod.rs:391-402`. -/
def becomeNewLeader (dbg : Bool) (now : Nat) (e : Eng) : Res Eng := do
  let l ← Leader.new dbg now e.st.vote.data e.st.ms.effective.mem (LogIdList.byLastLeader e.st.logIds)
  let st ← e.st.acceptIo dbg (IOId.newLog l.vote l.lastLogId)
  let e1 := Eng.push { e with st := st, leader := some l } (.updateIO none (IOId.newLog l.vote l.lastLogId))
  let e2 := rhRebuildStreams e1.updateServerState l
  let l2 ← unwrap e2.leader
  if l.lastLogId < l.noopLogId then lhAppend dbg e2 l2 [.blank]
  else rhInitiate dbg e2 l2

/-- `become_leader`, `engine/handler/vote_handler/mod.rs:159-217` -/
def becomeLeader (dbg : Bool) (now : Nat) (e : Eng) : Res Eng :=
  match e.leader with
  | some l =>
    if l.vote.leaderId = e.st.vote.data.leaderId then
      return updateServerState { e with leader := some { l with vote := e.st.vote.data.toCommitted } }
    else becomeNewLeader dbg now e
  | none => becomeNewLeader dbg now e

/-- `become_following`, `engine/handler/vote_handler/mod.rs:222-233` -/
def becomeFollowing (dbg : Bool) (e : Eng) : Res Eng := do
  dassert dbg (decide (e.st.vote.data.leaderId.node ≠ e.cfg.id) || !e.st.ms.effective.mem.isVoter e.cfg.id)
  return updateServerState { e with leader := none, candidate := none }

/-- `update_internal_server_state`, `engine/handler/vote_handler/mod.rs:141-149` -/
def updateInternal (dbg : Bool) (now : Nat) (e : Eng) : Res Eng :=
  if e.st.isLeader e.cfg.id then e.becomeLeader dbg now
  else if e.st.isLeading e.cfg.id then return e
  else e.becomeFollowing dbg

/-- the store-or-touch part of `update_vote`, `engine/handler/vote_handler/mod.rs:125-133` -/
def storeVote (dbg : Bool) (now lease : Nat) (e : Eng) (v : Vote) : Res Eng :=
  if e.st.vote.data < v then do
    let st ← ({ e.st with vote := e.st.vote.update now lease v } : RState).acceptIo dbg (IOId.new v)
    return Eng.push { e with st := st } (.saveVote v)
  else do
    let vt ← e.st.vote.touch dbg now lease
    return { e with st := { e.st with vote := vt } }

/-- `update_vote`, `engine/handler/vote_handler/mod.rs:101-138`; the flag is `is_ok()` -/
def updateVote (dbg : Bool) (now : Nat) (e : Eng) (v : Vote) : Res (Bool × Eng) :=
  if e.st.vote.data ≤ v then do
    let lease := if v.committed then e.cfg.leaderLease else 0
    let e1 ← storeVote dbg now lease e v
    let e2 ← e1.updateInternal dbg now
    return (true, e2)
  else return (false, e)

/-! ## `FollowingHandler` -/

/-- `truncate_logs`, `engine/handler/following_handler/mod.rs:195-215` -/
def fhTruncate (dbg : Bool) (e : Eng) (since : Nat) : Res Eng := do
  dassert dbg (decide (nextIndex e.st.lastPurged ≤ since))
  match e.st.getLogId since with
  | none => return e
  | some id =>
    let ms ← RState.MemState.truncate dbg e.st.ms since
    let e1 := Eng.push { e with st := { e.st with
      logIds := LogIdList.truncate e.st.logIds since, ms := ms } } (.truncate id)
    if some since ≤ e.st.ms.effective.logId.map (·.index) then return e1.updateServerState
    else return e1

/-- loop of `append_membership`, `engine/handler/following_handler/mod.rs:228-235` -/
def appendMems (dbg : Bool) : MemState → List StoredMem → Res MemState
  | m, [] => return m
  | m, x :: xs => do
    let m1 ← RState.MemState.append dbg m x
    appendMems dbg m1 xs

/-- `last_two_memberships`, `engine/handler/following_handler/mod.rs:336-351` -/
def lastTwo (es : List Ent) : List StoredMem :=
  let ms := es.filterMap (·.stored?)
  ms.drop (ms.length - 2)

/-- `append_membership`, `engine/handler/following_handler/mod.rs:219-243` -/
def fhAppendMembership (dbg : Bool) (e : Eng) (es : List Ent) : Res Eng :=
  if lastTwo es = [] then return e
  else do
    let ms ← appendMems dbg e.st.ms (lastTwo es)
    return updateServerState { e with st := { e.st with ms := ms } }

/-- `do_append_entries`, `engine/handler/following_handler/mod.rs:141-157` -/
def fhDoAppend (dbg : Bool) (e : Eng) (v : Vote) (es : List Ent) : Res Eng := do
  dassert dbg (!es.isEmpty)
  dassert dbg (decide (es.head?.map (·.id.index) = some (nextIndex e.st.lastLogId)))
  dassert dbg (decide (e.st.lastLogId < es.head?.map (·.id)))
  let e1 ← fhAppendMembership dbg
    { e with st := { e.st with logIds := LogIdList.extend e.st.logIds (es.map (·.id)) } } es
  return e1.push (.append v es)

/-- `append_entries`, `engine/handler/following_handler/mod.rs:62-109` -/
def fhAppendEntries (dbg : Bool) (e : Eng) (v : Vote) (prev : Option LogId) (es : List Ent) : Res Eng := do
  dassert dbg (decide (∀ x ∈ es.head?, x.id.index = nextIndex prev))
  let last := max prev (es.getLast?.map (·.id))
  let io := IOId.newLog v last
  let st ← e.st.acceptIo dbg io
  let since ← st.firstConflicting dbg es
  match es.drop since with
  | x :: xs =>
    let e1 ← fhTruncate dbg { e with st := st } x.id.index
    fhDoAppend dbg e1 v (x :: xs)
  | [] =>
    if some io ≤ e.st.io.prog.accepted then return { e with st := st }
    else return Eng.push { e with st := st } (.updateIO (e.st.io.prog.accepted.map .ioFlushed) io)

/-- `ensure_log_consecutive`, `engine/handler/following_handler/mod.rs:114-131`; the flag is
`is_ok()` -/
def fhEnsure (dbg : Bool) (e : Eng) (prev : Option LogId) : Res (Bool × Eng) :=
  match prev with
  | none => return (true, e)
  | some p => do
    if ← e.st.hasLogId dbg p then return (true, e)
    else
      let e1 ← fhTruncate dbg e p.index
      return (false, e1)

/-- `commit_entries`, `engine/handler/following_handler/mod.rs:161-188` -/
def fhCommit (dbg : Bool) (e : Eng) (lc : Option LogId) : Res Eng := do
  let c := min (e.st.io.prog.accepted.bind (·.last)) lc
  let (ch, st) ← e.st.updateCommitted dbg c
  if ch then
    let id ← unwrap c
    let e1 := Eng.push { e with st := st } (.saveCommitted id)
    let e2 := Eng.push e1 (.apply e.st.committed id)
    return e2.maybeSnapshot
  else return e

/-- `following_handler`, `engine/engine_impl.rs:785-801`: the leader's vote -/
def followingHandler (dbg : Bool) (e : Eng) : Res Vote := do
  dassert dbg e.leader.isNone
  dassert dbg e.st.vote.data.committed
  return e.st.vote.data.toCommitted

/-- the conflict part of `install_full_snapshot`, `engine/handler/following_handler/mod.rs:307-313` -/
def fhInstallTruncate (dbg : Bool) (e : Eng) (last : LogId) : Res Eng :=
  match e.st.getLogId last.index with
  | some loc => if loc ≠ last then fhTruncate dbg e (nextIndex e.st.committed) else pure e
  | none => pure e

/-- `install_full_snapshot`, `engine/handler/following_handler/mod.rs:279-330`;
`update_committed_membership` is lines 247-258 -/
def fhInstall (dbg : Bool) (e : Eng) (v : Vote) (m : SnapMeta) : Res (Option Cond × Eng) :=
  if m.lastLogId ≤ e.st.committed then return (none, e)
  else do
    let last ← unwrap m.lastLogId
    match e.updateSnapshot m with
    | (false, e1) => return (none, e1)
    | (true, e1) =>
      let e2 ← fhInstallTruncate dbg e1 last
      let io := IOId.newLog v (some last)
      let st ← e2.st.acceptIo dbg io
      let ms ← RState.MemState.updateCommitted dbg st.ms m.mem
      let e3 := updateServerState { e2 with st := { st with committed := some last, ms := ms } }
      let e4 := e3.push (.sm (.install m io))
      let e5 := logPurge { e4 with st := { e4.st with purgeUpto := some last } }
      return (some (.snapshot (some last)), e5)

/-! ## `Engine` -/

/-- `set_server_state` part of `startup`, `engine/engine_impl.rs:141-171` -/
def startup (dbg : Bool) (now : Nat) (e : Eng) : Res Eng :=
  if e.st.isLeader e.cfg.id then e.updateInternal dbg now
  else return { e with st := { e.st with
    server := if e.st.ms.effective.mem.isVoter e.cfg.id then .follower else .learner } }

/-- `elect`, `engine/engine_impl.rs:211-230`; `new_candidate` is lines 115-130 -/
def elect (dbg : Bool) (now : Nat) (e : Eng) : Res Eng := do
  let v := Vote.new (e.st.vote.data.leaderId.term + 1) e.cfg.id
  let last := e.st.lastLogId
  let e1 := { e with candidate := some (Candidate.new now v last e.st.ms.effective.mem) }
  let (ok, e2) ← e1.updateVote dbg now v
  let _ ← unwrap (if ok then some () else none)
  return (e2.push (.sendVote v last)).updateServerState

/-- `initialize`, `engine/engine_impl.rs:186-207` with `check_initialize` (665-680) and
`check_members_contain_me` (684-694); the flag is `is_ok()` -/
def initCluster (dbg : Bool) (now : Nat) (e : Eng) (m : Membership) : Res (Bool × Eng) :=
  if e.st.isInitialized then return (false, e)
  else if !m.isVoter e.cfg.id then return (false, e)
  else do
    let e1 := { e with st := { e.st with vote := e.st.vote.update now 0 ⟨⟨0, 0⟩, true⟩ } }
    let v ← e1.followingHandler dbg
    let e2 ← fhDoAppend dbg e1 v [⟨⟨⟨0, 0⟩, 0⟩, .membership m⟩]
    let e3 ← e2.elect dbg now
    return (true, e3)

/-- `handle_vote_req`, `engine/engine_impl.rs:274-325`; the answer is `Resp.vote` -/
def handleVoteReq (dbg : Bool) (now : Nat) (e : Eng) (v : Vote) (last : Option LogId) : Res (Resp × Eng) :=
  if e.st.vote.data.committed && !e.st.vote.isExpired now 0 then
    return (.vote e.st.vote.data e.st.lastLogId false, e)
  else if e.st.lastLogId ≤ last then do
    let (ok, e1) ← e.updateVote dbg now v
    return (.vote e1.st.vote.data e1.st.lastLogId ok, e1)
  else return (.vote e.st.vote.data e.st.lastLogId false, e)

/-- `establish`, `engine/handler/establish_handler/mod.rs:20-46`: the new leader, if one is made -/
def establish (dbg : Bool) (now : Nat) (e : Eng) (c : Candidate) : Res (Option Leader) := do
  dassert dbg (decide (c.vote.leaderId.node = e.cfg.id))
  let old : Bool := match e.leader with
    | some l => !decide (l.vote < c.vote)
    | none => false
  if old then return none
  else
    let l ← c.intoLeader dbg now
    return some l

/-- `establish_leader`, `engine/engine_impl.rs:631-659` -/
def establishLeader (dbg : Bool) (now : Nat) (e : Eng) : Res Eng := do
  let c ← unwrap e.candidate
  let e0 := { e with candidate := none }
  match ← e0.establish dbg now c with
  | none => return e0
  | some l =>
    let e1 := rhRebuildStreams { e0 with leader := some l } l
    let (ok, e2) ← e1.updateVote dbg now l.vote
    dassert dbg ok
    let st ← e2.st.acceptIo dbg (IOId.newLog l.vote l.lastLogId)
    let e3 := { e2 with st := st }
    let l3 ← unwrap (← e3.leaderHandler dbg)
    lhAppend dbg e3 l3 [.blank]

/-- `Candidate::grant_by`, `proposer/candidate.rs:91-97` -/
def grantBy (c : Candidate) (target : NodeId) : Res Candidate := do
  let p ← unwrap (c.progress.update target true)
  return { c with progress := p }

/-- `handle_vote_resp`, `engine/engine_impl.rs:328-374` -/
def handleVoteResp (dbg : Bool) (now : Nat) (e : Eng) (target : NodeId) (v : Vote) (last : Option LogId)
    (granted : Bool) : Res Eng :=
  match e.candidate with
  | none => return e
  | some c =>
    if granted && v == c.vote then do
      let c1 ← grantBy c target
      let e1 := { e with candidate := some c1 }
      if c1.progress.granted then e1.establishLeader dbg now else return e1
    else do
      let e1 := if e.st.lastLogId < last then { e with seenGreater := true } else e
      let (_, e2) ← e1.updateVote dbg now v
      return e2

/-- `append_entries`, `engine/engine_impl.rs:419-434` -/
def appendEntries (dbg : Bool) (now : Nat) (e : Eng) (v : Vote) (prev : Option LogId) (es : List Ent) :
    Res (AppendResp × Eng) := do
  let (ok, e1) ← e.updateVote dbg now v
  if ok then
    let lv ← e1.followingHandler dbg
    let (ok2, e2) ← fhEnsure dbg e1 prev
    if ok2 then
      let e3 ← fhAppendEntries dbg e2 lv prev es
      return (.success, e3)
    else return (.conflict, e2)
  else return (.higherVote e1.st.vote.data, e1)

/-- `handle_append_entries`, `engine/engine_impl.rs:380-417`, followed by `handle_commit_entries`
(lines 438-449) as `core/raft_core.rs` does in `handle_append_entries_request` -/
def handleAppend (dbg : Bool) (now : Nat) (e : Eng) (tx : Nat) (v : Vote) (prev : Option LogId)
    (es : List Ent) (lc : Option LogId) : Res Eng := do
  let (r, e1) ← e.appendEntries dbg now v prev es
  if r = .success then
    let acc ← unwrap e1.st.io.prog.accepted
    let e2 := e1.push (.respond (some (.ioFlushed acc)) tx
      (.append r v (max prev (es.getLast?.map (·.id)))))
    let _ ← e2.followingHandler dbg
    fhCommit dbg e2 lc
  else return e1.push (.respond none tx (.append r v (max prev (es.getLast?.map (·.id)))))

/-- `handle_install_full_snapshot`, `engine/engine_impl.rs:453-482`; `accept_vote` is
`vote_handler/mod.rs:60-89` -/
def handleInstall (dbg : Bool) (now : Nat) (e : Eng) (tx : Nat) (v : Vote) (m : SnapMeta) : Res Eng := do
  let (ok, e1) ← e.updateVote dbg now v
  if ok then
    let lv ← e1.followingHandler dbg
    let (cond, e2) ← fhInstall dbg e1 lv m
    return e2.push (.respond cond tx (.snapshot e2.st.vote.data))
  else
    return e1.push (.respond (some (.ioFlushed (IOId.new e1.st.vote.data))) tx (.snapshot e1.st.vote.data))

/-- `leader_step_down`, `engine/engine_impl.rs:495-513` -/
def leaderStepDown (dbg : Bool) (now : Nat) (e : Eng) : Res Eng :=
  if e.st.ms.effective.logId ≤ e.st.committed then e.updateInternal dbg now else return e

/-- `try_purge_log`, `engine/engine_impl.rs:551-565` -/
def tryPurge (e : Eng) : Eng :=
  match e.leader with
  | some l => rhTryPurge e l
  | none => e.logPurge

/-- `finish_building_snapshot`, `engine/engine_impl.rs:527-541` -/
def finishBuilding (dbg : Bool) (e : Eng) (m : SnapMeta) : Res Eng :=
  let e0 := { e with st := { e.st with io := { e.st.io with building := false } } }
  match e0.updateSnapshot m with
  | (false, e1) => return e1
  | (true, e1) => do
    let e2 ← e1.schedulePurge dbg
    return e2.tryPurge

/-- `trigger_purge_log`, `engine/engine_impl.rs:569-607` -/
def triggerPurge (dbg : Bool) (e : Eng) (index : Nat) : Res Eng :=
  match e.st.snap.lastLogId with
  | none => return e
  | some sl =>
    if index < nextIndex e.st.purgeUpto then return e
    else do
      let id ← unwrap (e.st.getLogId (min index sl.index))
      let e1 ← e.updatePurgeUpto dbg id
      return e1.tryPurge

/-- `trigger_transfer_leader`, `engine/engine_impl.rs:609-622` -/
def triggerTransfer (dbg : Bool) (e : Eng) (target : NodeId) : Res Eng := do
  match ← e.leaderHandler dbg with
  | none => return e
  | some l => return lhTransfer e l target

end Eng
end Openraft.Engine
