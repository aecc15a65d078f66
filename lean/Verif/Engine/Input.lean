import Verif.Engine.Core

/-!
# What `RaftCore` hands to the engine

`handle_api_msg` and `handle_notification` of `core/raft_core.rs`: every message of a client, a peer,
the storage or a timer, with the checks `RaftCore` makes before it calls the engine.
-/

set_option autoImplicit false

namespace Openraft.Engine
open Openraft.Repl (Panic dassert Inflight)
open Openraft.Cluster (Payload)

/-- `ReplicationSessionId`, `replication/replication_session_id.rs:32-42` -/
structure Session where
  vote : Vote
  mem : Option LogId
deriving DecidableEq, Repr

/-- `RaftMsg` (`core/raft_msg/mod.rs`), `ExternalCommand` and `Notification`
(`core/notification.rs:15-70`). `tx` names the caller that waits for the answer. Not modelled:
messages that do not reach the engine (`CheckIsLeaderRequest`, `BeginReceivingSnapshot`,
`ExternalCoreRequest`, `GetSnapshot`, `StateMachineCommand`) and storage errors. -/
inductive Input where
  | appendReq (tx : Nat) (v : Vote) (prev : Option LogId) (es : List Ent) (commit : Option LogId)
  | voteReq (tx : Nat) (v : Vote) (last : Option LogId)
  | snapReq (tx : Nat) (v : Vote) (m : SnapMeta)
  | init (tx : Nat) (m : Membership)
  | write (p : Payload)
  | change (c : ChangeMembers) (retain : Bool)
  | handleTransfer (vote : Vote) (target : NodeId)
  | electCmd
  | heartbeatCmd
  | snapshotCmd
  | purgeCmd (upto : Nat)
  | transferCmd (target : NodeId)
  | voteResp (target : NodeId) (v : Vote) (last : Option LogId) (granted : Bool) (sender : Vote)
  | higherVote (higher sender : Vote)
  | tick (enableElect enableHeartbeat : Bool) (hbInterval : Nat)
  | localIO (io : IOId)
  | replProgress (s : Session) (target : NodeId) (r : Eng.ReplResult)
  | hbProgress (s : Session) (target : NodeId) (t : Nat)
  | built (m : SnapMeta)
  | installed (io : IOId) (m : SnapMeta)
  | applied (last : LogId)
  | initiate

namespace Eng

/-- `does_vote_match`, `core/raft_core.rs:1556-1581` -/
def voteMatch (e : Eng) (sender : Vote) : Bool :=
  if sender.committed then e.leader.map (·.vote) == some sender
  else e.candidate.map (·.vote) == some sender

/-- `does_replication_session_match`, `core/raft_core.rs:1585-1604` -/
def sessionMatch (e : Eng) (s : Session) : Bool :=
  e.voteMatch s.vote && s.mem == e.st.ms.effective.logId

/-- `handle_vote_request`, `core/raft_core.rs:1169-1180` -/
def coreVoteReq (dbg : Bool) (now : Nat) (e : Eng) (tx : Nat) (v : Vote) (last : Option LogId) : Res Eng := do
  let (r, e1) ← e.handleVoteReq dbg now v last
  return e1.push (.respond (some (.ioFlushed (IOId.new e1.st.vote.data))) tx r)

/-- `handle_initialize`, `core/raft_core.rs:643-670` -/
def coreInit (dbg : Bool) (now : Nat) (e : Eng) (tx : Nat) (m : Membership) : Res Eng := do
  let (ok, e1) ← e.initCluster dbg now m
  return e1.push (.respond (if ok then some (.logFlushed e1.st.lastLogId) else none) tx (.init ok))

/-- `write_entry`, `core/raft_core.rs:474-500`: the index at which the caller's answer channel is
registered, if the write is accepted -/
def writeEntry (dbg : Bool) (e : Eng) (p : Payload) : Res (Option Nat × Eng) := do
  match ← e.leaderHandler dbg with
  | none => return (none, e)
  | some l =>
    if l.transferTo.isSome then return (none, e)
    else
      let e1 ← lhAppend dbg e l [p]
      let last ← unwrap e1.st.lastLogId
      return (some last.index, e1)

/-- `ChangeHandler::apply`, `raft_state/membership_state/change_handler.rs:31-60`: refuse while the
last membership is not committed, then compute the new one -/
def changeApply (e : Eng) (c : ChangeMembers) (retain : Bool) : Option Membership :=
  if e.st.ms.effective.logId = e.st.ms.committed.logId then
    match e.st.ms.effective.mem.change c retain with
    | .ok m => some m
    | .error _ => none
  else none

/-- `change_membership`, `core/raft_core.rs:452-464` -/
def changeMembership (dbg : Bool) (e : Eng) (c : ChangeMembers) (retain : Bool) :
    Res (Option Nat × Eng) :=
  match e.changeApply c retain with
  | none => return (none, e)
  | some m => e.writeEntry dbg (.membership m)

/-- `HandleTransferLeader`, `core/raft_core.rs:1247-1259` -/
def coreHandleTransfer (dbg : Bool) (now : Nat) (e : Eng) (v : Vote) (target : NodeId) : Res Eng :=
  if e.st.vote.data = v then
    let e1 := { e with st := { e.st with vote := e.st.vote.disable } }
    if e.cfg.id = target then e1.elect dbg now else return e1
  else return e

/-- `ExternalCommand::Elect`, `core/raft_core.rs:1264-1272` -/
def coreElect (dbg : Bool) (now : Nat) (e : Eng) : Res Eng :=
  if e.st.ms.effective.mem.isVoter e.cfg.id then e.elect dbg now else return e

/-- `send_heartbeat`, `core/raft_core.rs:504-529` -/
def coreHeartbeat (dbg : Bool) (e : Eng) : Res Eng := do
  match ← e.leaderHandler dbg with
  | none => return e
  | some l => if l.transferTo.isSome then return e else return lhHeartbeat e l

/-- `handle_tick_election`, `core/raft_core.rs:1501-1552` -/
def tickElection (dbg : Bool) (now : Nat) (enable : Bool) (e : Eng) : Res Eng :=
  if e.st.server = .leader then return e
  else if !e.st.ms.effective.mem.isVoter e.cfg.id then return e
  else if !enable then return e
  else
    let timeout := e.cfg.electionTimeout + if e.seenGreater then e.cfg.smallerLogTimeout else 0
    if e.st.ms.effective.mem.voterIds.length = 1 || e.st.vote.isExpired now timeout then
      Eng.elect dbg now { e with seenGreater := false }
    else return e

/-- the heartbeat part of `Tick`, `core/raft_core.rs:1358-1370` -/
def tickHeartbeat (dbg : Bool) (now : Nat) (enable : Bool) (interval : Nat) (e : Eng) : Res Eng :=
  match e.leader with
  | none => return e
  | some l =>
    if l.nextHeartbeat ≤ now then do
      let e1 ← if enable then e.coreHeartbeat dbg else pure e
      return { e1 with leader := e1.leader.map fun l => { l with nextHeartbeat := now + interval } }
    else return e

/-- `Tick`, `core/raft_core.rs:1347-1393` -/
def coreTick (dbg : Bool) (now : Nat) (enableElect enableHb : Bool) (interval : Nat) (e : Eng) : Res Eng := do
  let e1 ← e.tickElection dbg now enableElect
  let e2 ← e1.tickHeartbeat dbg now enableHb interval
  if e2.st.ms.effective.logId ≤ e2.st.io.applied then e2.leaderStepDown dbg now else return e2

/-- replace the write progress -/
def withProg (e : Eng) (p : IOProgress) : Eng :=
  { e with st := { e.st with io := { e.st.io with prog := p } } }

/-- `LocalIO`, `core/raft_core.rs:1400-1419` -/
def coreLocalIO (dbg : Bool) (e : Eng) (io : IOId) : Res Eng := do
  let p ← e.st.io.prog.flush dbg io
  let e1 := e.withProg p
  if io.vote.committed then
    match e1.leader with
    | some l => if e1.voteMatch io.vote then rhUpdateLocal dbg e1 l io.last else return e1
    | none => return e1
  else return e1

/-- `ReplicationProgress`, `core/raft_core.rs:1421-1431` -/
def coreReplProgress (dbg : Bool) (e : Eng) (s : Session) (target : NodeId) (r : ReplResult) : Res Eng :=
  if e.sessionMatch s then do
    let l ← unwrap e.leader
    rhUpdateProgress dbg e l target r
  else return e

/-- `HeartbeatProgress`, `core/raft_core.rs:1433-1449` -/
def coreHbProgress (e : Eng) (s : Session) (target : NodeId) (t : Nat) : Res Eng :=
  if e.sessionMatch s then do
    let l ← unwrap e.leader
    rhUpdateClock e l target t
  else return e

/-- `StateMachine(BuildSnapshot)`, `core/raft_core.rs:1457-1472` -/
def coreBuilt (dbg : Bool) (e : Eng) (m : SnapMeta) : Res Eng := do
  let e1 ← e.finishBuilding dbg m
  let io ← e1.st.io.updateSnapshot dbg m.lastLogId
  return { e1 with st := { e1.st with io := io } }

/-- `StateMachine(InstallSnapshot)`, `core/raft_core.rs:1473-1488` -/
def coreInstalled (dbg : Bool) (e : Eng) (io : IOId) (m : SnapMeta) : Res Eng := do
  let p ← e.st.io.prog.flush dbg io
  let s1 ← ({ e.st.io with prog := p } : IOState).updateApplied dbg m.lastLogId
  let s2 ← s1.updateSnapshot dbg m.lastLogId
  return { e with st := { e.st with io := s2 } }

/-- `StateMachine(Apply)`, `core/raft_core.rs:1489-1493`, without the answers to the clients -/
def coreApplied (dbg : Bool) (e : Eng) (last : LogId) : Res Eng := do
  let s ← e.st.io.updateApplied dbg (some last)
  return { e with st := { e.st with io := s } }

/-- the end of one round of the main loop, `core/raft_core.rs:976-978` -/
def coreInitiate (dbg : Bool) (e : Eng) : Res Eng := do
  match ← e.leaderHandler dbg with
  | none => return e
  | some l => rhInitiate dbg e l

/-- `handle_api_msg`, `core/raft_core.rs:1195-1299`, and `handle_notification`,
`core/raft_core.rs:1302-1498` -/
def input (dbg : Bool) (now : Nat) (e : Eng) : Input → Res Eng
  | .appendReq tx v prev es lc => e.handleAppend dbg now tx v prev es lc
  | .voteReq tx v last => e.coreVoteReq dbg now tx v last
  | .snapReq tx v m => e.handleInstall dbg now tx v m
  | .init tx m => e.coreInit dbg now tx m
  | .write p => do let (_, e1) ← e.writeEntry dbg p; return e1
  | .change c r => do let (_, e1) ← e.changeMembership dbg c r; return e1
  | .handleTransfer v target => e.coreHandleTransfer dbg now v target
  | .electCmd => e.coreElect dbg now
  | .heartbeatCmd => e.coreHeartbeat dbg
  | .snapshotCmd => return e.triggerSnapshot
  | .purgeCmd i => e.triggerPurge dbg i
  | .transferCmd t => e.triggerTransfer dbg t
  | .voteResp target v last granted sender =>
    if e.candidate.isSome && e.voteMatch sender then e.handleVoteResp dbg now target v last granted
    else return e
  | .higherVote higher sender =>
    if e.voteMatch sender then do let (_, e1) ← e.updateVote dbg now higher; return e1
    else return e
  | .tick el hb interval => e.coreTick dbg now el hb interval
  | .localIO io => e.coreLocalIO dbg io
  | .replProgress s target r => e.coreReplProgress dbg s target r
  | .hbProgress s target t => e.coreHbProgress s target t
  | .built m => e.coreBuilt dbg m
  | .installed io m => e.coreInstalled dbg io m
  | .applied last => e.coreApplied dbg last
  | .initiate => e.coreInitiate dbg

end Eng
end Openraft.Engine
