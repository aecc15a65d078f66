import Verif.Engine.Input

/-!
# One node: engine, command queue, log store, state machine worker, waiting clients

Model of the parts of `core/raft_core.rs` that execute the engine's commands, of the state machine
worker `core/sm/worker.rs`, and of a log store that keeps the contract of
`storage/v2/raft_log_storage.rs`: writes are made durable in the order they were submitted, an append
reports its durability by a callback, `save_vote` returns when the vote is durable.

`Eng.out` keeps every command that was ever emitted; `done` of them are executed, so the queue
`EngineOutput::commands` is `Eng.out` without its first `done` commands. `Verif/Runtime/Queue.lean` has the
`VecDeque` itself.

Simplifications:
* the network is not part of the node: `SendVote`, `ReplicateCommitted`, `Replicate`,
  `BroadcastHeartbeat` and `BroadcastTransferLeader` only make the checks that can abort the node;
* a storage call does not fail by itself; a state machine worker that is given a range of entries that
  is not in the log reports a storage error, which stops the node (`Stop.storage`);
* the state machine is its last applied log id, its membership and the list of the entries it applied
  since its start or since the last snapshot was installed;
* snapshots are built in the background (`core/sm/worker.rs:215-246`); a build that ends after a later
  snapshot was installed does not replace it (the storage traits do not say which of the two stays).
-/

set_option autoImplicit false

namespace Openraft.Runtime
open Openraft.Engine
open Openraft.Repl (Panic dassert)
open Openraft.Cluster (Payload)

/-- why a node stops -/
inductive Stop where
  /-- a panic -/
  | panic (p : Panic)
  /-- a storage error is reported to `RaftCore`, which shuts down -/
  | storage
deriving DecidableEq, Repr

/-- the result of a step of a node -/
abbrev Out (α : Type) := Except Stop α

/-- code of the engine that runs inside the node -/
def lift {α : Type} : Res α → Out α
  | .ok a => .ok a
  | .error p => .error (.panic p)

/-- what the log store makes durable -/
structure Disk where
  vote : Vote
  committed : Option LogId
  store : LogStore
deriving DecidableEq, Repr

/-- a write that was submitted and is not durable yet; `append` has the id its callback reports -/
inductive DiskOp where
  | append (io : IOId) (es : List Ent)
  | truncate (since : LogId)
  | purge (upto : LogId)
  | saveCommitted (c : LogId)
deriving DecidableEq, Repr

/-- effect of a write -/
def Disk.write (d : Disk) : DiskOp → Disk
  | .append _ es => { d with store := d.store.append es }
  | .truncate since => { d with store := d.store.truncate since }
  | .purge upto => { d with store := d.store.purge upto }
  | .saveCommitted c => { d with committed := some c }

/-- `Notification`s that come from the node's own storage and state machine,
`core/notification.rs:15-70` -/
inductive Note where
  /-- `LocalIO` -/
  | localIO (io : IOId)
  /-- `VoteResponse` of the node to itself, `raft_core.rs:1697-1703` -/
  | selfVote (v : Vote)
  /-- `StateMachine(BuildSnapshot)` -/
  | built (m : SnapMeta)
  /-- `StateMachine(InstallSnapshot)` -/
  | installed (io : IOId) (m : SnapMeta)
  /-- `StateMachine(Apply)`, with the entries applied -/
  | applied (last : LogId) (es : List Ent)
deriving DecidableEq, Repr

/-- the notification a write causes when it becomes durable, `storage/callback.rs:52-70` -/
def DiskOp.note : DiskOp → List Note
  | .append io _ => [.localIO io]
  | _ => []

/-- the state machine: `applied_state()`; as a record, the entries applied; the current snapshot
(`get_current_snapshot`). `persist` tells the two kinds of state machines that
`storage/v2/raft_state_machine.rs:57-66` allows apart: one that is durable when `apply` returns, and one
that is rebuilt from its snapshot when the node starts. -/
structure Sm where
  applied : Option LogId
  mem : StoredMem
  hist : List Ent
  snap : SnapMeta
  persist : Bool
deriving DecidableEq, Repr

/-- what the state machine still has after a crash -/
def Sm.kept (s : Sm) : Option LogId := if s.persist then s.applied else s.snap.lastLogId

/-- a node -/
structure Node where
  eng : Eng
  /-- commands executed -/
  done : Nat
  /-- what a read of the log returns -/
  rd : LogStore
  disk : Disk
  /-- writes submitted but not yet durable, oldest first -/
  pend : List DiskOp
  /-- notifications not yet handled, oldest first (`rx_notification`) -/
  rx : List Note
  /-- commands the state machine worker has not yet handled -/
  smq : List SmCmd
  sm : Sm
  /-- snapshots that are being built -/
  builds : List SnapMeta
  /-- targets that have a replication task (`RaftCore::replications`) -/
  repl : List NodeId
  /-- `RaftCore::client_resp_channels`: log index and caller -/
  clients : List (Nat × Nat)
  /-- record of the answers sent to peers, with the number of commands executed before -/
  sent : List (Nat × Nat × Resp)
  /-- record of the answers given to clients: the applied entry, or an error -/
  replies : List (Nat × Option Ent)

namespace Node

/-- the command to be executed next -/
def head (n : Node) : Option Cmd := n.eng.out[n.done]?

/-- the test of a condition, `run_command`, `core/raft_core.rs:1619-1668` -/
def holds (n : Node) : Cond → Bool
  | .ioFlushed io => !decide (n.eng.st.io.prog.flushed < some io)
  | .logFlushed l => !decide (n.eng.st.io.prog.flushed.bind (·.last) < l)
  | .applied l => !decide (n.eng.st.io.applied < l)
  | .snapshot l => !decide (n.eng.st.io.snapshot < l)

/-- a command can be executed now -/
def ready (n : Node) (c : Cmd) : Bool :=
  match c.condition with
  | none => true
  | some k => n.holds k

/-- `run_engine_commands` has returned: no command is left or the first one has to wait -/
def idle (n : Node) : Bool :=
  match n.head with
  | none => true
  | some c => !n.ready c

/-- `io_progress.submit` -/
def submit (dbg : Bool) (n : Node) (io : IOId) : Out Node := do
  let p ← lift (n.eng.st.io.prog.submit dbg io)
  return { n with eng := n.eng.withProg p }

/-- submit a write; it can be read at once -/
def write (n : Node) (op : DiskOp) : Node :=
  { n with pend := n.pend ++ [op], rd := (Disk.write ⟨n.disk.vote, none, n.rd⟩ op).store }

/-- the oldest write becomes durable -/
def flush1 (n : Node) : Node :=
  match n.pend with
  | [] => n
  | op :: ops => { n with disk := n.disk.write op, pend := ops, rx := n.rx ++ op.note }

/-- `save_vote` returns when the vote is durable; writes are serialized, so all earlier ones are
durable too -/
def saveVote (n : Node) (v : Vote) : Node :=
  { n with
    disk := { n.pend.foldl Disk.write n.disk with vote := v }
    pend := []
    rx := n.rx ++ n.pend.flatMap DiskOp.note ++ [.localIO (IOId.new v), .selfVote v] }

/-- `get_node(id).unwrap()` for all of a list of nodes -/
def needNodes (n : Node) (ids : List NodeId) : Out Unit :=
  if ids.all fun i => n.eng.st.ms.effective.mem.contains i then .ok ()
  else .error (.panic .unreachable)

/-- the voters but this node -/
def otherVoters (n : Node) : List NodeId :=
  n.eng.st.ms.effective.mem.voterIds.filter fun i => i != n.eng.cfg.id

/-- `RebuildReplicationStreams`, `core/raft_core.rs:1770-1786` with `spawn_replication_stream`
(lines 806-836): the membership and the leader are those at the time of execution -/
def rebuild (n : Node) (targets : List NodeId) : Out Node := do
  n.needNodes targets
  if targets.isEmpty || n.eng.leader.isSome then return { n with repl := targets }
  else .error (.panic .unreachable)

/-- `client_resp_channels.split_off(&since.index)`, `core/raft_core.rs:1712-1740`: the callers get an
error -/
def dropClients (n : Node) (since : Nat) : Node :=
  { n with
    clients := n.clients.filter fun c => decide (c.1 < since)
    replies := n.replies ++ (n.clients.filter fun c => decide (since ≤ c.1)).map fun c => (c.2, none) }

/-- `run_command` of a command whose condition holds, `core/raft_core.rs:1670-1805` -/
def exec (dbg : Bool) (n : Node) : Cmd → Out Node
  | .updateIO _ io => do
    let n1 ← n.submit dbg io
    return { n1 with rx := n1.rx ++ [.localIO io] }
  | .append v es => do
    let last ← lift (unwrap es.getLast?)
    let io := IOId.newLog v (some last.id)
    let n1 ← n.submit dbg io
    return n1.write (.append io es)
  | .saveVote v => do
    let n1 ← n.submit dbg (IOId.new v)
    return n1.saveVote v
  | .purge upto =>
    let n1 := n.write (.purge upto)
    return { n1 with eng := { n1.eng with st := { n1.eng.st with io := { n1.eng.st.io with purged := some upto } } } }
  | .truncate since => return (n.write (.truncate since)).dropClients since.index
  | .saveCommitted c => return n.write (.saveCommitted c)
  | .sendVote _ _ => do
    n.needNodes n.otherVoters
    return n
  | .transfer _ _ _ => do
    n.needNodes n.otherVoters
    return n
  | .replCommitted _ => return n
  | .heartbeat _ _ _ => return n
  | .apply already upto => do
    let first ← lift (unwrap (n.eng.st.getLogId (nextIndex already)))
    lift (dassert dbg (decide (first.index ≤ upto.index)))
    return { n with smq := n.smq ++ [.apply first upto] }
  | .replicate target _ =>
    if n.repl.contains target then return n else .error (.panic .unreachable)
  | .rebuild targets => n.rebuild (targets.map (·.1))
  | .sm (.install m io) => do
    let n1 ← n.submit dbg io
    return { n1 with smq := n1.smq ++ [.install m io] }
  | .sm c => return { n with smq := n.smq ++ [c] }
  | .respond _ tx r => return { n with sent := n.sent ++ [(n.done, tx, r)] }

/-- one round of the loop of `run_engine_commands`, `core/raft_core.rs:868-900` -/
def run1 (dbg : Bool) (n : Node) : Out Node :=
  match n.head with
  | none => return n
  | some c =>
    if n.ready c then do
      let n1 ← n.exec dbg c
      return { n1 with done := n1.done + 1 }
    else return n

/-- `handle_apply_result` and `send_response`, `core/raft_core.rs:767-803` -/
def answer (n : Node) : List Ent → Node
  | [] => n
  | e :: es =>
    let n1 := match BMap.get n.clients e.id.index with
      | some tx => { n with clients := BMap.remove n.clients e.id.index, replies := n.replies ++ [(tx, some e)] }
      | none => n
    answer n1 es

/-- `handle_notification`, `core/raft_core.rs:1302-1498`, for the node's own notifications -/
def handle (dbg : Bool) (now : Nat) (n : Node) : Note → Out Node
  | .localIO io => do
    let e ← lift (n.eng.input dbg now (.localIO io))
    return { n with eng := e }
  | .selfVote v => do
    let e ← lift (n.eng.input dbg now (.voteResp n.eng.cfg.id v none true v))
    return { n with eng := e }
  | .built m => do
    let e ← lift (n.eng.input dbg now (.built m))
    return { n with eng := e }
  | .installed io m => do
    let e ← lift (n.eng.input dbg now (.installed io m))
    return { n with eng := e }
  | .applied last es => do
    let e ← lift (n.eng.input dbg now (.applied last))
    return answer { n with eng := e } es

/-- the membership after some entries -/
def memAfter (m : StoredMem) (es : List Ent) : StoredMem := (es.filterMap (·.stored?)).getLastD m

/-- one command of the state machine worker, `worker_loop`, `core/sm/worker.rs:96-160`, with `apply`
(lines 161-213) and `build_snapshot` (lines 225-246) -/
def smStep (n : Node) : Out Node :=
  match n.smq with
  | [] => return n
  | .apply first last :: q =>
    let es := n.rd.read first.index (last.index + 1)
    if es.length = last.index + 1 - first.index then
      return { n with
        smq := q
        sm := { n.sm with applied := some last, mem := memAfter n.sm.mem es, hist := n.sm.hist ++ es }
        rx := n.rx ++ [.applied last es] }
    else .error .storage
  | .install m io :: q =>
    return { n with smq := q, sm := ⟨m.lastLogId, m.mem, [], m, n.sm.persist⟩, rx := n.rx ++ [.installed io m] }
  | .build :: q =>
    return { n with smq := q, builds := n.builds ++ [⟨n.sm.applied, n.sm.mem, 0⟩] }

/-- a snapshot builder is done; the storage keeps its snapshot unless it already has a later one -/
def buildDone (n : Node) (k : Nat) : Node :=
  match n.builds[k]? with
  | none => n
  | some m => { n with
      builds := n.builds.eraseIdx k
      sm := { n.sm with snap := if n.sm.snap.lastLogId ≤ m.lastLogId then m else n.sm.snap }
      rx := n.rx ++ [.built m] }

end Node

/-- messages that come from outside: clients, peers, timers -/
def external : Input → Bool
  | .localIO _ | .built _ | .installed _ _ | .applied _ => false
  | _ => true

/-- what can happen in a node -/
inductive Ev where
  /-- a message from outside is handled -/
  | msg (now : Nat) (i : Input)
  /-- a client's write -/
  | write (now tx : Nat) (p : Payload)
  /-- a client's membership change -/
  | change (now tx : Nat) (c : ChangeMembers) (retain : Bool)
  /-- the next notification is handled -/
  | note (now : Nat)
  /-- the next command is executed -/
  | run
  /-- the oldest pending write becomes durable -/
  | flush
  /-- the state machine worker handles a command -/
  | sm
  /-- a snapshot is complete -/
  | build (k : Nat)

namespace Node

/-- register the caller of an accepted write, `write_entry`, `core/raft_core.rs:493-499` -/
def register (n : Node) (tx : Nat) : Option Nat → Node
  | some i => { n with clients := BMap.insert i tx n.clients }
  | none => { n with replies := n.replies ++ [(tx, none)] }

/-- one step of a node; an event that is not possible changes nothing. Messages and notifications are
only taken when `run_engine_commands` has returned (`core/raft_core.rs:906-981`, 1004-1046). -/
def step (dbg : Bool) (n : Node) : Ev → Out Node
  | .msg now i =>
    if n.idle && external i then do
      let e ← lift (n.eng.input dbg now i)
      return { n with eng := e }
    else return n
  | .write _ tx p =>
    if n.idle then do
      let (i, e) ← lift (n.eng.writeEntry dbg p)
      return register { n with eng := e } tx i
    else return n
  | .change _ tx c r =>
    if n.idle then do
      let (i, e) ← lift (n.eng.changeMembership dbg c r)
      return register { n with eng := e } tx i
    else return n
  | .note now =>
    if n.idle then
      match n.rx with
      | [] => return n
      | x :: xs => handle dbg now { n with rx := xs } x
    else return n
  | .run => n.run1 dbg
  | .flush => return n.flush1
  | .sm => n.smStep
  | .build k => return n.buildDone k

/-- steps in a row -/
def steps (dbg : Bool) (n : Node) : List Ev → Out Node
  | [] => return n
  | ev :: evs => do
    let n1 ← n.step dbg ev
    n1.steps dbg evs

end Node
end Openraft.Runtime
