import Verif.Engine.Pipe
import Verif.Runtime.Streams

/-!
# A leader together with its replication tasks

A replication task (`replication/mod.rs`) takes the requests of `RaftCore` from its channel, sends them to its
target and reports the answers; `RaftCore` replaces all tasks when it executes `RebuildReplicationStreams`.

Simplifications:
* a request and its answer are one step of the task (`ReplicationCore::main` awaits the answer and does nothing
  else meanwhile); the answer is any that the target may give, so the network may lose, delay and repeat requests;
* the entries that are sent are not part of a request here (`C54_request` is about them);
* clock reports, backoff, metrics and the committed position that goes with a request are left out.
-/

set_option autoImplicit false

namespace Openraft.Runtime
open Openraft.Engine
open Openraft.Repl (Panic dassert Inflight)
open Openraft.Engine.Eng (ReplResult)

/-- the outcome of sending a snapshot: `SnapshotCallback`, `replication/callbacks.rs:13-20`, with the last log id of the
snapshot that was sent; an error; an answer with a higher vote -/
inductive SnapRes where
  | installed (x : Option LogId)
  | failed
  | higher
deriving DecidableEq, Repr

/-- `Data`, `replication/request.rs:59-66` -/
inductive Data where
  | committed
  | logs (prev last : Option LogId)
  | snapshot (x : Option LogId)
  | callback (r : SnapRes)
deriving DecidableEq, Repr

/-- `Data::has_payload`, `replication/request.rs:126-133` -/
def Data.payload : Data → Bool
  | .committed => false
  | _ => true

/-- the request of a `Replicate` command, `Replicate::logs`, `Replicate::snapshot`, `replication/request.rs:21-27` -/
def Data.of : Inflight → List Data
  | .none => []
  | .logs p q => [.logs p q]
  | .snapshot x => [.snapshot x]

/-- `ReplicationCore`, `replication/mod.rs:82-148`: the session, the log id known to match, the events not yet taken,
`next_action`, `snapshot_state.is_some()`, the last log id of the snapshot that is being sent, the reports `RaftCore` has not
yet taken, and whether `main` has returned -/
structure Task where
  sess : Session
  matching : Option LogId
  inbox : List Data
  action : Option Data
  snapState : Bool
  sending : Option (Option LogId)
  reports : List ReplResult
  ended : Bool
deriving DecidableEq, Repr

/-- `ReplicationCore::spawn`, `replication/mod.rs:160-209` -/
def Task.new (s : Session) (m : Option LogId) : Task := ⟨s, m, [], none, false, none, [], false⟩

/-- an answer to an AppendEntries request: success up to a log id of the range (the last one of those that were sent, or less:
`PartialSuccess`), a conflict, a higher vote, an error, `PayloadTooLarge` -/
inductive Ans where
  | matched (m : Option LogId)
  | conflict
  | higher
  | error
  | tooLarge
deriving DecidableEq, Repr

namespace Task

/-- an event arrives; a task that has ended does not take it -/
def give (k : Task) (d : Data) : Task := if k.ended then k else { k with inbox := k.inbox ++ [d] }

/-- `process_event`, `replication/mod.rs:677-727` -/
def recv (dbg : Bool) (k : Task) : Out Task :=
  if k.ended then return k
  else match k.inbox with
  | [] => return k
  | .committed :: q =>
    match k.action with
    | none => return { k with inbox := q, action := some .committed }
    | some _ => return { k with inbox := q }
  | d :: q => do
    lift (dassert dbg (!(k.action.any Data.payload)))
    match d with
    | .callback _ => lift (dassert dbg k.snapState)
    | _ => lift (dassert dbg (!k.snapState))
    return { k with inbox := q, action := some d }

/-- one round of `main`, `replication/mod.rs:212-320`, with `send_log_entries` (lines 368-513), `stream_snapshot` (lines
729-773), `handle_snapshot_callback` (lines 810-843) and `next_action_to_send` (lines 846-852). `snap`: the snapshot of the
state machine. -/
def act (k : Task) (snap : Option LogId) (a : Ans) : Out Task :=
  if k.ended then return k
  else match k.action with
  | none => return k
  | some .committed =>
    match a with
    | .higher => return { k with action := none, ended := true }
    | .tooLarge => return { k with action := some (.logs k.matching k.matching) }
    | .conflict => do
      let _ ← lift (unwrap k.matching)
      return { k with action := none }
    | _ => return { k with action := none }
  | some (.logs p q) =>
    match a with
    | .matched m =>
      return { k with matching := m, action := if m < q then some (.logs m q) else none, reports := k.reports ++ [.matching m] }
    | .conflict => do
      let c ← lift (unwrap p)
      return { k with action := none, reports := k.reports ++ [.conflict c] }
    | .error => return { k with action := none, reports := k.reports ++ [.failed] }
    | .tooLarge => return { k with action := some (.logs p q) }
    | .higher => return { k with action := none, ended := true }
  | some (.snapshot _) =>
    match snap with
    | none => return { k with action := none, ended := true }
    | some _ => return { k with action := none, sending := some snap, snapState := true }
  | some (.callback r) =>
    match r with
    | .installed x => return { k with action := none, snapState := false, matching := x, reports := k.reports ++ [.matching x] }
    | .failed => return { k with action := none, snapState := false, reports := k.reports ++ [.failed] }
    | .higher => return { k with action := none, snapState := false, ended := true }

/-- the task that sends the snapshot ends, `send_snapshot`, `replication/mod.rs:775-808`: `ok` if it was installed -/
def sentSnap (k : Task) (r : SnapRes) : Task :=
  match k.sending with
  | none => k
  | some x => { k with sending := none }.give (.callback (match r with | .installed _ => .installed x | r => r))

end Task

/-- a node and its tasks; `past`: the sessions of the tasks that were replaced, whose reports may still arrive -/
structure Team where
  n : Node
  task : NodeId → Option Task
  past : NodeId → List Session

namespace Team

/-- the session of a task that is spawned now, `spawn_replication_stream`, `core/raft_core.rs:814-820` -/
def session (n : Node) : Option Session := n.eng.leader.map fun l => ⟨l.vote, n.eng.st.ms.effective.logId⟩

/-- the tasks when `RebuildReplicationStreams` is executed, `core/raft_core.rs:1770-1786` -/
def spawn (n : Node) (ts : List (NodeId × Repl.Entry)) (t : NodeId) : Option Task :=
  match ts.find? fun x => x.1 == t, session n with
  | some x, some s => some (.new s x.2.matching)
  | _, _ => none

/-- what the execution of a command does to the tasks, `run_command`, `core/raft_core.rs:1746-1786` -/
def exec (c : Team) (n' : Node) : Cmd → Team
  | .replicate t q => { c with n := n', task := fun i => if i = t then (c.task i).map fun k => (Data.of q).foldl Task.give k else c.task i }
  | .replCommitted _ => { c with n := n', task := fun i => (c.task i).map (·.give .committed) }
  | .rebuild ts => ⟨n', spawn c.n ts, fun i => c.past i ++ (c.task i).toList.map (·.sess)⟩
  | _ => { c with n := n' }

end Team

/-- what can happen to a node and its tasks -/
inductive TEv where
  /-- an event of the node -/
  | node (ev : Ev)
  /-- a task takes an event -/
  | recv (t : NodeId)
  /-- a task sends its next request -/
  | act (t : NodeId) (a : Ans)
  /-- a snapshot was sent -/
  | snap (t : NodeId) (r : SnapRes)
  /-- `RaftCore` takes the next report of a task -/
  | report (now : Nat) (t : NodeId)
  /-- `RaftCore` takes a report of a task that was replaced -/
  | late (now : Nat) (s : Session) (t : NodeId) (r : ReplResult)

namespace Team

/-- the command that is executed next -/
def next (n : Node) : Ev → Option Cmd
  | .run => n.head.filter n.ready
  | _ => none

/-- one task changes -/
def put (c : Team) (t : NodeId) (k : Task) : Team := { c with task := fun i => if i = t then some k else c.task i }

/-- one step; an event that is not possible changes nothing -/
def step (dbg : Bool) (c : Team) : TEv → Out Team
  | .node ev => do
    let n' ← c.n.step dbg ev
    match next c.n ev with
    | some cmd => return c.exec n' cmd
    | none => return { c with n := n' }
  | .recv t =>
    match c.task t with
    | none => return c
    | some k => do return c.put t (← k.recv dbg)
  | .act t a =>
    match c.task t with
    | none => return c
    | some k => do return c.put t (← k.act c.n.sm.snap.lastLogId a)
  | .snap t r =>
    match c.task t with
    | none => return c
    | some k => return c.put t (k.sentSnap r)
  | .report now t =>
    match c.task t with
    | none => return c
    | some k =>
      match k.reports with
      | [] => return c
      | r :: rs =>
        if c.n.idle then do
          let n' ← c.n.step dbg (.msg now (.replProgress k.sess t r))
          return { c.put t { k with reports := rs } with n := n' }
        else return c
  | .late now s t r =>
    if s ∈ c.past t then do
      let n' ← c.n.step dbg (.msg now (.replProgress s t r))
      return { c with n := n' }
    else return c

end Team
end Openraft.Runtime
