/-!
# The loop of a replication task, with its times

`replication/mod.rs`: `ReplicationCore::main`, the drains of its channel, and the backoff after a target was unreachable (`network/backoff.rs`).
What the requests are and what they do is in `Runtime/Tasks.lean`; here it is when they are sent, what is kept for the next one, and what ends the loop.

Simplifications: times are numbers; log ids are numbers; the result of sending logs is given by the event `done` (any result). From the moment at which
`try_drain_events` finds nothing until the request is built nothing is awaited, so that this is one step, at the time of its begin. The
`debug_assert`s are not modelled. `futures::select!` takes any of its futures that is ready.
-/

set_option autoImplicit false

namespace Openraft.Rt

/-- what comes back from `full_snapshot`, with the vote compared: `SnapshotCallback::result`, `replication/callbacks.rs:26`, with `StreamingError`,
`error/streaming_error.rs:25-49`. `remote`: a `Fatal` of the target, which `decompose` (`error/decompose.rs:78-93`) or the conversion to `ReplicationError` make
"unreachable". -/
inductive BkSnap where
  | ok (last : Nat)
  | higherVote
  | closed
  | storage
  | timeout
  | unreachable
  | network
  | remote
deriving DecidableEq, Repr

/-- `replication/request.rs`, `Data`. A range of logs is a pair. -/
inductive BkAct where
  | committed
  | logs (r : Nat × Nat)
  | snapshot
  | callback (r : BkSnap)
deriving DecidableEq, Repr

/-- `Replicate`, `replication/request.rs` -/
inductive BkMsg where
  | committed (c : Nat)
  | data (d : BkAct)
deriving DecidableEq, Repr

/-- the result of an action, `replication/mod.rs:247-313`: `Ok(next)` with the matching log id; `Closed`, `HigherVote`, `StorageError` end the task; of the
`RPCError`s `Timeout`, `Network`, `RemoteError` are treated alike -/
inductive BkRes where
  | ok (matching : Nat) (next : Option (Nat × Nat))
  | quit
  | unreachable
  | other
  | tooLarge
deriving DecidableEq, Repr

/-- where the loop is -/
inductive BkPlace where
  /-- executes an action, line 229 -/
  | acts (d : BkAct)
  /-- in `backoff_drain_events`, line 604, until this time -/
  | sleeps (until_ : Nat)
  /-- waits for one event, line 643 -/
  | waits
  /-- in `try_drain_events`, line 656 -/
  | tries
  /-- has returned -/
  | gone
  /-- has panicked at line 296 -/
  | panicked
deriving DecidableEq, Repr

/-- what happened: something was sent to the task, it began an action (with what `matching` and `committed` were), an action had a result, the
core closed the channel. The log has no counterpart in the code. -/
inductive BkRec where
  | pushed (t : Nat) (e : BkMsg)
  | sent (t : Nat) (d : BkAct) (matching committed : Nat)
  | res (t : Nat) (r : BkRes)
  | shut (t : Nat)
deriving DecidableEq, Repr

/-- `ReplicationCore`, `replication/mod.rs:82-148`, with its channel and the clock. `backoff`: how many durations were taken from the iterator; `log`: newest
first. -/
structure Bk where
  now : Nat
  backoff : Option Nat
  action : Option BkAct
  matching : Nat
  committed : Nat
  queue : List BkMsg
  closed : Bool
  at_ : BkPlace
  log : List BkRec
deriving DecidableEq, Repr

/-- `ReplicationCore::spawn`, `replication/mod.rs:160-209`, up to where `main` first waits: there is no action and no backoff, line 216 -/
def Bk.spawn (matching committed : Nat) : Bk := ⟨0, none, none, matching, committed, [], false, .waits, []⟩

/-- what `process_event` does to `next_action`, `replication/mod.rs:677-726` -/
def Bk.fill (a : Option BkAct) : BkMsg → Option BkAct
  | .committed _ => match a with | none => some .committed | some d => some d
  | .data d => some d

/-- what `process_event` does to `committed`, line 690 -/
def Bk.note (c : Nat) : BkMsg → Nat
  | .committed c' => c'
  | .data _ => c

/-- `process_event`, `replication/mod.rs:677-726` -/
def Bk.process (s : Bk) (e : BkMsg) : Bk := { s with action := Bk.fill s.action e, committed := Bk.note s.committed e }

/-- `drain_events`, `replication/mod.rs:637-646` -/
def Bk.drain (s : Bk) : Bk := { s with at_ := if s.action.isNone then .waits else .tries }

/-- `drain_events_with_backoff`, `replication/mod.rs:322-334`; `dur` is the iterator that `RaftNetworkV2::backoff` gives -/
def Bk.pause (dur : Nat → Option Nat) (s : Bk) : Bk :=
  match s.backoff with
  | some k => { s with backoff := some (k + 1), at_ := .sleeps (s.now + (dur k).getD 500) }
  | none => s.drain

/-- `log_data`, `replication/mod.rs:222, 229-239` -/
def Bk.logData (s : Bk) : BkAct → Option (Nat × Nat)
  | .committed => some (s.matching, s.matching)
  | .logs r => some r
  | .snapshot => none
  | .callback _ => none

/-- `handle_snapshot_callback`, `replication/mod.rs:810-843`, with `From<StreamingError> for ReplicationError`, `error/streaming_error.rs:51-65, 82-96` -/
def BkSnap.toRes : BkSnap → BkRes
  | .ok m => .ok m none
  | .higherVote => .quit
  | .closed => .quit
  | .storage => .quit
  | .timeout => .other
  | .unreachable => .unreachable
  | .network => .other
  | .remote => .unreachable

/-- the result of an action, `replication/mod.rs:229-243`: of `send_log_entries` any, `r`; of `stream_snapshot`, lines 729-773, that a task was spawned, or
that there is no snapshot or no state machine any more (`r` is `quit`); of a callback what it carries -/
def Bk.resOf (s : Bk) (d : BkAct) (r : BkRes) : BkRes :=
  match d with
  | .committed => r
  | .logs _ => r
  | .snapshot => match r with | .quit => .quit | _ => .ok s.matching none
  | .callback x => x.toRes

/-- `main` after an action, `replication/mod.rs:247-317` -/
def Bk.after (dur : Nat → Option Nat) (s : Bk) (d : BkAct) : BkRes → Bk
  | .ok m next =>
    Bk.pause dur { s with backoff := none, matching := m, action := match next with | some n => some (.logs n) | none => s.action }
  | .quit => { s with at_ := .gone }
  | .unreachable => Bk.pause dur { s with backoff := match s.backoff with | none => some 0 | some k => some k }
  | .other => Bk.pause dur s
  | .tooLarge =>
    match s.logData d with
    | some r => Bk.pause dur { s with action := some (.logs r) }
    | none => { s with at_ := .panicked }

/-- what happens -/
inductive BkEv where
  /-- time passes -/
  | time (d : Nat)
  /-- the core, or the task that streams a snapshot, sends something -/
  | push (e : BkMsg)
  /-- the core drops its sender -/
  | close
  /-- the action of the loop has a result -/
  | done (r : BkRes)
  /-- the sleep of the backoff is done, line 621 -/
  | wake
  /-- `recv` yields: an event, or that the channel is closed -/
  | recv
  /-- `try_drain_events` finds nothing, and `main` takes the action -/
  | go
deriving DecidableEq, Repr

/-- `recv` at lines 616, 644, 663 -/
def Bk.recv (s : Bk) (next : BkPlace) : Bk :=
  match s.queue with
  | e :: q => { (s.process e) with queue := q, at_ := next }
  | [] => if s.closed then { s with at_ := .gone } else s

/-- one step -/
def Bk.step (dur : Nat → Option Nat) (s : Bk) : BkEv → Bk
  | .time d => { s with now := s.now + d }
  | .push e => if s.closed then s else { s with queue := s.queue ++ [e], log := .pushed s.now e :: s.log }
  | .close => if s.closed then s else { s with closed := true, log := .shut s.now :: s.log }
  | .done r =>
    match s.at_ with
    | .acts d => Bk.after dur { s with log := .res s.now (s.resOf d r) :: s.log } d (s.resOf d r)
    | _ => s
  | .wake =>
    match s.at_ with
    | .sleeps u => if u ≤ s.now then s.drain else s
    | _ => s
  | .recv =>
    match s.at_ with
    | .sleeps u => s.recv (.sleeps u)
    | .waits => s.recv .tries
    | .tries => s.recv .tries
    | _ => s
  | .go =>
    match s.at_, s.queue, s.closed, s.action with
    | .tries, [], false, some d => { s with action := none, at_ := .acts d, log := .sent s.now d s.matching s.committed :: s.log }
    | _, _, _, _ => s

/-- steps in a row -/
def Bk.run (dur : Nat → Option Nat) (s : Bk) (evs : List BkEv) : Bk := evs.foldl (Bk.step dur) s

end Openraft.Rt
