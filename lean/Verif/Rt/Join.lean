import Mathlib.Data.Nat.Basic
import Mathlib.Tactic.Basic

/-!
# Callers of a node whose core task ends

`raft/raft_inner.rs`, `raft/core_state.rs`, `raft/mod.rs`: the calls of the API share one handle of the core task. A call that finds the
core gone waits until the task has ended and returns the reason. Who comes first awaits the task (`CoreState::Joining`), stores what it
returned (`CoreState::Done`) and signals the others through a watch channel.

Simplifications: the messages and the answers have no content; what `shutdown` does before and after `join_core_task` (the signal to the
core, the end of the tick task) is left out, the core may end at any time. The watch channel is made when the state becomes `Joining`; as
this happens at most once, it is part of the state from the beginning. A call may be dropped by its caller while it awaits something
(`cancel`), as every future may.
-/

set_option autoImplicit false

namespace Openraft.Rt

/-- `Fatal`, `error.rs:125-137` -/
inductive Fatal where
  | storage (e : Nat)
  | panicked
  | stopped
deriving DecidableEq, Repr

/-- how the core task ends: `RaftCore::main` returns an error (`core/raft_core.rs:223-251`, it never returns `Ok`), panics, or is aborted with
its runtime -/
inductive Exit where
  | returned (e : Fatal)
  | panicked
  | aborted
deriving DecidableEq, Repr

/-- `core_task_res`, `raft/raft_inner.rs:207-216` -/
def Exit.fatal : Exit → Fatal
  | .returned e => e
  | .panicked => .panicked
  | .aborted => .stopped

/-- `CoreState`, `raft/core_state.rs:8-20` -/
inductive CoreState where
  | running
  | joining
  | done (e : Fatal)
deriving DecidableEq, Repr

/-- the calls: `call_core` and `recv_msg` (`raft/raft_inner.rs:71-119`), `Raft::shutdown` (`raft/mod.rs:1012-1027`), `with_state_machine`
(`raft/mod.rs:900-931`) -/
inductive Kind where
  | call
  | shutdown
  | sm
deriving DecidableEq, Repr

/-- what a call returns; `panic` is the `unreachable!` of `get_core_stopped_error` (`raft/raft_inner.rs:158`) -/
inductive Out where
  | answer
  | fatal (e : Fatal)
  | wrongType
  | joined
  | panic
deriving DecidableEq, Repr

/-- where a call is -/
inductive Pc where
  /-- not made yet -/
  | out
  /-- `rx.await`, `raft_inner.rs:76`, `raft_inner.rs:108`, `mod.rs:917` -/
  | waits (k : Kind)
  /-- `is_core_running`, `mod.rs:921` -/
  | asks
  /-- takes the lock in `join_core_task`, `raft_inner.rs:179` -/
  | joins (k : Kind)
  /-- `join_handle.await`, `raft_inner.rs:203` -/
  | holds (k : Kind)
  /-- has the result of the task, `raft_inner.rs:218-221` -/
  | stores (k : Kind) (x : Exit)
  /-- `tx.send(true)`, `raft_inner.rs:222` -/
  | signals (k : Kind)
  /-- `rx.changed().await`, `raft_inner.rs:227` -/
  | sleeps (k : Kind)
  /-- after `join_core_task`: `raft_inner.rs:152-170` -/
  | reads (k : Kind)
  | ended (o : Out)
  /-- dropped by its caller -/
  | gone
deriving DecidableEq, Repr

/-- the shared state of the handles of a node: how the core task ended, `core_state`, whether the sender of the watch channel exists and
whether it sent `true`, and the calls -/
structure Handle where
  core : Option Exit
  st : CoreState
  tx : Bool
  told : Bool
  pc : Nat → Pc

/-- a new node, `raft/mod.rs:327` -/
def Handle.new : Handle := ⟨none, .running, true, false, fun _ => .out⟩

/-- a call is at another place -/
def Handle.at (h : Handle) (i : Nat) (p : Pc) : Handle := { h with pc := fun j => if j = i then p else h.pc j }

inductive JEv where
  /-- nothing happens here -/
  | idle
  /-- the core task ends -/
  | exit (x : Exit)
  /-- a call is made -/
  | call (i : Nat) (k : Kind)
  /-- the call gets its answer -/
  | answer (i : Nat)
  /-- the message of the call, or its sender of the answer, is dropped -/
  | drop (i : Nat)
  /-- the call goes on -/
  | go (i : Nat)
  /-- the call is dropped by its caller, at an `await` -/
  | cancel (i : Nat)
deriving DecidableEq, Repr

/-- `join_core_task`, the part under the lock, `raft_inner.rs:178-199` -/
def Handle.lock (h : Handle) (i : Nat) (k : Kind) : Handle :=
  match h.st with
  | .running => { h with st := .joining }.at i (.holds k)
  | .joining => h.at i (.sleeps k)
  | .done _ => h.at i (.reads k)

/-- what a call returns after `join_core_task`: `shutdown` (`mod.rs:1019-1026`), and `get_core_stopped_error` for the others
(`raft_inner.rs:152-170`) -/
def Handle.result (h : Handle) : Kind → Out
  | .shutdown => .joined
  | _ => match h.st with
    | .done e => .fatal e
    | _ => .panic

/-- a call goes on; `none` while it has to wait -/
def Handle.go (h : Handle) (i : Nat) : Option Handle :=
  match h.pc i with
  | .asks => some (match h.st with
    | .running => h.at i (.ended .wrongType)
    | _ => h.at i (.joins .sm))
  | .joins k => some (h.lock i k)
  | .holds k => match h.core with
    | some x => some (h.at i (.stores k x))
    | none => none
  | .stores k x => some ({ h with st := .done x.fatal }.at i (.signals k))
  | .signals k => some ({ h with told := true, tx := false }.at i (.reads k))
  | .sleeps k => if h.told || !h.tx then some (h.at i (.reads k)) else none
  | .reads k => some (h.at i (.ended (h.result k)))
  | _ => none

/-- one step; `none` if it is not possible. `call_core` fails at once if the core is gone (`raft_inner.rs:60-68`); `with_state_machine` ignores that its
message cannot be sent (`mod.rs:960`), it is dropped. -/
def Handle.step (h : Handle) : JEv → Option Handle
  | .idle => some h
  | .exit x => if h.core = none then some { h with core := some x } else none
  | .call i k => if h.pc i = .out then
      some (h.at i (match k with
        | .shutdown => .joins .shutdown
        | .call => if h.core = none then .waits .call else .joins .call
        | .sm => .waits .sm))
    else none
  | .answer i => match h.pc i with
    | .waits _ => some (h.at i (.ended .answer))
    | _ => none
  | .drop i => match h.pc i with
    | .waits .sm => some (h.at i .asks)
    | .waits k => some (h.at i (.joins k))
    | _ => none
  | .go i => h.go i
  | .cancel i => match h.pc i with
    | .waits _ => some (h.at i .gone)
    | .sleeps _ => some (h.at i .gone)
    | .holds _ => some ({ h with tx := false }.at i .gone)
    | _ => none

/-- the states that are reached -/
inductive Handle.Reach : Handle → Prop
  | new : Reach .new
  | step {h h' : Handle} (ev : JEv) : Reach h → h.step ev = some h' → Reach h'

/-- the states that are reached while no call that awaits the core task is dropped -/
inductive Handle.Calm : Handle → Prop
  | new : Calm .new
  | step {h h' : Handle} (ev : JEv) : Calm h → h.step ev = some h' → (∀ i k, ev = .cancel i → h.pc i ≠ .holds k) → Calm h'

/-- an infinite run: nothing that can go on forever is left out, and no answer is awaited forever from a core that ended -/
structure JRun (σ : Nat → Handle) (ev : Nat → JEv) : Prop where
  start : (σ 0).Reach
  step : ∀ t, (σ t).step (ev t) = some (σ (t + 1))
  fair : ∀ i t, (∀ t', t ≤ t' → ((σ t').go i).isSome = true) → ∃ t', t ≤ t' ∧ ev t' = .go i
  dropped : ∀ i k t, (σ t).core ≠ none → (σ t).pc i = .waits k → ∃ t', t ≤ t' ∧ (σ t').pc i ≠ .waits k

end Openraft.Rt
