import Mathlib.Order.Nat

/-!
# The event loop of `RaftCore` and its budget balancer

Model of `core/balancer.rs` and of the queue handling in `core/raft_core.rs:906-1038`
(`runtime_loop`, `process_raft_msg`, `process_notification`).

Simplified: a message is an opaque value; what its handler does to the engine is not part of this
model. Messages that arrive while a queue is being drained (other tasks, or the handlers
themselves) are given by an arbitrary arrival schedule. A disconnected channel and the shutdown
signal end the loop and are not modelled. `u64` is `Nat`; `C37_no_overflow` justifies this.
-/

set_option autoImplicit false

namespace Openraft.Rt

/-- `struct Balancer`, `core/balancer.rs:6-11`. -/
structure Balancer where
  total : Nat
  raftMsg : Nat
deriving DecidableEq, Repr

namespace Balancer

/-- `Balancer::new`, `core/balancer.rs:14-21`. -/
def new (total : Nat) : Balancer := ⟨total, total / 10⟩

/-- `Balancer::notification`, `core/balancer.rs:27-29` (a `u64` subtraction; `Nat` subtraction
agrees because `raft_msg ≤ total`, part of `C37_budgets`). -/
def notification (b : Balancer) : Nat := b.total - b.raftMsg

/-- `Balancer::increase_notification`, `core/balancer.rs:31-36`. -/
def increaseNotification (b : Balancer) : Balancer :=
  let r := b.raftMsg * 15 / 16
  { b with raftMsg := if r = 0 then 1 else r }

/-- `Balancer::increase_raft_msg`, `core/balancer.rs:38-45`. -/
def increaseRaftMsg (b : Balancer) : Balancer :=
  let r := b.raftMsg * 17 / 16
  { b with raftMsg := if r > b.total / 2 then b.total / 2 else r }

end Balancer

variable {M : Type}

/-- Result of draining one queue. -/
structure Drained (M : Type) where
  /-- messages handed to the handler, in order -/
  handled : List M
  /-- what is left in the channel -/
  rest : List M
  /-- the number the function returns to `runtime_loop` -/
  ret : Nat
deriving DecidableEq, Repr

/-- The loop body of `process_raft_msg` / `process_notification`, `core/raft_core.rs:987-1016` and
`1022-1051`, from iteration `i` with `fuel` iterations left. `arr i` are the messages that arrive
before the `try_recv` of iteration `i`. On an empty queue it returns `i + 1`. -/
def drainFrom (arr : Nat → List M) (i : Nat) : Nat → List M → List M → Drained M
  | 0, q, acc => ⟨acc, q, i⟩
  | fuel + 1, q, acc =>
    match q ++ arr i with
    | [] => ⟨acc, [], i + 1⟩
    | m :: q' => drainFrom arr (i + 1) fuel q' (acc ++ [m])

/-- `process_raft_msg(at_most)` / `process_notification(at_most)`. -/
def drain (atMost : Nat) (arr : Nat → List M) (q : List M) : Drained M :=
  drainFrom arr 0 atMost q []

/-- The state of the loop: the balancer and the two channels. -/
structure Loop (M : Type) where
  bal : Balancer
  api : List M
  ntf : List M
deriving DecidableEq, Repr

/-- What one turn of the loop handled. -/
structure Turn (M : Type) where
  st : Loop M
  apiHandled : List M
  ntfHandled : List M
deriving DecidableEq, Repr

/-- The message that wakes the loop up, `select_biased!` at `core/raft_core.rs:928-956`:
notifications before API messages. `none`: the loop keeps waiting. -/
def wake (api ntf : List M) : Option (List M × List M × List M × List M) :=
  match ntf, api with
  | n :: ns, a => some ([], [n], a, ns)
  | [], a :: as => some ([a], [], as, [])
  | [], [] => none

/-- One turn of `runtime_loop`, `core/raft_core.rs:910-980`: wake up, drain both queues within their
budgets, re-balance. `arrA`, `arrN` are the arrivals while draining. -/
def turn (s : Loop M) (arrA arrN : Nat → List M) : Option (Turn M) :=
  match wake s.api s.ntf with
  | none => none
  | some (a0, n0, api, ntf) =>
    let da := drain s.bal.raftMsg arrA api
    let dn := drain s.bal.notification arrN ntf
    let bal :=
      if dn.ret = s.bal.notification then s.bal.increaseNotification
      else if da.ret = s.bal.raftMsg then s.bal.increaseRaftMsg
      else s.bal
    some ⟨⟨bal, da.rest, dn.rest⟩, a0 ++ da.handled, n0 ++ dn.handled⟩

/-- The states of the loop: start with any queues, then turns and further arrivals. -/
inductive LoopRun (total : Nat) : Loop M → Prop
  | start (api ntf : List M) : LoopRun total ⟨Balancer.new total, api, ntf⟩
  | arrive {s : Loop M} (h : LoopRun total s) (a n : List M) :
      LoopRun total { s with api := s.api ++ a, ntf := s.ntf ++ n }
  | turn {s : Loop M} {t : Turn M} (h : LoopRun total s) (arrA arrN : Nat → List M)
      (ht : Openraft.Rt.turn s arrA arrN = some t) : LoopRun total t.st

end Openraft.Rt
