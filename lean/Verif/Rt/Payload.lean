import Verif.Repl.Session

/-!
# The payload of one log replication request

Model of the range computation of `send_log_entries` (`replication/mod.rs:369-414`), of the retry
after `PayloadTooLarge` (`replication/mod.rs:286-292`, `337-358`) and of `replication/hint.rs`.
A log entry is represented by its log id (position `i` of the list is index `i`).
-/

set_option autoImplicit false

namespace Openraft.Rt
open Openraft.Repl (Inflight nextAction WfIds Has)

/-- `ReplicationHint`, `replication/hint.rs:4-10` -/
structure Hint where
  n : Nat
  ttl : Nat
deriving DecidableEq, Repr

namespace Hint

/-- `ReplicationHint::default()`, derived -/
def default : Hint := ⟨0, 0⟩

/-- `ReplicationHint::get`, `replication/hint.rs:18-25` -/
def get (h : Hint) : Option Nat × Hint :=
  if h.ttl > 0 then (some h.n, { h with ttl := h.ttl - 1 }) else (none, h)

end Hint

/-- the part of `ReplicationCore` (`replication/mod.rs:87-153`) that decides about payloads -/
structure Sender where
  /-- `next_action`, when it is `Data::Logs(prev, last]` -/
  prev : Option LogId
  last : Option LogId
  hint : Hint
deriving DecidableEq, Repr

/-- a request: `prev_log_id` and the entries -/
structure Request where
  prev : Option LogId
  entries : List LogId
deriving DecidableEq, Repr

/-- the index range read by one call, `replication/mod.rs:374-386` -/
def sendRange (s : Sender) : Nat × Nat × Hint :=
  let start := nextIndex s.prev
  let e := nextIndex s.last
  match s.hint.get with
  | (some n, h) => (start, min e (start + n), h)
  | (none, h) => (start, e, h)

/-- `limited_get_log_entries`, contract at `storage/v2/raft_log_reader.rs:52-64`: it returns a
non-empty prefix of the entries in `[start, end)` if there are any; `lim` is how many more than one
the storage returns at most. -/
def limitedGet (log : List LogId) (start e lim : Nat) : List LogId :=
  ((log.drop start).take (e - start)).take (lim + 1)

/-- `send_log_entries` up to the RPC, `replication/mod.rs:362-424`. `none`: `logs.first().unwrap()`
on an empty result. -/
def buildRequest (log : List LogId) (lim : Nat) (s : Sender) : Option (Request × Sender) :=
  let r := sendRange s
  if r.1 = r.2.1 then some (⟨s.prev, []⟩, { s with hint := r.2.2 })
  else
    match limitedGet log r.1 r.2.1 lim with
    | [] => none
    | x :: xs => some (⟨s.prev, x :: xs⟩, { s with hint := r.2.2 })

/-- `sending_range.last`: the last id of the request, or `prev` if it is empty,
`replication/mod.rs:389-413` -/
def Request.lastId (r : Request) : Option LogId :=
  match r.entries.getLast? with
  | none => r.prev
  | some l => some l

/-- `Success`, `replication/mod.rs:456-466`: go on from the last id that was sent. `none`: the
action is finished. -/
def onSuccess (s : Sender) (r : Request) : Option Sender :=
  match nextAction r.lastId s.last with
  | .logs p l => some { s with prev := p, last := l }
  | _ => none

/-- `PayloadTooLarge` with hint `n`, `replication/mod.rs:286-292`, `337-349`: remember the hint for
10 requests and retry the same action -/
def onTooLarge (s : Sender) (n : Nat) : Sender := { s with hint := ⟨n, 10⟩ }

/-- the index range of a sender: its ids are ids of the log and there is something to send -/
structure SenderOk (log : List LogId) (s : Sender) : Prop where
  prev : Has log s.prev
  last : Has log s.last
  lt : s.prev < s.last

/-- One RPC against a network that refuses requests with more than `cap` entries and says so. -/
def netStep (log : List LogId) (cap lim : Nat) (s : Sender) : Option (Option Sender) :=
  match buildRequest log lim s with
  | none => none
  | some (r, s') =>
    if r.entries.length ≤ cap then some (onSuccess s' r) else some (some (onTooLarge s' cap))

/-- `n` RPCs; `none` in the result: the action is finished; the outer `none`: an abort. `lims i` is
the storage limit at RPC `i`. -/
def netRun (log : List LogId) (cap : Nat) (lims : Nat → Nat) : Nat → Sender → Option (Option Sender)
  | 0, s => some (some s)
  | n + 1, s =>
    match netStep log cap (lims n) s with
    | none => none
    | some none => some none
    | some (some s') => netRun log cap lims n s'

end Openraft.Rt
