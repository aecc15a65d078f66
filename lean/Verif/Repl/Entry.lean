import Verif.Base.Ids

/-!
# `ProgressEntry` and `Inflight`: what the leader knows about one replication target

Model of `progress/entry/mod.rs` and `progress/inflight/mod.rs`. A `debug_assert!` is active only
when `dbg = true`; a failed one, and `unreachable!`, are explicit error values.
-/

set_option autoImplicit false

namespace Openraft.Repl

/-- the ways in which these functions can abort the node -/
inductive Panic where
  /-- `unreachable!`/`unwrap` on `None`: aborts in every build -/
  | unreachable
  /-- a failed `debug_assert!`: aborts in debug builds -/
  | debugAssert
deriving DecidableEq, Repr

/-- `debug_assert!(b)` -/
def dassert (dbg : Bool) (b : Bool) : Except Panic Unit :=
  if dbg && !b then .error .debugAssert else .ok ()

/-- `Inflight`, `progress/inflight/mod.rs:20-40`; the `LogIdRange` (`log_id_range.rs:18-28`) is
`(prev, last]` -/
inductive Inflight where
  | none
  | logs (prev last : Option LogId)
  | snapshot (last : Option LogId)
deriving DecidableEq, Repr

namespace Inflight

/-- `Inflight::logs`, `inflight/mod.rs:71-80` -/
def mkLogs (prev last : Option LogId) : Inflight :=
  if prev < last then .logs prev last else .none

/-- `Inflight::ack`, `inflight/mod.rs:106-123` -/
def ack (dbg : Bool) (i : Inflight) (upto : Option LogId) : Except Panic Inflight :=
  match i with
  | .none => .error .unreachable
  | .logs prev last => do
    dassert dbg (decide (prev ≤ upto))
    dassert dbg (decide (upto ≤ last))
    return mkLogs upto last
  | .snapshot last => do
    dassert dbg (upto == last)
    return .none

/-- `Inflight::conflict`, `inflight/mod.rs:126-140` -/
def conflict (dbg : Bool) (i : Inflight) (c : Nat) : Except Panic Inflight :=
  match i with
  | .none => .error .unreachable
  | .logs prev _ => do
    dassert dbg (prev.map (·.index) == some c)
    return .none
  | .snapshot _ => .error .unreachable

end Inflight

/-- the part of the leader's log state that `next_send` reads, through `LogStateReader`
(`raft_state/log_state_reader.rs:5-80`). `ids` are the ids of all log entries ever in the leader's
log, the purged ones included: `ids[i]` is the id at index `i`. -/
structure LogView where
  ids : List LogId
  /-- `last_purged_log_id()` -/
  purged : Option LogId
  /-- `purge_upto()` -/
  purgeUpto : Option LogId
  /-- `snapshot_last_log_id()` -/
  snapshot : Option LogId
deriving DecidableEq, Repr

namespace LogView

/-- `last_log_id().next_index()` -/
def lastNext (s : LogView) : Nat := s.ids.length

/-- `get_log_id`, contract at `log_state_reader.rs:39-44` (property C14): nothing below the purged
position -/
def getLogId (s : LogView) (i : Nat) : Option LogId :=
  match s.purged with
  | some p => if i < p.index then none else s.ids[i]?
  | none => s.ids[i]?

/-- `prev_log_id`, `log_state_reader.rs:12-18` -/
def prevLogId (s : LogView) (i : Nat) : Option LogId :=
  if i = 0 then none else s.getLogId (i - 1)

end LogView

/-- `ProgressEntry`, `progress/entry/mod.rs:17-33` -/
structure Entry where
  matching : Option LogId
  inflight : Inflight
  searchingEnd : Nat
deriving DecidableEq, Repr

namespace Entry

/-- `ProgressEntry::empty`, `entry/mod.rs:49-57` -/
def empty (e : Nat) : Entry := ⟨none, .none, e⟩

/-- `is_log_range_inflight`, `entry/mod.rs:69-78` -/
def isLogRangeInflight (p : Entry) (upto : LogId) : Bool :=
  match p.inflight with
  | .none => false
  | .logs prev _ => decide (prev < some upto)
  | .snapshot _ => false

/-- `update_matching`, `entry/mod.rs:80-94` -/
def updateMatching (dbg : Bool) (p : Entry) (m : Option LogId) : Except Panic Entry := do
  let i ← p.inflight.ack dbg m
  dassert dbg (decide (p.matching ≤ m))
  return { matching := m, inflight := i, searchingEnd := max p.searchingEnd (nextIndex m) }

/-- `update_conflicting`, `entry/mod.rs:108-141`, without the feature
`loosen-follower-log-revert` -/
def updateConflicting (dbg : Bool) (p : Entry) (c : Nat) : Except Panic Entry := do
  let i ← p.inflight.conflict dbg c
  dassert dbg (decide (c < p.searchingEnd))
  dassert dbg (decide (nextIndex p.matching ≤ c))
  return { p with inflight := i, searchingEnd := c }

/-- the `Err` arm of `ReplicationHandler::update_progress`,
`engine/handler/replication_handler/mod.rs:239-245` -/
def resetInflight (p : Entry) : Entry := { p with inflight := .none }

/-- `calc_mid`, `entry/mod.rs:215-220`. The subtraction wraps in a release build when
`end < matching_next`; such a state is not reachable (`C18_no_abort`) and the debug build aborts
there. -/
def calcMid (dbg : Bool) (mNext e : Nat) : Except Panic Nat := do
  dassert dbg (decide (mNext ≤ e))
  return mNext + (e - mNext) / 16 * 8

/-- `next_send`, `entry/mod.rs:151-203`. The flag is `Ok`/`Err` of the code. -/
def nextSend (dbg : Bool) (p : Entry) (s : LogView) (maxEntries : Nat) :
    Except Panic (Bool × Entry) := do
  if p.inflight ≠ .none then return (false, p)
  let lastNext := s.lastNext
  dassert dbg (decide (p.searchingEnd ≤ lastNext))
  let purgeNext := nextIndex s.purgeUpto
  if p.searchingEnd < purgeNext then
    return (true, { p with inflight := .snapshot s.snapshot })
  let mid ← calcMid dbg (nextIndex p.matching) p.searchingEnd
  let start := if mid < purgeNext then purgeNext else mid
  let e := min (start + maxEntries) lastNext
  if start = e then return (false, { p with inflight := .none })
  return (true, { p with inflight := Inflight.mkLogs (s.prevLogId start) (s.prevLogId e) })

/-- `Validate for ProgressEntry`, `entry/mod.rs:247-266` (with `Inflight::validate`,
`inflight/mod.rs:42-52`, and `LogIdRange::validate`, `log_id_range.rs:37-44`) -/
def validate (p : Entry) : Bool :=
  decide (nextIndex p.matching ≤ p.searchingEnd) &&
  match p.inflight with
  | .none => true
  | .logs prev last =>
    decide (prev ≤ last) && decide (p.matching ≤ prev) && decide (nextIndex prev ≤ p.searchingEnd)
  | .snapshot last => decide (p.matching < last)

end Entry

/-- the request part of `send_to_target`, `replication_handler/mod.rs:298-305`: sending nothing is
`unreachable!` -/
def sendToTarget (i : Inflight) : Except Panic Inflight :=
  match i with
  | .none => .error .unreachable
  | .logs p l => .ok (.logs p l)
  | .snapshot l => .ok (.snapshot l)

end Openraft.Repl
