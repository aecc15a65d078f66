import Verif.Cluster.Model

/-!
# Log entries and the log store as the engine's runtime sees them
-/

set_option autoImplicit false

namespace Openraft.Engine
open Openraft.Cluster (Payload)

/-- `Entry`, `entry/mod.rs:22-30` -/
structure Ent where
  id : LogId
  payload : Payload
deriving DecidableEq, Repr

/-- `RaftPayload::get_membership`, `entry/mod.rs:92-103` -/
def Ent.membership? (e : Ent) : Option Membership :=
  match e.payload with
  | .membership m => some m
  | _ => none

/-- `StoredMembership`, `membership/stored_membership.rs:16-30`; also `EffectiveMembership`
(`membership/effective_membership.rs:27-43`), whose other fields are derived from `membership` -/
structure StoredMem where
  logId : Option LogId
  mem : Membership
deriving DecidableEq, Repr

/-- the default membership: no log id, no config -/
def StoredMem.empty : StoredMem := ⟨none, ⟨[], []⟩⟩

/-- `StoredMembership::new(Some(*ent.get_log_id()), mem.clone())` for a membership entry -/
def Ent.stored? (e : Ent) : Option StoredMem := e.membership?.map fun m => ⟨some e.id, m⟩

/-- What a log store holds: `RaftLogStorage`, `storage/v2/raft_log_storage.rs`. -/
structure LogStore where
  purged : Option LogId
  entries : List Ent
deriving DecidableEq, Repr

namespace LogStore

/-- `LogState::last_log_id`, `storage/log_state.rs:8-17` : the last entry, or the last purged id -/
def lastLogId (s : LogStore) : Option LogId :=
  match s.entries.getLast? with
  | some e => some e.id
  | none => s.purged

/-- `try_get_log_entries(a..b)`, contract at `storage/v2/raft_log_reader.rs:22-43` -/
def read (s : LogStore) (a b : Nat) : List Ent :=
  s.entries.filter fun e => decide (a ≤ e.id.index) && decide (e.id.index < b)

/-- `purge(upto)`, contract at `storage/v2/raft_log_storage.rs`: remove the entries up to `upto`,
inclusive, and remember it -/
def purge (s : LogStore) (upto : LogId) : LogStore :=
  ⟨some upto, s.entries.filter fun e => decide (upto.index < e.id.index)⟩

/-- `truncate(since)`: remove the entries from `since` on, inclusive -/
def truncate (s : LogStore) (since : LogId) : LogStore :=
  { s with entries := s.entries.filter fun e => decide (e.id.index < since.index) }

/-- `append(entries)` -/
def append (s : LogStore) (es : List Ent) : LogStore := { s with entries := s.entries ++ es }

/-- The store is gapless: consecutive indexes that start right after the purged position. -/
def Consecutive (s : LogStore) : Prop :=
  ∀ (i : Nat) (e : Ent), s.entries[i]? = some e → e.id.index = nextIndex s.purged + i

end LogStore

/-! ## `last_membership_in_log` -/

/-- The `for` loop over one chunk, read backwards, `storage/helper.rs:291-299`. `.error res` is the
early return. -/
def scanChunk : List Ent → List StoredMem → Except (List StoredMem) (List StoredMem)
  | [], res => .ok res
  | e :: es, res =>
    match e.stored? with
    | none => scanChunk es res
    | some m => if (m :: res).length = 2 then .error (m :: res) else scanChunk es (m :: res)

/-- The `while` loop of `last_membership_in_log`, `storage/helper.rs:287-303`; `step = 64` in the
code. -/
def lastMemLoop (s : LogStore) (step start : Nat) (hs : 0 < step) (e : Nat) (res : List StoredMem) :
    List StoredMem :=
  if h : start < e then
    match scanChunk (s.read (max start (e - step)) e).reverse res with
    | .error r => r
    | .ok r => lastMemLoop s step start hs (e - step) r
  else res
termination_by e
decreasing_by omega

/-- `last_membership_in_log`, `storage/helper.rs:272-306` -/
def lastMembershipInLog (s : LogStore) (since : Nat) : List StoredMem :=
  lastMemLoop s 64 (max (nextIndex s.purged) since) (by omega) (nextIndex s.lastLogId) []

/-! ## `get_membership` -/

/-- `MembershipState`, `raft_state/membership_state/mod.rs:42-56` -/
structure MemState where
  committed : StoredMem
  effective : StoredMem
deriving DecidableEq, Repr

/-- `get_membership`, `storage/helper.rs:238-264`; `applied`/`smMem` is the state machine's
`applied_state()` -/
def getMembership (s : LogStore) (applied : Option LogId) (smMem : StoredMem) : MemState :=
  match lastMembershipInLog s (nextIndex applied) with
  | [a, b] => ⟨a, b⟩
  | [] => ⟨smMem, smMem⟩
  | a :: _ => ⟨smMem, a⟩

end Openraft.Engine
