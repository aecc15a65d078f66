import Verif.Runtime.Answers
import Verif.Engine.FlowStart

/-!
# Start of a node from what is durable

`get_initial_state` (`storage/helper.rs:63-169`) with `reapply_committed` (172-220), `load_log_ids`
(`engine/log_id_list.rs:46-118`) and `Engine::startup` (`engine/engine_impl.rs:141-171`).

Simplifications:
* a storage call fails only where the code itself reports an error for what it read;
* the `purge` at the start is durable when it returns;
* a snapshot without a last log id counts as no snapshot.
-/

set_option autoImplicit false

namespace Openraft.Runtime
open Openraft.Engine
open Openraft.Repl (Panic)

/-- what is left of the state machine after a crash, see `Sm` -/
def Sm.reboot (s : Sm) : Sm :=
  if s.persist then s else ⟨s.snap.lastLogId, s.snap.mem, [], s.snap, false⟩

/-- `RaftStateMachine::apply(entries)`, `storage/v2/raft_state_machine.rs:42-69` -/
def Sm.apply (s : Sm) (es : List Ent) : Sm :=
  { s with
    applied := match es.getLast? with
      | some e => some e.id
      | none => s.applied
    mem := Node.memAfter s.mem es
    hist := s.hist ++ es }

/-- the loop of `reapply_committed`, `storage/helper.rs:172-220`; `fuel` bounds the number of rounds,
`stop - start` is enough because each round moves `start` by at least one -/
def reapply (st : LogStore) (stop : Nat) : Nat → Nat → Sm → Out Sm
  | 0, _, s => .ok s
  | fuel + 1, start, s =>
    if start < stop then
      let chunkEnd := min stop (start + 64)
      let es := st.read start chunkEnd
      if es.head?.map (·.id.index) = some start then
        if es.getLast?.map (·.id.index) = some (chunkEnd - 1) then reapply st stop fuel chunkEnd (s.apply es)
        else .error .storage
      else .error .storage
    else .ok s

/-- `get_log_id`, `storage/log_reader_ext.rs:23-34`: an error if there is no entry -/
def getLogIdAt (st : LogStore) (i : Nat) : Out LogId :=
  match (st.read i (i + 1)).head? with
  | some e => .ok e.id
  | none => .error .storage

/-- the loop of `load_log_ids`, `engine/log_id_list.rs:68-111`, as `LogIdList.loadLoop`, with reads that
can fail -/
def loadLoop (st : LogStore) : Nat → List (LogId × LogId) → LogIdList → Out LogIdList
  | 0, _, _ => .error .storage
  | _ + 1, [], res => .ok res
  | fuel + 1, (first, last) :: stack, res =>
    if first.leaderId = last.leaderId then loadLoop st fuel stack (LogIdList.pushIfNewLeader res first)
    else if first.index + 1 = last.index then
      loadLoop st fuel stack (LogIdList.pushIfNewLeader res first ++ [last])
    else
      match getLogIdAt st ((first.index + last.index) / 2) with
      | .error x => .error x
      | .ok mid =>
        if first.leaderId = mid.leaderId then
          loadLoop st fuel ((mid, last) :: stack) (LogIdList.pushIfNewLeader res first)
        else if mid.leaderId = last.leaderId then
          loadLoop st fuel ((first, mid) :: stack) res
        else
          loadLoop st fuel ((first, mid) :: (mid, last) :: stack) res

/-- `load_log_ids`, `engine/log_id_list.rs:46-118`; the number of rounds is bounded by
`2 * last.index + 2` (C15) -/
def loadLogIds (st : LogStore) (lastPurged last : Option LogId) : Out LogIdList :=
  match last with
  | none => .ok []
  | some last => do
    let first ← match lastPurged with
      | none => getLogIdAt st 0
      | some x => .ok x
    let res ← loadLoop st (2 * last.index + 2) [(first, last)] []
    return if res.getLast? ≠ some last then res ++ [last] else res

/-- the entries between the applied and the committed position are applied, `storage/helper.rs:92-100` -/
def reapplied (st : LogStore) (committed : Option LogId) (s : Sm) : Out Sm :=
  if s.applied < committed then
    reapply st (nextIndex committed) (nextIndex committed - nextIndex s.applied) (nextIndex s.applied) s
  else .ok s

/-- a log that ends before the applied position is cleaned, `storage/helper.rs:104-116` -/
def cleaned (st : LogStore) (lastApplied : Option LogId) : Out LogStore :=
  if st.lastLogId < lastApplied then
    match lastApplied with
    | some x => .ok (st.purge x)
    | none => .error (.panic .unreachable)
  else .ok st

/-- `get_initial_state`, `storage/helper.rs:63-169`: the state of the engine, the log store and the state
machine after it -/
def initialState (now : Nat) (d : Disk) (s : Sm) : Out (RState × LogStore × Sm) := do
  let committed := if d.committed < s.applied then s.applied else d.committed
  let s1 ← reapplied d.store committed s
  let lastApplied := if s.applied < committed then committed else s.applied
  let ms := getMembership d.store s1.applied s1.mem
  let dirty : Bool := decide (d.store.lastLogId < lastApplied)
  let store ← cleaned d.store lastApplied
  let last := if dirty then lastApplied else d.store.lastLogId
  let purged := if dirty then lastApplied else d.store.purged
  let logIds ← loadLogIds store purged last
  let s2 : Sm := if s1.snap.lastLogId = none ∧ purged ≠ none then { s1 with snap := ⟨s1.applied, s1.mem, 0⟩ } else s1
  let st : RState := {
    vote := Leased.new now 0 d.vote
    committed := lastApplied
    purgedNext := nextIndex purged
    logIds := logIds
    ms := ms
    snap := s2.snap
    server := .learner
    io := IOState.new d.vote lastApplied s2.snap.lastLogId purged
    purgeUpto := purged }
  return (st, store, s2)

/-- `Raft::new`, `raft/mod.rs:240-330`, after a crash: load the state, start the engine, start the loops -/
def restart (dbg : Bool) (now : Nat) (cfg : Cfg) (d : Disk) (s : Sm) : Out Node := do
  let (st, store, s1) ← initialState now d s.reboot
  let e ← lift (Eng.startup dbg now ⟨cfg, st, false, none, none, []⟩)
  return Node.boot e { d with store := store } s1

end Openraft.Runtime
