import Verif.Engine.Store
import Verif.Pure.LogIdList
import Verif.Pure.Progress
import Verif.Repl.Entry

/-!
# The state of one node's engine

Model of the data in `engine/`, `raft_state/`, `proposer/`, `utime.rs`. Times are natural numbers.
-/

set_option autoImplicit false

namespace Openraft.Engine
open Openraft.Repl (Panic dassert Inflight)

/-- the result of code that can abort the node -/
abbrev Res (α : Type) := Except Panic α

/-- `Option::unwrap`/`expect`: aborts in every build -/
def unwrap {α : Type} : Option α → Res α
  | some a => .ok a
  | none => .error .unreachable

/-! ## IO ids -/

/-- `IOId`, `raft_state/io_state/io_id.rs:29-39`: the vote of the IO (a `Vote` IO has an uncommitted
vote and no log id, a `Log` IO has a committed vote). -/
structure IOId where
  vote : Vote
  last : Option LogId
deriving DecidableEq, Repr, Inhabited

namespace IOId

/-- `PartialOrd for IOId`, `io_id.rs:54-65`: the vote first, then the log id -/
instance : LE IOId := ⟨fun a b => a.vote < b.vote ∨ (a.vote = b.vote ∧ a.last ≤ b.last)⟩
/-- strict part -/
instance : LT IOId := ⟨fun a b => a.vote < b.vote ∨ (a.vote = b.vote ∧ a.last < b.last)⟩

theorem le_def {a b : IOId} : a ≤ b ↔ a.vote < b.vote ∨ (a.vote = b.vote ∧ a.last ≤ b.last) := Iff.rfl
theorem lt_def {a b : IOId} : a < b ↔ a.vote < b.vote ∨ (a.vote = b.vote ∧ a.last < b.last) := Iff.rfl

instance (a b : IOId) : Decidable (a ≤ b) :=
  inferInstanceAs (Decidable (a.vote < b.vote ∨ (a.vote = b.vote ∧ a.last ≤ b.last)))
instance (a b : IOId) : Decidable (a < b) :=
  inferInstanceAs (Decidable (a.vote < b.vote ∨ (a.vote = b.vote ∧ a.last < b.last)))

theorem ext_iff' {a b : IOId} : a = b ↔ a.vote = b.vote ∧ a.last = b.last := by
  cases a; cases b; simp

instance : LinearOrder IOId where
  le_refl a := Or.inr ⟨rfl, le_refl _⟩
  le_trans a b c := by
    simp only [le_def]
    rintro (h | ⟨h, h'⟩) (k | ⟨k, k'⟩)
    · exact Or.inl (lt_trans h k)
    · exact Or.inl (k ▸ h)
    · exact Or.inl (h ▸ k)
    · exact Or.inr ⟨h.trans k, le_trans h' k'⟩
  lt_iff_le_not_ge a b := by
    simp only [le_def, lt_def]
    rcases lt_trichotomy a.vote b.vote with h | h | h
    · simp [h, lt_asymm h, ne_of_gt h]
    · rw [h]; simp only [lt_self_iff_false, true_and, false_or, not_le]
      exact ⟨fun x => ⟨le_of_lt x, x⟩, fun x => x.2⟩
    · simp [h, lt_asymm h, ne_of_gt h]
  le_antisymm a b := by
    simp only [le_def, ext_iff']
    rintro (h | ⟨h, h'⟩) (k | ⟨k, k'⟩)
    · exact absurd h (lt_asymm k)
    · exact absurd h (by rw [k]; exact lt_irrefl _)
    · exact absurd k (by rw [h]; exact lt_irrefl _)
    · exact ⟨h, le_antisymm h' k'⟩
  le_total a b := by
    simp only [le_def]
    rcases lt_trichotomy a.vote b.vote with h | h | h
    · exact Or.inl (Or.inl h)
    · rw [h]; simp only [lt_self_iff_false, true_and, false_or]; exact le_total _ _
    · exact Or.inr (Or.inl h)
  toDecidableLE := inferInstance
  toDecidableLT := inferInstance
  toDecidableEq := inferInstance

/-- `IOId::new`, `io_id.rs:71-77` (a committed vote gives a `Log` IO without a log id) -/
def new (v : Vote) : IOId := ⟨v, none⟩

/-- `IOId::new_log_io`, `io_id.rs:83-85` -/
def newLog (v : Vote) (last : Option LogId) : IOId := ⟨v.toCommitted, last⟩

end IOId

/-- `IOProgress`, `raft_state/io_state/io_progress.rs:27-34` -/
structure IOProgress where
  accepted : Option IOId
  submitted : Option IOId
  flushed : Option IOId
deriving DecidableEq, Repr

namespace IOProgress

/-- `accept`, `io_progress.rs:81-90` -/
def accept (dbg : Bool) (p : IOProgress) (x : IOId) : Res IOProgress := do
  dassert dbg (decide (p.accepted ≤ some x))
  return { p with accepted := some x }

/-- `submit`, `io_progress.rs:93-102` -/
def submit (dbg : Bool) (p : IOProgress) (x : IOId) : Res IOProgress := do
  dassert dbg (decide (p.submitted ≤ some x))
  return { p with submitted := some x }

/-- `flush`, `io_progress.rs:105-113` -/
def flush (dbg : Bool) (p : IOProgress) (x : IOId) : Res IOProgress := do
  dassert dbg (decide (p.flushed ≤ some x))
  return { p with flushed := some x }

end IOProgress

/-- `IOState`, `raft_state/io_state.rs:59-83` -/
structure IOState where
  building : Bool
  prog : IOProgress
  applied : Option LogId
  snapshot : Option LogId
  purged : Option LogId
deriving DecidableEq, Repr

namespace IOState

/-- `IOState::new`, `io_state.rs:105-124` -/
def new (vote : Vote) (applied snapshot purged : Option LogId) : IOState :=
  ⟨false, ⟨some (IOId.new vote), some (IOId.new vote), some (IOId.new vote)⟩, applied, snapshot, purged⟩

/-- `update_applied`, `io_state.rs:126-138` -/
def updateApplied (dbg : Bool) (s : IOState) (l : Option LogId) : Res IOState := do
  dassert dbg (decide (s.applied < l))
  return { s with applied := l }

/-- `update_snapshot`, `io_state.rs:144-155` -/
def updateSnapshot (dbg : Bool) (s : IOState) (l : Option LogId) : Res IOState := do
  dassert dbg (decide (s.snapshot ≤ l))
  return { s with snapshot := l }

end IOState

/-! ## Leases -/

/-- `Leased<Vote, Instant>`, `utime.rs:11-18` -/
structure Leased where
  data : Vote
  lastUpdate : Option Nat
  lease : Nat
  enabled : Bool
deriving DecidableEq, Repr

namespace Leased

/-- `Leased::new`, `utime.rs:58-65` -/
def new (now lease : Nat) (v : Vote) : Leased := ⟨v, some now, lease, true⟩

/-- `update`, `utime.rs:132-137` -/
def update (_l : Leased) (now lease : Nat) (v : Vote) : Leased := ⟨v, some now, lease, true⟩

/-- `disable_lease`, `utime.rs:141-144` -/
def disable (l : Leased) : Leased := { l with lease := 0, enabled := false }

/-- `is_expired`, `utime.rs:148-153` -/
def isExpired (l : Leased) (now timeout : Nat) : Bool :=
  match l.lastUpdate with
  | some u => decide (u + l.lease + timeout < now)
  | none => true

/-- `touch`, `utime.rs:156-168` -/
def touch (dbg : Bool) (l : Leased) (now lease : Nat) : Res Leased := do
  dassert dbg (decide (l.lastUpdate ≤ some now))
  return { l with lastUpdate := some now, lease := if l.enabled then lease else l.lease }

end Leased

/-! ## The raft state -/

/-- `ServerState`, `core/server_state.rs:5-24` (without `Shutdown`) -/
inductive ServerState where
  | learner | follower | candidate | leader
deriving DecidableEq, Repr

/-- `SnapshotMeta`, `storage/snapshot_meta.rs:12-32`; the snapshot id is a number -/
structure SnapMeta where
  lastLogId : Option LogId
  mem : StoredMem
  id : Nat
deriving DecidableEq, Repr

/-- `SnapshotMeta::default()` -/
def SnapMeta.empty : SnapMeta := ⟨none, .empty, 0⟩

/-- `RaftState`, `raft_state/mod.rs:46-86` -/
structure RState where
  vote : Leased
  committed : Option LogId
  purgedNext : Nat
  logIds : LogIdList
  ms : MemState
  snap : SnapMeta
  server : ServerState
  io : IOState
  purgeUpto : Option LogId
deriving DecidableEq, Repr

namespace RState

/-- `get_log_id`, `raft_state/mod.rs:109-111` -/
def getLogId (s : RState) (i : Nat) : Option LogId := LogIdList.get s.logIds i

/-- `last_log_id`, `raft_state/mod.rs:113-115` -/
def lastLogId (s : RState) : Option LogId := s.logIds.getLast?

/-- `last_purged_log_id`, `raft_state/mod.rs:141-146` -/
def lastPurged (s : RState) : Option LogId := if s.purgedNext = 0 then none else s.logIds.head?

/-- `has_log_id`, `raft_state/log_state_reader.rs:23-35` -/
def hasLogId (dbg : Bool) (s : RState) (l : LogId) : Res Bool :=
  if l.index < nextIndex s.committed then do
    dassert dbg (decide (some l ≤ s.committed))
    return true
  else return s.getLogId l.index == some l

/-- `first_conflicting_index`, `raft_state/mod.rs:299-318` -/
def firstConflicting (dbg : Bool) (s : RState) : List Ent → Res Nat
  | [] => return 0
  | e :: es => do
    if ← s.hasLogId dbg e.id then
      let i ← firstConflicting dbg s es
      return i + 1
    else return 0

/-- `is_initialized`, `raft_state/mod.rs:199-212` -/
def isInitialized (s : RState) : Bool :=
  s.lastLogId.isSome || decide (s.vote.data ≠ ⟨⟨0, 0⟩, false⟩)

/-- `accept_io`, `raft_state/mod.rs:224-250` -/
def acceptIo (dbg : Bool) (s : RState) (x : IOId) : Res RState := do
  dassert dbg (decide (s.io.prog.accepted.map (·.vote) ≤ some x.vote))
  if s.io.prog.accepted < some x then
    let p ← s.io.prog.accept dbg x
    return { s with io := { s.io with prog := p } }
  else return s

/-- `MembershipState::commit`, `membership_state/mod.rs:83-88` -/
def MemState.commit (dbg : Bool) (m : MemState) (c : Option LogId) : Res MemState :=
  if m.effective.logId ≤ c then do
    dassert dbg (decide (m.effective.logId.map (·.index) ≤ c.map (·.index)))
    return { m with committed := m.effective }
  else return m

/-- `MembershipState::update_committed`, `membership_state/mod.rs:95-129`. The `debug_assert_eq!` of
lines 110-118 compares the memberships of equal log ids. -/
def MemState.updateCommitted (dbg : Bool) (m : MemState) (c : StoredMem) : Res MemState := do
  let eff := if m.effective.logId.map (·.index) ≤ c.logId.map (·.index) then c else m.effective
  if c.logId = m.committed.logId then dassert dbg (c.mem == m.committed.mem)
  let com := if m.committed.logId < c.logId then c else m.committed
  return ⟨com, eff⟩

/-- `MembershipState::append`, `membership_state/mod.rs:137-151` -/
def MemState.append (dbg : Bool) (m : MemState) (x : StoredMem) : Res MemState := do
  dassert dbg (decide (m.effective.logId < x.logId))
  dassert dbg (decide (m.effective.logId.map (·.index) < x.logId.map (·.index)))
  return ⟨m.effective, x⟩

/-- `MembershipState::truncate`, `membership_state/mod.rs:171-188` -/
def MemState.truncate (dbg : Bool) (m : MemState) (since : Nat) : Res MemState := do
  dassert dbg (decide (nextIndex m.committed.logId ≤ since))
  if some since ≤ m.effective.logId.map (·.index) then return { m with effective := m.committed }
  else return m

/-- `update_committed`, `raft_state/mod.rs:266-277`; the flag tells whether it changed -/
def updateCommitted (dbg : Bool) (s : RState) (c : Option LogId) : Res (Bool × RState) :=
  if s.committed < c then do
    let m ← MemState.commit dbg s.ms c
    return (true, { s with committed := c, ms := m })
  else return (false, s)

/-- `purge_log`, `raft_state/mod.rs:321-324` -/
def purgeLog (s : RState) (upto : LogId) : RState :=
  { s with purgedNext := upto.index + 1, logIds := LogIdList.purge s.logIds upto }

/-- `is_voter`, `raft_state/mod.rs:358-360` -/
def isVoter (s : RState) (id : NodeId) : Bool := s.ms.effective.mem.isVoter id

/-- `is_leading`, `raft_state/mod.rs:369-371` -/
def isLeading (s : RState) (id : NodeId) : Bool :=
  s.ms.effective.mem.contains id && s.vote.data.leaderId.node == id

/-- `is_leader`, `raft_state/mod.rs:381-383` -/
def isLeader (s : RState) (id : NodeId) : Bool := s.isLeading id && s.vote.data.committed

/-- `calc_server_state`, `raft_state/mod.rs:332-356` -/
def calcServerState (s : RState) (id : NodeId) : ServerState :=
  if s.isLeader id then .leader
  else if s.isLeading id then .candidate
  else if s.isVoter id then .follower
  else .learner

/-- what `ProgressEntry::next_send` reads of the state -/
def view (s : RState) : Repl.LogView :=
  { ids := (List.range (nextIndex s.lastLogId)).map fun i => (s.getLogId i).getD default
    purged := s.lastPurged
    purgeUpto := s.purgeUpto
    snapshot := s.snap.lastLogId }

end RState

/-! ## Proposers -/

/-- `Leader::progress`: a `VecProgress` of `ProgressEntry`. Simplification: the entries are kept
apart (`ent`, by node) from the vector of their `matching` values (`vp`). -/
structure LProgress where
  vp : VecProgress (Option LogId)
  ent : NodeId → Repl.Entry

/-- `Leader`, `proposer/leader.rs:32-71` -/
structure Leader where
  transferTo : Option NodeId
  vote : Vote
  nextHeartbeat : Nat
  lastLogId : Option LogId
  noopLogId : Option LogId
  progress : LProgress
  clock : VecProgress (Option Nat)

/-- `Leader::new`, `proposer/leader.rs:81-134` -/
def Leader.new (dbg : Bool) (now : Nat) (vote : Vote) (m : Membership) (ids : List LogId) :
    Res Leader := do
  dassert dbg (decide (ids.getLast?.map (·.leaderId) ≤ some vote.leaderId))
  dassert dbg (decide (ids.head?.map (·.leaderId) ≤ some vote.leaderId))
  let noop := if ids.head?.map (·.leaderId) = some vote.leaderId then ids.head?
    else some ⟨vote.leaderId, nextIndex ids.getLast?⟩
  let last := ids.getLast?
  return {
    transferTo := none
    vote := vote.toCommitted
    nextHeartbeat := now
    lastLogId := last
    noopLogId := noop
    progress := ⟨VecProgress.new m.configs m.learnerIds none, fun _ => Repl.Entry.empty (nextIndex last)⟩
    clock := VecProgress.new m.configs m.learnerIds none }

/-- `Candidate`, `proposer/candidate.rs:16-37` -/
structure Candidate where
  startingTime : Nat
  vote : Vote
  lastLogId : Option LogId
  progress : VecProgress Bool
  /-- `quorum_set` and `learner_ids` of the membership at the time of the election -/
  mem : Membership

/-- `Candidate::new`, `proposer/candidate.rs:61-76` -/
def Candidate.new (now : Nat) (vote : Vote) (last : Option LogId) (m : Membership) : Candidate :=
  ⟨now, vote, last, VecProgress.new m.configs [] false, m⟩

/-- `Candidate::into_leader`, `proposer/candidate.rs:105-116` -/
def Candidate.intoLeader (dbg : Bool) (now : Nat) (c : Candidate) : Res Leader := do
  dassert dbg (!c.vote.committed)
  Leader.new dbg now c.vote.toCommitted c.mem c.lastLogId.toList

/-! ## Commands -/

/-- `Condition`, `engine/command.rs:285-307` -/
inductive Cond where
  | ioFlushed (io : IOId)
  | logFlushed (l : Option LogId)
  | applied (l : Option LogId)
  | snapshot (l : Option LogId)
deriving DecidableEq, Repr

/-- `AppendEntriesResponse`, `raft/message/append_entries.rs:47-76`: what the engine answers
(`error.rs:676-688`) -/
inductive AppendResp where
  | success
  | conflict
  | higherVote (v : Vote)
deriving DecidableEq, Repr

/-- the answers carried by `Respond`, `engine/command.rs:328-340`; `reqVote`, `upto` of the append
answer are ghost data that name the request: its vote and the last log id it asks to be stored -/
inductive Resp where
  | vote (v : Vote) (last : Option LogId) (granted : Bool)
  | append (r : AppendResp) (reqVote : Vote) (upto : Option LogId)
  | snapshot (v : Vote)
  | init (ok : Bool)
deriving DecidableEq, Repr

/-- `sm::Command`, `core/sm/command.rs:15-62`. Not modelled: `GetSnapshot`,
`BeginReceivingSnapshot`, `Func`, which do not answer to `RaftCore`. -/
inductive SmCmd where
  | build
  | install (m : SnapMeta) (io : IOId)
  | apply (first last : LogId)
deriving DecidableEq, Repr

/-- `Command`, `engine/command.rs:30-125` -/
inductive Cmd where
  | updateIO (when : Option Cond) (io : IOId)
  | append (vote : Vote) (es : List Ent)
  | replCommitted (c : Option LogId)
  | heartbeat (vote : Vote) (mem : Option LogId) (c : Option LogId)
  | saveCommitted (c : LogId)
  | apply (already : Option LogId) (upto : LogId)
  | replicate (target : NodeId) (req : Inflight)
  | transfer (vote : Vote) (target : NodeId) (last : Option LogId)
  | rebuild (targets : List (NodeId × Repl.Entry))
  | saveVote (v : Vote)
  | sendVote (v : Vote) (last : Option LogId)
  | purge (upto : LogId)
  | truncate (since : LogId)
  | sm (c : SmCmd)
  | respond (when : Option Cond) (tx : Nat) (r : Resp)
deriving DecidableEq, Repr

/-- `Command::condition`, `engine/command.rs:257-279` -/
def Cmd.condition : Cmd → Option Cond
  | .updateIO w _ => w
  | .respond w _ _ => w
  | .purge upto => some (.snapshot (some upto))
  | _ => none

/-! ## The engine -/

/-- `SnapshotPolicy`, `config/config.rs:25-36`: `none` is `Never` -/
abbrev SnapshotPolicy := Option Nat

/-- `EngineConfig`, `engine/engine_config.rs:12-31` -/
structure Cfg where
  id : NodeId
  snapshotPolicy : SnapshotPolicy
  maxKeep : Nat
  purgeBatch : Nat
  maxPayload : Nat
  electionTimeout : Nat
  smallerLogTimeout : Nat
  leaderLease : Nat
deriving DecidableEq, Repr

/-- `Engine`, `engine/engine_impl.rs:67-95` -/
structure Eng where
  cfg : Cfg
  st : RState
  seenGreater : Bool
  leader : Option Leader
  candidate : Option Candidate
  out : List Cmd

/-- `EngineOutput::push_command`, `engine/engine_output.rs:29-32` -/
def Eng.push (e : Eng) (c : Cmd) : Eng := { e with out := e.out ++ [c] }

/-- `should_snapshot`, `config/config.rs:40-48` -/
def shouldSnapshot (p : SnapshotPolicy) (s : RState) : Bool :=
  match p with
  | some n => decide (nextIndex s.snap.lastLogId + n ≤ nextIndex s.committed)
  | none => false

end Openraft.Engine
