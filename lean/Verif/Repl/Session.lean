import Verif.Repl.Entry

/-!
# One replication session: leader entry, replication task, follower

The leader keeps a `ProgressEntry` for the target, the replication task (`replication/mod.rs`)
executes one action at a time and reports to the leader through a FIFO queue, and the follower
answers. Everything else (other targets, other leaders, the network) appears as freely chosen
events. The follower may change its log at any time, also by losing data in a crash or by requests
whose answer was lost, as long as it keeps what it acknowledged.
-/

set_option autoImplicit false

namespace Openraft.Repl

/-- a replication result on its way to `RaftCore` (`Notification::ReplicationProgress`,
`replication/response.rs`; sent at `replication/mod.rs:517-560`) -/
inductive Report where
  | ok (matching : Option LogId)
  | conflict (id : LogId)
  | err
deriving DecidableEq, Repr

/-- state of a session -/
structure Sess where
  view : LogView
  entry : Entry
  /-- the action of the replication task, `next_action` or the one being executed,
  `replication/mod.rs:209-228`; `none` when the task waits for events -/
  task : Inflight
  queue : List Report
  /-- ids of the follower's log, those covered by its snapshot included -/
  follower : List LogId
deriving DecidableEq, Repr

/-- the log `ids` has the id `o` (nothing is always there) -/
def Has (ids : List LogId) : Option LogId → Prop
  | none => True
  | some l => ids[l.index]? = some l

instance (ids : List LogId) (o : Option LogId) : Decidable (Has ids o) := by
  cases o <;> unfold Has <;> infer_instance

/-- a well-formed log: the id at position `i` has index `i`, and leader ids do not decrease -/
def WfIds (ids : List LogId) : Prop :=
  (∀ (i : Nat) (l : LogId), ids[i]? = some l → l.index = i) ∧
  ∀ (i j : Nat) (a b : LogId), i < j → ids[i]? = some a → ids[j]? = some b → a.leaderId ≤ b.leaderId

/-- property C02 for two logs: where they agree, they agree below -/
def LogMatching (a b : List LogId) : Prop :=
  ∀ (i : Nat) (l : LogId), a[i]? = some l → b[i]? = some l → ∀ j : Nat, j ≤ i → a[j]? = b[j]?

/-- the leader's handling of one report: `ReplicationHandler::update_progress`,
`replication_handler/mod.rs:220-246` (without the purge, which is an event of its own) -/
def handle (dbg : Bool) (e : Entry) : Report → Except Panic Entry
  | .ok m => e.updateMatching dbg m
  | .conflict c => e.updateConflicting dbg c.index
  | .err => .ok e.resetInflight

/-- `next_action_to_send`, `replication/mod.rs:873-879` -/
def nextAction (matching last : Option LogId) : Inflight :=
  if matching < last then .logs matching last else .none

/-- `try_purge_log`, `replication_handler/mod.rs:312-346`, as far as this target is concerned:
`purge_log` moves the purged position to `purge_upto` unless the range is in flight. -/
def tryPurge (s : Sess) : Sess :=
  if s.view.purgeUpto ≤ s.view.purged then s
  else match s.view.purgeUpto with
    | none => s      -- excluded by the line above
    | some u =>
      if s.entry.isLogRangeInflight u then s
      else { s with view := { s.view with purged := some u } }

/-- reading the entries of `(prev, _]` from the log store, `replication/mod.rs:392-398`:
`logs.first().unwrap()` aborts if the first entry is purged -/
def readable (s : Sess) (prev : Option LogId) : Bool := decide (s.view.purged ≤ prev)

/-- The events of a session. With `exact` the snapshot that is sent is the one the leader had in
mind when it decided to send a snapshot; the code sends the newest one (`stream_snapshot`,
`replication/mod.rs:720-768`, ignores its argument). -/
inductive Step (dbg exact : Bool) : Sess → Except Panic Sess → Prop
  /-- the leader appends entries -/
  | append (s : Sess) (new : List LogId) : WfIds (s.view.ids ++ new) →
      LogMatching (s.view.ids ++ new) s.follower →
      Step dbg exact s (.ok { s with view := { s.view with ids := s.view.ids ++ new } })
  /-- a new snapshot becomes known to the engine -/
  | snapshot (s : Sess) (x : LogId) : Has s.view.ids (some x) → s.view.snapshot ≤ some x →
      Step dbg exact s (.ok { s with view := { s.view with snapshot := some x } })
  /-- purging is scheduled up to a position covered by the snapshot -/
  | schedule (s : Sess) (x : LogId) : Has s.view.ids (some x) → s.view.purged ≤ some x →
      some x ≤ s.view.snapshot →
      Step dbg exact s (.ok { s with view := { s.view with purgeUpto := some x } })
  | purge (s : Sess) : Step dbg exact s (.ok (tryPurge s))
  /-- `initiate_replication`, `replication_handler/mod.rs:273-295`, nothing to send -/
  | sendNothing (s : Sess) (max : Nat) (e : Entry) :
      s.entry.nextSend dbg s.view max = .ok (false, e) → Step dbg exact s (.ok { s with entry := e })
  /-- `initiate_replication`: the action is handed to the task -/
  | send (s : Sess) (max : Nat) (e : Entry) (a : Inflight) : 0 < max →
      s.entry.nextSend dbg s.view max = .ok (true, e) → sendToTarget e.inflight = .ok a →
      Step dbg exact s (.ok { s with entry := e, task := a })
  | sendAborts (s : Sess) (max : Nat) (p : Panic) :
      s.entry.nextSend dbg s.view max = .error p → Step dbg exact s (.error p)
  | sendNoneAborts (s : Sess) (max : Nat) (e : Entry) (p : Panic) : 0 < max →
      s.entry.nextSend dbg s.view max = .ok (true, e) → sendToTarget e.inflight = .error p →
      Step dbg exact s (.error p)
  /-- `send_log_entries`, `replication/mod.rs:362-487`: the task sends `(prev, e]`, the follower has
  everything up to `m` afterwards (`m = e` for `Success`, less for `PartialSuccess`) -/
  | rpcOk (s : Sess) (prev last m e : Option LogId) : s.task = .logs prev last →
      readable s prev = true → Has s.view.ids e → prev < e → e ≤ last → Has s.view.ids m →
      prev ≤ m → m ≤ e → Has s.follower m →
      Step dbg exact s (.ok { s with queue := s.queue ++ [.ok m], task := nextAction m last })
  | rpcReadAborts (s : Sess) (prev last : Option LogId) : s.task = .logs prev last →
      readable s prev = false → Step dbg exact s (.error .unreachable)
  /-- `Conflict`, `replication/mod.rs:498-512`: the follower does not have `prev` -/
  | rpcConflict (s : Sess) (prev : LogId) (last : Option LogId) : s.task = .logs (some prev) last →
      ¬ Has s.follower (some prev) →
      Step dbg exact s (.ok { s with queue := s.queue ++ [.conflict prev], task := .none })
  /-- the RPC, or the transmission of the snapshot, failed: `send_progress_error`,
  `replication/mod.rs:517-525` -/
  | rpcErr (s : Sess) : s.task ≠ .none →
      Step dbg exact s (.ok { s with queue := s.queue ++ [.err], task := .none })
  /-- `handle_snapshot_callback`, `replication/mod.rs:837-870`: the snapshot `x` was installed -/
  | snapOk (s : Sess) (last : Option LogId) (x : LogId) : s.task = .snapshot last →
      Has s.view.ids (some x) → last ≤ some x → (exact = true → last = some x) →
      Has s.follower (some x) →
      Step dbg exact s (.ok { s with queue := s.queue ++ [.ok (some x)], task := .none })
  /-- the follower's log changes; it keeps what the leader was or will be told -/
  | followerChanges (s : Sess) (F : List LogId) : LogMatching s.view.ids F →
      Has F s.entry.matching → (∀ m, Report.ok m ∈ s.queue → Has F m) →
      Step dbg exact s (.ok { s with follower := F })
  /-- `RaftCore` handles the oldest report -/
  | deliver (s : Sess) (r : Report) (q : List Report) (e : Entry) : s.queue = r :: q →
      handle dbg s.entry r = .ok e → Step dbg exact s (.ok { s with queue := q, entry := e })
  | deliverAborts (s : Sess) (r : Report) (q : List Report) (p : Panic) : s.queue = r :: q →
      handle dbg s.entry r = .error p → Step dbg exact s (.error p)
  /-- `rebuild_replication_streams`, `replication_handler/mod.rs:254-267`: a new session; reports of
  the old one are dropped (`does_replication_session_match`, `core/raft_core.rs:1585-1604`) -/
  | rebuild (s : Sess) :
      Step dbg exact s (.ok { s with entry := s.entry.resetInflight, task := .none, queue := [] })

/-- the start of a session: a new leader (`Leader::new`, `proposer/leader.rs:81-134`) or a new
target (`rebuild_progresses`, `replication_handler/mod.rs:88-109`) -/
structure Initial (s : Sess) : Prop where
  wf : WfIds s.view.ids
  lm : LogMatching s.view.ids s.follower
  purged : Has s.view.ids s.view.purged
  upto : Has s.view.ids s.view.purgeUpto
  snap : Has s.view.ids s.view.snapshot
  purged_le : s.view.purged ≤ s.view.purgeUpto
  upto_le : s.view.purgeUpto ≤ s.view.snapshot
  entry : ∃ e, e ≤ s.view.ids.length ∧ s.entry = Entry.empty e
  task : s.task = .none
  queue : s.queue = []

/-- executions of a session in which nothing aborts -/
inductive Run (dbg exact : Bool) (s0 : Sess) : Sess → Prop
  | init : Run dbg exact s0 s0
  | step (s s' : Sess) : Run dbg exact s0 s → Step dbg exact s (.ok s') → Run dbg exact s0 s'

end Openraft.Repl
