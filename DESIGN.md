# Design of the openraft model

The subject is the pinned openraft source in `/repo` (crate `openraft`, directory `openraft/src`).
The model is written in Lean 4 (4.33.0) under `lean/Verif/`. Nothing of the Rust code is executed.

## Layers

1. **Pure parts** (`Verif/Base`, `Verif/Pure`): order of votes and log ids, quorums, coherent
   membership change, `Membership::change`, the compressed log-id list, the progress tracker
   (`VecProgress`), the per-follower progress entry and its search, leases, membership state,
   IO ids and IO progress, start-up scan, purge policy, chunked snapshot transport, balancer,
   config validation, replication size hint.
   Function-by-function translations: `&mut self` becomes a returned value, a panic becomes
   an explicit error value.
2. **Node** (`Verif/Engine`): the engine state (`RaftState`, leader, candidate), its handlers and
   the commands they emit; the runtime's command queue with its conditions and the disk.
3. **Cluster** (`Verif/Cluster`): nodes with memory, a queue of disk writes, a network that may
   lose, duplicate and reorder, replication tasks, crashes and restarts. A step function over
   explicit events; safety theorems are proved for every event sequence.

Specifications (what a property says) live apart from the model helpers; property theorems live
in files named `*Props.lean`.

## Plan per property

| id | modelled | proof |
|----|----------|-------|
| C01 | cluster: elect, vote request/response, establish, crash; cluster of real nodes | invariant over all steps |
| C02 | cluster: all logs, in memory and on disk, and log-carrying messages; cluster of real nodes | invariant: the prefix up to an entry of leader L is a prefix of L's log |
| C03 | cluster incl. membership changes; cluster of real nodes | strong induction over leader ids from the invariants |
| C04 | cluster: commit on leader and follower, apply history; cluster of real nodes | corollary of C02 and C03 |
| C05 | engine: commit_entries, try_commit, install_full_snapshot | invariant over all input sequences |
| C06 | engine vote handler; node with disk queue | invariant over all input/flush/crash sequences |
| C07 | node runtime: queue, conditions, IO progress | invariant: flushed IO id covers the durable state |
| C08 | `is_quorum` of vec/joint | counting argument on duplicate-free lists |
| C09 | `find_coherent`, `change` | intersection lemma of coherent joints |
| C10 | `change`, `ensure_valid`, `extend_nodes` | case analysis of the eight variants |
| C11 | `next_coherent` | algebra |
| C12 | `VecProgress` | **false**: counterexample; partial theorem under the condition that makes it true |
| C13 | `VecProgress` with booleans | exactness by invariant |
| C14 | `LogIdList` | refinement to the list of stored log ids |
| C15 | `load_log_ids` | refinement, well-founded recursion |
| C16 | orders, both modes | algebra |
| C17 | following handler | case analysis with the log-list refinement |
| C18 | `ProgressEntry`, `Inflight` | interval invariant and a strictly decreasing measure |
| C19 | engine + IO progress | invariant |
| C20 | log handler, replication handler purge | invariant / decision logic |
| C21 | `install_full_snapshot` | pre/post condition |
| C22 | chunk sender/receiver | **false** with late duplicates: counterexample; partial for in-order delivery |
| C23 | `Leased`, `handle_vote_req`, timed histories of a node (`Runtime/Timed`) | invariant over the history + quorum intersection; **false** for the leader itself, after a restart, after a manual election: counterexamples |
| C24 | heartbeat worker + clock progress | **false**: two counterexamples (a refusal is counted, `C24_refusal_counted_false`; five voters, `C24_five_false`, `C24_lease_of_two`); partial |
| C25 | cluster: read index | corollary, for the abstract cluster, for the cluster of real nodes (`C25_net_partial`) and for its calls of `handle_check_is_leader_request` (`C25_call_partial`); **false** if a leader forgets its committed position in a crash: counterexamples (`C25_false`, `C25_net_false`, `C25_call_false`) |
| C26 | responder table (`client_resp_channels`), records of requests, answers and applied entries | **false** for an entry lost to a snapshot (`C26_never_answered`) and with a manual election on a leader (`C26_elect_on_leader`); proved for all other runs: own entry, answered at most once, truncation answers |
| C27 | cluster: crash of a leader with unflushed entries | **false**: counterexample; partial |
| C28 | cluster: replication task reading the log after step-down | **false**: counterexample; partial |
| C29 | cluster: membership changes by successive leaders | **false**: counterexample; partial |
| C30 | `MembershipState` | refinement to "last membership entry of the log" |
| C31 | `last_membership_in_log` | refinement to the filter of the log |
| C32 | `get_initial_state`, `reapply_committed` | pre/post condition |
| C33 | `initialize` | decision logic |
| C34 | command queue + snapshot install | **false**: counterexample; holds while no snapshot is installed (invariant: a waiting `Apply` starts above the snapshot) |
| C35 | transfer to a learner | **false**: counterexample; partial: a target that is a voter is granted by every follower that knows of the transfer and is not ahead, and wins (with C52) |
| C36 | engine output queue | list algebra, induction |
| C37 | balancer | arithmetic invariant |
| C38 | config validation | decision logic |
| C39 | hint + next_send + send_log_entries range | arithmetic |
| C40 | tick election guard, candidate | decision logic |
| C41 | cluster: crash inside `install_full_snapshot` | **false**: counterexample; partial |
| C42 | node: execution of every command | **false**: counterexample; `Replicate` always; the others under stated premises (invariants: the tasks that run are those of the last executed rebuild; a waiting rebuild has its leader and records) |
| C43 | node: engine, command queue, log store | invariant: the store is what the executed commands make of it |
| C44 | engine: every input | case analysis of each handler; decision logic |
| C45 | node: every event in a release build | invariant: the progress of leader and candidate has an entry for every member of the effective membership; every handler is total under it |
| C46 | node: every place that holds a membership | invariant over engine, commands, disk, state machine and snapshots, for an arbitrary predicate on memberships |
| C47 | node: engine, command queue, state machine worker, builders, notifications | invariant: the builds in the four places and the mark of the engine agree; every handler emits as many builds as it sets marks |
| C48 | node: engine, command queue, log store, state machine worker, notifications | invariant: for every command that waits, what it waits for is recorded, reported, under way or ordered by an earlier command; infinite runs: a measure of the work under way |
| C49 | `Validate for RaftState`, `IOState`, `IOProgress`, `MembershipState`; node with command queue, log store, state machine worker, notifications | invariant over lives: the submitted IO is the greatest of the executed commands, the reports not yet handled lead from the recorded to the actual applied position, the recorded purged position is the one of the log store. Simplified: checked between the steps of a node, not between the handler calls of one step |
| C50 | `Raft::change_membership` with any number of open calls, over the memberships of a leader (`Pure/ChangeApi`) | **false** with two callers (F29); proved for one call at a time, and for every call whose two requests find the membership unchanged; what is left in general: the last config is the one asked for. The leader of this model is tied to the engine by `C50_engine_*` |
| C51 | node: engine, command queue, log store, state machine worker, notifications, callers; infinite runs in which each part keeps working (`Works`) | **false** for a snapshot over the index (`C51_false`, F23); otherwise: the queues are FIFO, so each command, each task of the worker and each report is got to; invariant: the index of a waiting caller is not yet applied or its report is on the way |
| C52 | engine: `elect`, `handle_vote_resp`, `grant_by`, `establish_leader`, `handle_vote_req` | induction over the inputs: the count of a candidate is that of the granted answers to its vote (a new vote was never answered before); with C13 it is a quorum exactly if they are one; what `establish_leader` leaves behind; in release builds the answers are taken without an abort |
| C53 | `RaftCore::report_metrics`, `current_leader`, `main`, the metrics channel, `Wait::metrics` (`Runtime/Metrics`, `Rt/Watch`) on top of the node | induction over the steps of a process: what was published stays true; the server state (a field that some handlers update) is what the engine does, by induction over inputs and start-ups (`Engine/Role`); the waiting call by an invariant over sends and polls. A timeout although the condition was met: `C53_wait_timeout_false` (F30) |
| C54 | `ProgressEntry::next_send`, `ReplicationHandler::{initiate_replication, send_to_target}`, all inputs of the engine that reach them, `Engine::startup`, on top of the node of `Runtime/Model` | walk over the inputs: every `Replicate` command of an input is one that `initiate_replication` made at the end of it, from the final state (`Engine/Sends`); with the log invariant (C05) and the progress invariant (C42) the range is in the log. That what is in flight stays in the log until it is answered: `C55_entries_there` |
| C55 | `ReplicationCore::{spawn, main, process_event, send_log_entries, stream_snapshot, send_snapshot, handle_snapshot_callback}`, `RaftCore::{spawn_replication_stream, remove_all_replication}`, one task per target beside the node of `Runtime/Model` (`Runtime/Tasks`) | invariant `TInv` (`TasksInv`, `TeamLife`) by induction over the steps of node, tasks and targets: what is in flight, after the reports that wait, is what the task holds (`Suits`); which commands an input emits, in order: `Engine/Pipe`, `Engine/Line`; `Avail`, `Know`: from the `Replicate` command to the answer the range stays in the log (a leader neither truncates nor installs, and purges nothing in flight), so what a task reads is there and what it reports is in the log. A task of a leader that was ousted reads other entries or panics: `C55_ousted_reads_other`, `C55_ousted_panics` (F3, F32). `PayloadTooLarge` for a request without entries aborts the node: `C55_too_large_aborts` (F31). Missing: answers are assumed to be as in `AnsOk` and `AnsFrom` (a target matches at most what it was sent); `apart` (no rebuild is issued while another one waits; needed in the model, where a vote response may overtake the notification of the own vote: `C55_needs_apart`; in the code both come through one channel, in order, but that this excludes it is not proved) |
| C56 | `RaftInner::{send_msg, recv_msg, call_core, get_core_stopped_error, join_core_task, is_core_running}`, `Raft::{shutdown, with_state_machine}` (`Rt/Join`) | any number of calls as threads that share `CoreState` and the watch channel; invariants (`Rt/JoinInv`), a rank for each call and weak fairness for the returns. **false**: `C56_dropped_panics`, `C56_shutdown_early` (F33), `C56_wrong_type` (F34); proved under stated premises |
| C57 | `VecProgress::{update_with, move_up}`, `ReplicationHandler::{update_matching, try_commit_quorum_accepted, update_local_progress, update_progress}` within all inputs of the engine | **false** with four or more voters and with joint configs: `C57_false` (F35), a run of a leader of five voters; `C57_stuck`, `C57_halted`: it stays so, by an invariant (`Engine/Stuck`: the granted position stands still) over all inputs of a leader, as long as only nodes above the granted position report. `C57_commits_partial`: true with one config of at most three voters, from the exactness of the granted position (C12) and what `try_commit_quorum_accepted` does with it |
| C58 | `Leader::last_quorum_acked_time`, `VecProgress::{increase_to, update_with}`, `update_leader_clock`, within all inputs of the engine and metrics reports | **false** with seven voters although the metrics are reported after every input: `C58_false` (F36); `C58_stuck`, `C58_halted`: the time stands still as long as only the nodes above it answer (`Engine/StuckClock`, an invariant over all inputs of a leader). `C58_reports_partial`: true with one config of at most three voters, from the exactness of the granted time; `C58_recorded`, `C58_self`: what is counted is recorded |
| C59 | `Raft::add_learner`, `check_replication_upto_date`, `replication_lag` (`Runtime/AddLearner`) on the metrics channel of a process (C53) | **false**: `C59_false`, `C59_removed`, `C59_shutdown` (F37). `C59_returns_partial`: what a return says, from the invariant of the waiting call and of the reports; `C59_told`: what is reported of a learner is what it answered, in all executions of the engine; `C59_waits`, `C59_wakes`: the call waits only for a learner that is behind, from the invariant of C45 that the progress has an entry for every member |
| C60 | `HeartbeatWorkersHandle::{new, broadcast, spawn_workers, shutdown}`, `HeartbeatWorker::run` (`Rt/Heartbeat`), all workers ever spawned, in any interleaving; `Notification::HeartbeatProgress` in the engine | **false**: `C60_false`, `C60_twice`, `C60_after_end` (F38). `C60_broadcast`, `C60_reported`: a worker sends and reports only what was broadcast, in order; `C60_session_partial`: at most one heartbeat of an older session, none more than twice, while the core is there; `C60_alive`, `C60_latest`: a worker that was not told to stop goes on, and sends the next broadcast; `C60_ignored`: a report of another session changes nothing. Invariant over the channel and every worker |
| C61 | `SerdeInstant::{serialize, deserialize}`, `Instant::{elapsed, saturating_duration_since}` (`Rt/Instant`): two clocks, ranges of the platform, the casts between `i64` and `u64`; panics are values | **false** if the system clock is set: `C61_false` (F39). `C61_exact`: the exact deviation; `C61_steady_partial`, `C61_elsewhere`: with steady clocks at most the time between the two looks, on another machine plus the difference of the clocks; `C61_errors`, `C61_number`, `C61_elapsed`; `C61_order`, `C61_panic`: what else is lost |
| C62 | `Tick::{spawn, tick_loop}`, `TickHandle::{enable, shutdown, drop}` (`Rt/Tick`), each access of the clock, the flag and the channel a step of its own | proved by an invariant over all interleavings: `C62_spaced`, `C62_off`, `C62_stopped`, `C62_joined`, `C62_closed`, `C62_ends`, `C62_next`, `C62_handle`; `C62_off_one`, `C62_stopped_one`: the one tick that may still come does come |
| C63 | `RaftCore::report_metrics` with its three channels and `send_if_modified`, the end of `RaftCore::main` (`Runtime/Boards`), each send a step, over all processes of a node | **false** after the end of the node: `C63_false`, `C63_ended` (F40). `C63_agree_partial`: the channels agree until then; `C63_order`, `C63_ahead`: what a reader finds between the sends, by an invariant on the positions in the list of reports; `C63_changes`; `C63_refines`: the process of C53 is what one sees of the metrics channel |
| C64 | the loop of `ReplicationCore` with its clock, its channel and the iterator of durations (`Rt/Backoff`), all interleavings, induction over the steps with an invariant that ties the state to what happened (`Rt/BackoffInv`) | **false** for snapshots: `C64_false`, `C64_snapshot_resets`, `C64_snapshot_first` (F41). `C64_waits`, `C64_grows_partial`, `C64_sleeps`, `C64_wakes`: when requests begin; `C64_commit`, `C64_next`, `C64_data`: what they are; `C64_closed`, `C64_quits`, `C64_ends`: the end; `C64_too_large_loops` (F42); `C64_no_panic` |
| C65 | the engine and the runtime of one node with its clock (`Hist`), all events in any order; every input keeps the time at which the vote was last touched or sets it to the present (`Engine/VTime`, by induction over the handlers), lifted to events and histories (`Runtime/VTimeLife`) | `C65_quiet`, `C65_spaced`, `C65_followed`, `C65_restart`: when no election is called, in terms of messages, commands emitted and the clock. `C65_calls`, `C65_fires`: when one is called; nothing but what is named in `Rewinds`, and answers and votes that are not behind, puts the timer off, in particular no refused candidate and no leader that is behind. `C65_single`, `C65_obsolete`: with a single voter the timer is not used and each tick makes the votes of the election before obsolete (F43). Not covered: the random choice of the timeout (C38), clocks that go back |
| C66 | the error types with their nesting, `decompose`, `into_ok`, the conversions, the adapter for networks of version 1, and the loop of `Chunked::send_snapshot` with its clock (`Rt/Adapt`); cases over all results, induction over the rounds of a transfer | **false** for snapshots in chunks: `C66_false`, `C66_chunked_again` (F44), and for one conversion: `C66_converts`. `C66_rpc`, `C66_stream`: what the replication task does with any result (in terms of C64); `C66_ways`: both ways of converting agree; `C66_api`; `C66_chunked`: all that a transfer in chunks can come to; `C66_chunked_all`: every byte was answered for since the last mismatch; `C66_chunked_ends`, `C66_chunked_completes`, `C66_cancelled`: when it ends; `C66_callback`: the callbacks in the model of C64 are these results. Not covered: the bytes (C22), data that changes while it is read, networks of version 2 written by the application (any result of them is `x` in `snapRes`) |

## Trusted base

Every theorem depends on no axioms but `propext`, `Classical.choice` and `Quot.sound`.

* Lean's kernel; the axioms allowed are `propext`, `Classical.choice`, `Quot.sound`
  (no own axioms, no `sorry`, no `native_decide`, no `bv_decide`).
* The reading of the Rust source: every model definition cites file and lines.
* The storage contract stated in `storage/v2/raft_log_storage.rs`: write operations are serialized,
  a vote is persisted before `save_vote` returns, an append calls back when persisted. A crash
  therefore leaves the result of a prefix of the submitted writes.
* A node does not lose durable data, and messages are not forged.
* Numbers are unbounded (`Nat`): u64 overflow is out of scope.

## The cluster model and its restrictions

`Verif/Cluster/Model.lean` has one step function for the whole cluster (22 kinds of events). `Rules.none` allows
every execution of the code (and some more: responses may arrive after a restart, a node may restart
without resuming leadership, messages may arrive any number of times). The safety theorems hold for executions
restricted by `Rules.Safe`:

* `exactQuorum`: a progress update commits a position only if a quorum really reached it (F1);
* `fenceTasks`: a replication task only sends while its leader is in office (F3);
* `ownTermGate`: a leader proposes a membership only after an own entry is committed (F2);
* `losslessResume`: a node resumes leadership after a restart only if it lost none of its entries (F4);
* `atomicSnapshot`: no crash between the two writes of a snapshot installation (F5).

C25 needs one more: `keepCommitted`, a node that resumes leadership still knows its committed position (F6).
For each of the six rules there is an execution of the model that breaks safety when only this rule is
dropped (for `losslessResume`, `keepCommitted` is dropped too, the position is lost together with the
entries).

The proof: a history (`Ghost`) of the logs of all leaders, of acknowledgements, granted votes and commits is
carried beside the state; `step_inv` proves that each of the 22 events keeps the invariants; leader
completeness (`LC.lean`) follows from the invariants of the history by induction over leader ids and over
the log length at commit time, including joint memberships.

Not in the cluster model: purged logs (a log keeps its prefix, snapshots carry it), leases and time,
`elect` on a node that leads, learner/voter distinction of replication targets (a leader may send to anybody),
message sizes, the single-term-leader mode.

## Findings

Places where the code does not have a property. Each is proved as a negation with a concrete execution.

* **F1** `VecProgress::update_with` (`progress/mod.rs:320-384`) re-sorts the vector only when a value crosses the
  granted value. If a voter that is already above it passes another one, the order is wrong and the next
  update grants a value that no quorum reached. Needs at least 4 voters. `C12_false`; it lets a leader
  commit an entry that a later leader does not have: `C03_false`, `C04_needs_exactQuorum`. A run of the engine: of five voters node 2
  reports the first entry before the leader's own disk does, then only node 3 follows, behind the leader's disk; the leader
  commits every entry that node 3 reports (`C12_commit_false`; the progress for any number of such rounds: `C12_two_of_five`).
* **F2** `ChangeHandler::ensure_committed` (`change_handler.rs:46-59`) checks that the last membership is committed but
  not that this leader committed an entry of its own term: two leaders in sequence can commit under
  memberships that do not intersect. `C29_false`, `C04_needs_ownTermGate`.
* **F3** A replication task reads entries from the log when it sends (`replication/mod.rs`, `send_log_entries`). If its leader
  stepped down in between and another leader overwrote the log, it sends the other leader's entries with the old
  vote and an old `prev_log_id`. `C28_false`, `C02_false`, `C04_needs_fenceTasks`.
* **F4** A leader replicates entries before they are on its own disk and counts the followers' answers. If it
  crashes and restarts, it is leader again with the same vote (`engine_impl.rs:141-171`) and reuses the indexes it
  lost: two entries with one log id. `C27_false`, `C04_false`, `C04_needs_losslessResume`.
* **F5** `install_full_snapshot` (`following_handler/mod.rs:305-311`) deletes all logs above the committed position before
  the snapshot is durable. A crash in between makes the node forget entries that it acknowledged. `C41_false`,
  `C04_needs_atomicSnapshot`.
* **F6** After a restart a resuming leader takes its first own entry as `noop_log_id` and the restored committed
  position may be behind; `get_read_log_id` (`leader_handler/mod.rs:112-116`) is then behind writes that were
  answered before the crash. `C25_false`; with real nodes `C25_net_false`.
* **F7** A replication target that was added while unreachable, when all logs have been purged up to the end
  (`max_in_snapshot_log_to_keep = 0`): `next_send` (`progress/entry/mod.rs:151-203`) neither sends logs nor the snapshot,
  until the next write. `C18_stuck`.
* **F8** `stream_snapshot` (`replication/mod.rs:720-768`) sends the newest snapshot, not the one the engine recorded
  as in flight; `Inflight::ack` then fails its `debug_assert_eq!`. Debug builds only. `C18_debug_aborts`.
* **F9** Chunked snapshot transport (`network/snapshot_transport.rs:165-252`): the receiver accepts any offset of the snapshot
  it is receiving and does not check for gaps. A chunk that timed out and arrives after the transfer began anew
  (the receiver restarted in between) produces a snapshot with a hole that is reported as complete.
  `C22_late_chunk_corrupts`. A chunk size of 0 is accepted by `Config::validate` and never completes:
  `C22_zero_chunk_never_completes`.
* **F10** `Balancer` (`core/balancer.rs:38-45`): an API share below 16 of 10 000 never grows again.
  `C37_share_never_recovers`, `C37_low_share_reachable`. Not a violation of C37.
* **F11** A `PayloadTooLarge` hint of 0 (checked by `debug_assert!` only, `error.rs:478-479`) makes a replication
  stream repeat itself without progress. `C39_zero_hint_livelock`.

* **F12** `install_full_snapshot` with a snapshot beyond the log keeps the effective membership of the log it drops if that
  membership has a greater log id than the one of the snapshot: a membership that no log and no snapshot contains stays
  effective. `C30_phantom`. Consequence on a cluster: F26.
* **F13** `MembershipState::append` (`membership_state/mod.rs:137-151`) takes the old effective membership as committed. A batch
  with two memberships makes `committed` one that is not committed. `C30_committed_is_not`.
* **F14** An `Apply` command that waits behind a blocked answer, overtaken by a snapshot installation, no longer finds the
  log id at which it should start: `get_log_id().unwrap()` aborts the node. `C34_apply_aborts`.
* **F15** `RebuildReplicationStreams` executed late finds neither the leader nor the nodes it was made for and aborts the node.
  `C42_rebuild_aborts`.
* **F16** A snapshot build that ends after a newer snapshot was installed sets the reached snapshot position back; debug builds
  abort. `C19_snapshot_position_goes_back`. The log is
  then purged beyond the recorded snapshot: `C49_purged_false`.
* **F17** `purge_upto` can be set back (`trigger_purge_log`, `calc_purge_upto`); debug builds abort. `C20_scheduled_goes_back`. With
  `purge_batch_size = 0` and no snapshot `calc_purge_upto` underflows.
* **F18** Start-up: `get_initial_state` (`storage/helper.rs:104-116`) decides by comparing log ids, leader id first, whether the log
  ends before the applied position. A crash that loses the truncation made for a snapshot leaves entries of an old
  leader beyond the snapshot (`C32_stale_tail`), or a log that is shorter than the applied position and is not cleaned
  (`C32_not_cleaned`). The node then aborts in debug builds and writes a log with a hole in release builds (`C32_hole`).
* **F19** After a restart with a persistent state machine that is ahead of its log, the purged position is above the snapshot:
  `C19_purged_above_snapshot`. A debug build fails its self-check at the first access to the
  state, at every start: `C49_restart_false`.
* **F20** A leader does not renew the lease on its own vote (`touch` is only called in `update_vote`). Once a lease has passed since its
  election it grants votes to others although a quorum acknowledges it: with one follower's promise in force, another leader can be
  elected by the old leader's own vote. `C23_leader_grants`.
* **F21** A restart forgets the lease: the vote is loaded with a lease of zero. `C23_restart_forgets`. A lease that was disabled by a
  transfer of leadership stays disabled under the same leader, heartbeats do not renew it. `C23_transfer`.
* **F22** The heartbeat worker counts every answer as an acknowledgement, also `HigherVote` (`core/heartbeat/worker.rs:85-109`): a leader
  reports a time as acknowledged by a quorum although all other nodes refuse it. `C24_refusal_counted_false`. F1 adds a second error to
  the same number: with four or more voters the granted time can be later than any time a quorum has reached.
* **F23** A client whose entry a leader lost to an installed snapshot is never answered: `install_full_snapshot` truncates (and so
  answers) only when the log has another entry at the index of the snapshot; a snapshot beyond the log leaves the caller waiting as
  long as the process runs. `C26_never_answered`.
* **F24** `Trigger::elect` on a leader (`raft_core.rs:1264-1272` only asks whether the node is a voter): the old leader state goes on
  until the new one is established, with the log end it had when the election began. Debug builds abort; release builds give one index to
  two entries, and the client of the first one is answered with the second one. `C26_elect_on_leader`.

* **F25** `HandleTransferLeader` (`raft_core.rs:1247-1259`) does not ask whether the node is a voter, as `Trigger::elect` does. A learner
  that is told to take over stands for election and aborts on the answer to its own vote request: `grant_by` expects it among the
  voters (`candidate.rs:91-97`). `C35_learner_aborts` (every state), `C35_learner_run` (an execution from the first start).
* **F26** The membership that F12 keeps breaks safety. A node that keeps the config `{1, 2, 3}` of an entry it dropped for a snapshot,
  while the cluster is in the joint config of `{1, 2, 3}` and `{4}` and goes on to `{4}`, is elected by a majority of `{1, 2, 3}`; both the
  new leader and the one of `{4}` commit and apply at the same index. `C04_net_needs_snapMember`, `C03_net_needs_snapMember` (debug build,
  all other restrictions hold).
* **F27** The hole of F18 breaks safety in release builds: the node is elected, sends an entry that should have been purged, and a
  follower deletes committed entries for it and takes it for committed. `C04_net_needs_fits`, `C03_net_needs_fits`.

* **F28** The recorded flushed IO is the one reported last, not the greatest (`io_progress.rs:105-113`, `raft_core.rs:1473-1488`). A snapshot
  of a leader that covers less than the follower has stored is reported with a smaller IO id than the entries. In release builds the
  answer to the next message of the leader then waits for an IO that was reported before; commands are executed in order, so
  the node executes no command and sends no answer any more, votes included, until it is restarted: `C48_false`, `C48_false_forever`.
  Debug builds abort when the snapshot is submitted: `C49_progress_false`. The same happens when the callback of an append comes after the report of a snapshot
  that is ahead of the log.

* **F29** `change_membership` makes its second request without looking at what the first one led to (`raft/impl_raft_blocking_write.rs:98`).
  When another call gets in between, it makes the config joint again: with one caller that asks for `{1,2,4}` and one that asks for
  `{1,2,5}` both calls return `Ok`, and the cluster stays in the joint config `[{1,2,4},{1,2,5}]`: `C50_false`. A call about
  nodes (`AddNodes`, …) that finds a joint config makes its request twice, and returns the joint config: `C50_nodes_false`.

* **F30** `Wait::metrics` looks at the delay first (`select_biased!`, `metrics/wait.rs:67-71`): a call that is polled late times out although
  the value it waits for was published before the deadline, and prints the older value: `C53_wait_timeout_false`. In release builds the
  reported snapshot can go back to an older one, behind the reported purged position: `C53_snapshot_back` (the cause is that of `C49_purged_false`).
* **F31** a replication task that gets `PayloadTooLarge` for a request without entries (`Data::Committed`) sends it again as `Data::Logs`
  (`replication/mod.rs:292-298`). Its success is now reported to `RaftCore`, which has nothing in flight for the target:
  `Inflight::ack` is `unreachable!` (`progress/inflight/mod.rs:109`) and the node stops: `C55_too_large_aborts`.
* **F32** the tasks of a leader that steps down are not closed (`become_following` emits no command; only the `RebuildReplicationStreams`
  of a later leader does so). A task that still has a request reads what the new leader put in place of the entries (F3,
  `C55_ousted_reads_other`), or, if they were only truncated, panics in `logs.first()…unwrap()` (`replication/mod.rs:400`): `C55_ousted_panics`.
* **F33** the first call that finds the core gone takes the `JoinHandle` out of `CoreState::Running` and awaits it (`join_core_task`,
  `raft/raft_inner.rs:178-222`). If its caller drops it there (a `shutdown()` with a timeout, a `select!`), the state stays `Joining` and the sender of the
  watch channel is gone: every later call panics in `unreachable!("RaftCore should have already quit")` (line 158): `C56_dropped_panics`. A
  second `shutdown()` returns at once, while the core may still run: `C56_shutdown_early`.
* **F34** `is_core_running` (`raft/core_state.rs:25`) is true until a call has awaited the core task. `with_state_machine` uses it to tell a wrong
  type from a core that is gone (`raft/mod.rs:921`): the first such call after the core ended gets `InvalidStateMachineType`: `C56_wrong_type`.
* **F35** The same cause as F1 also makes the granted position too small, and keeps it so. `update_with` (`progress/mod.rs:320-384`) searches only if
  the voter was not above the granted position before, and stops at the first voter that is not above it. A voter that advances above it
  without being moved up can end behind one that is not: it is then not counted. Five voters, leader 1: node 4 reports entry 1; the leader's
  disk 1, then 2; node 2 entry 1 (committed), then 3; node 3 entry 3. Nodes 1, 2 and 3 have entry 2; committed is 1 (`C57_false`). As all
  three are above the granted position, no report of theirs starts a search again: if nodes 4 and 5 are down, the leader accepts writes, has
  a majority that stores them, stays the leader, and never commits anything again (`C57_stuck`, `C57_halted`). A report of node 4 or 5, a
  membership change or a new leader repairs it. Also with four voters (`C57_four`) and in a joint config (`C57_joint`).
* **F36** The leader's clock is the same structure (F1, F35), and `last_quorum_acked` is wrong in both directions, also if every answer is an
  acknowledgement and the metrics are reported after every message. Too late: a replication task takes the time when it sends
  (`replication/mod.rs:418`), which may be after the last report of the metrics, so the acknowledgement of node 2 goes before the leader's own
  entry in the vector and stays there. If later of five voters only node 3 answers heartbeats, nodes 2, 1, 3 are counted as a quorum:
  every time node 3 acknowledges is reported (`C24_five_false`, `C24_lease_of_two`, for any number of rounds). A leader in a minority
  partition then reports a fresh time for ever; an application that takes it for a lease reads stale data. Too early: with seven
  voters time 5 is reported although nodes 1, 3, 5 and 6 acknowledged 8 (`C58_false`), and this stays so while just these answer
  all heartbeats (`C58_halted`).
* **F37** `add_learner` does not look at what its wait returned (`raft/impl_raft_blocking_write.rs:155-175`). A blocking call returns `Ok`
  when the node is no longer the leader, when the learner has been removed, and when the node shuts down, with nothing of the log on the
  learner: `C59_false`, `C59_removed`, `C59_shutdown`. The answer is the one of the membership entry, so the caller cannot tell these
  apart from success. A caller that goes on to make the learner a voter may lose availability: the new voter has an empty log.
* **F38** Heartbeat workers send old heartbeats. `spawn_workers` clones a receiver that never looked at the channel (`core/heartbeat/handle.rs:76`),
  so `changed` returns at once in a new worker: it first sends the last heartbeat of the session before, after a membership
  change or, on a node that leads again, of an older term (`C60_false`). Receivers refuse an older vote and the report does not
  match the session, so it costs one request and one `HeartbeatProgress`. A broadcast between `changed` and
  `borrow_watched` is sent twice (`C60_twice`). The error of `changed` is ignored (`core/heartbeat/worker.rs:72`): after the core has ended, a worker may
  send the last heartbeat again and again, until `select!` happens to take the other branch (`C60_after_end`); a follower that
  accepts the vote then postpones its election, although nobody leads. Only a rebuild stops workers (`core/raft_core.rs:839-842, 1771`), so
  those of a leader that stepped down stay; they send nothing, as nothing is broadcast.
* **F39** `SerdeInstant` (`metrics/serde_instant.rs`) goes by the difference of the two clocks when it is written and when it is read. If the system clock is set in
  between, the instant moves by as much: `C61_false`. `last_quorum_acked` read that way may be a second later than what was written, and
  is no base for a lease. The order of two instants may change, also with steady clocks (`C61_order`). `now - …` panics where an instant
  before the start of the machine cannot be represented (`C61_panic`), on input that another process wrote.
* **F40** When a node ends only `RaftMetrics` gets the state `Shutdown` (`core/raft_core.rs:239-246`). `RaftServerMetrics` keeps the last state, e.g. `Leader`, with the node itself as
  `current_leader` (`C63_false`); a reader of this channel sees the end only as the close of the channel. Before the first report the server metrics have
  the default id and the state `Learner`, while the metrics have the id of the node and `Follower` (`raft/mod.rs:248-250`).
* **F41** A replication that needs a snapshot does not back off further. `stream_snapshot` only spawns a task and returns `Ok(None)`, which `main` takes as a success and
  sets `backoff` to `None` (`replication/mod.rs:248-250, 772`); the failure comes later, in the callback. So each undelivered snapshot is followed by the first duration of a
  new iterator (`C64_snapshot_first`, `C64_false`), and a backoff that logs or heartbeats had built up is lost when a snapshot begins. Also: "retry at once" after
  `PayloadTooLarge` (line 295) waits if a backoff is in force (example in `Props/BackoffProps`).
* **F42** A request that cannot be divided and is "too large" is sent again without end. `error.rs:397-398` documents that it is taken as `Unreachable`; `main` makes no such
  distinction and sends the same request again at once, without backoff and without telling the core (`replication/mod.rs:292-305`): `C64_too_large_loops`.
* **F43** The only voter of a cluster calls a new election at every tick until it is the leader (`core/raft_core.rs:1523-1524`): the election that is under way is not looked at. The vote a node gives itself is counted only after `save_vote` returned and the notifications before it were handled (`core/raft_core.rs:1703-1715`), and each new election makes it obsolete. If saving a vote takes longer than the time between two ticks, ticks are in the channel before it each time, the term grows and the node is not elected. `C65_obsolete` proves both for every state; `C65_single` shows three such elections in a row.
* **F44** A snapshot that is sent in chunks knows no backoff. `Unreachable` is documented as "should backoff before retrying" (`error.rs:259`), but `Chunked::send_snapshot` takes every error of `install_snapshot` other than a mismatch as a reason to send the same chunk again after one millisecond (`network/snapshot_transport.rs:71, 111-148`), without end and without reporting: for a target that refuses connections, up to a thousand requests a second until the leader changes (`C66_chunked_again`, `C66_false`). The core is not told (`C66_chunked`), so that for it the snapshot is in flight all the time. The same holds when the target's Raft has stopped with a fatal error.

Seen while reading, not formalised:

* `PayloadTooLarge` as answer to a snapshot cannot reach the `unwrap` of `log_data` in the replication task (`C64_no_panic`); but the conversion of `RPCError` to `StreamingError`, which an application may use in `full_snapshot`, panics on it
  (`error/streaming_error.rs:73-75`, `C66_converts`): the task that streams the snapshot ends without a callback, and the replication to this target waits for it;
* `initialize` writes its first entry with the vote `(0,0,committed)`, which is never stored;
* `ensure_valid` accepts a membership without any config;
* `committed` can be saved before the entries it speaks of are durable; start-up then fails with a storage error.

## The replication session model

`Verif/Repl` has the leader's `ProgressEntry` for one target (`Entry.lean`), and a session: entry, replication task,
queue of reports, follower (`Session.lean`). Events are freely interleaved; RPCs fail, answers are lost, the follower
changes its log in between. `SessionInv.lean` proves the invariant; `Rounds.lean` a bound on the number of
synchronous probing rounds.

## Runtime parts

`Verif/Rt`: the event loop with its budgets (`Balancer.lean`), configuration (`Config.lean`), request payloads
(`Payload.lean`), chunked snapshots (`Chunked.lean`), the metrics channel and `Wait` (`Watch.lean`), callers of a core task that ends (`Join.lean`), the heartbeat workers (`Heartbeat.lean`), instants in metrics (`Instant.lean`), the tick loop (`Tick.lean`), the loop of a replication task with its backoff (`Backoff.lean`). `Verif/Engine/Store.lean`: the log store by its contract and the
start-up scan for memberships.

## The engine model

`Verif/Engine/Types.lean`, `Core.lean`, `Input.lean`: the state of the engine, all its handlers and the part of `RaftCore` that
hands messages to it, one definition per Rust function, with debug assertions as errors when `dbg` is set and `unwrap`
as errors always. Simplifications: a handler reads the clock once; the checks of the `Valid<RaftState>` wrapper are in `Validate.lean` (C49), not in the handlers;
the progress of a leader is split into the values (`vp`) and the entries (`ent`); messages that do not reach the engine
(`CheckIsLeaderRequest`, which is in `Net/Check.lean`, `BeginReceivingSnapshot`, `ExternalCoreRequest`, `GetSnapshot`, `StateMachineCommand`) are left out. Metrics are in `Runtime/Metrics`.

`EInv` (`Inv*.lean`) is the invariant of the engine against a history of commands (`Gh`: what a store that executed all commands
so far would contain). It is proved for each input that a peer can send: `InputOk` (`Basic.lean`) says that the entries of a
request are consecutive, have log ids not above the vote of the request, agree with what is committed, and that a snapshot is of
committed data. Where C06 or other theorems do without `InputOk`, they say so.

`Clock.lean`, `Sync.lean`, `Acked.lean`: the clock and the progress of a leader come from the reports it has handled; they are counted over the
configs of the effective membership. `Pure/Track.lean` is the part about `VecProgress`: exact for one config of at most three voters (the
code sorts wrongly for more, F1). `Ask.lean`: the answers to requests.

## The node model

`Verif/Runtime/Model.lean`: engine, command queue with conditions, log store with writes that are not yet durable, state machine
worker, waiting clients. Events are freely interleaved, except that messages are only handled when the command queue has
come to rest, as in the main loop. `RInv` (`Inv.lean`, `InvRun.lean`) is the invariant: what was read, written, flushed and applied is
what the executed part of the command stream says.

`Restart.lean`, `RestartLoad.lean`, `RestartInv.lean`, `Crash.lean`, `Life.lean`: start-up from what a crash left, the invariant after it, the
whole life of a node. Assumptions: a truncation or purge is durable some time after it was submitted, in order; a
purge at start-up is durable when it returns; a newer snapshot is not replaced by an older one; a state machine is either durable
when `apply` returns or starts from its snapshot (`persist`). A restart is followed only if log and state machine fit (`Fits`);
F18 shows restarts for which they do not. `VoteLife.lean` does without all of this for the vote.

`Clients.lean`: callers that wait. `CRun` records requests and applied entries; `CInv` says what a waiting caller's index holds in
the command stream. Each caller is a number; that different callers have different numbers is a hypothesis where it is needed
(`Nodup`).

`Tasks.lean`: the node with its replication tasks, `Team`. A task has its channel, its next action, the snapshot it is sending and
the reports that `RaftCore` has not taken; the reports of replaced tasks may arrive at any time (`late`). A round of `main` is
one step, given the answer of the target (`Ans`); the read of the entries is `readRange` (`TaskRead.lean`); the time, the backoff, the hint and the stored
committed id are left out (`Payload.lean` has the hint). A rebuild replaces all tasks.

## The cluster of real nodes

`Verif/Net/Model.lean` connects the nodes of the node model: what a node sends when it executes a command (vote requests, heartbeats,
answers) becomes a message, a replication task may send any range of its leader's log at any time, and a node handles only messages
that were sent. Messages are never removed: they can be lost, delayed, duplicated and reordered, and any node but the sender may get
them. The commands wait in their queues, flushes and callbacks are delayed as in the node model.

Restrictions on executions, as for the abstract cluster and for the same reasons: `Exact` (`exactQuorum`), sending only while the
leader leads and its vote is durable (`fenceTasks`), membership changes only after an own entry is committed (`ownTermGate`). One more
is needed here: no manual election on a leader (F24). A node may crash at any time and lose any number of its pending writes; it starts
again from its disk. Two restrictions on crashes: `Lossless` (`losslessResume`: who resumes as a leader led before and lost nothing of
its log) and `Fits` (the state machine fits the log, F18, `C32_stale_tail`). A leader may send its snapshot at any time, as a whole;
the receiver installs it (install, purge and apply commands are queued and can be interrupted by a crash), and the leader takes any
answer that does not carry a higher vote as acknowledging it. One restriction, `SnapFit`: no entry of the receiver's log conflicts with
the end of the snapshot (otherwise acknowledged entries are deleted before the snapshot is there, `C41_false`), and if the snapshot is
beyond the log, the log has no membership above the one of the snapshot (F12). Not modelled here: chunks.

The proof: a history (`Ghost`, as for the abstract cluster) is carried beside the state. `Legal` says which write of the log
store is justified by the history, `EC`/`EN` what the engine's state and its waiting commands say about it, `NI` the same for a whole
node, `PI` for a message, `HistOk` for what is in a state machine, `NP` for its position, membership and snapshots. `Net/Eng1`-`Eng10` prove that each input of the engine keeps this and extends
the history by steps the abstract cluster allows (`GhostStep`); `Net/Node1`-`Node4` do the same for every event of a node,
`Net/Node5`-`Node7` for a crash and the restart; `Net/Assembly` and `Net/Agree` put nodes and messages together: `reach_ci`. `Props/NetProps` draws the conclusions: C01, C02, C03, C04, C27, C28 for clusters of
real nodes; `C04_net_snapshots_partial` says that every state machine and every snapshot, also one that is on its way, agrees with
whatever is applied anywhere. `net_node_run_partial` closes the circle of the per-node theorems: the assumptions they make on messages (`InputOk`) hold in
every such cluster.

`Net/Rules` makes each restriction a switch (`NetRules`); with all of them on the executions are those of `Net/Model` (`XStep.toStep`,
`XStep.ofStep`). `Net/Cex` has executions of the real nodes, in a debug build, in which one restriction is dropped and two state machines
get different entries for one index: `C04_net_needs_exactQuorum`, `_fenceTasks`, `_ownTermGate`, `_losslessResume`, `_snapAgrees`,
`_snapMember` (`Props/NetCexProps`); `_fits` likewise in a release build. The last one, `quietLeader`, excludes F24; no execution that breaks
C04 without it is known.

`Net/Reads`: what a leader knows of its own commits. Each extension of the history is recorded together with the position that the
engine takes for committed (`GStep.made`), and who leads after a step led before it or was a candidate with the same vote
(`Eng.won_input`). Hence a leader knows all that its leader id committed, unless it forgot it in a crash (`Remembers`), and a leader
that a quorum accepts is the latest one. `Props/ReadProps` draws C25 from this: whoever has applied the position the leader gave has
applied all that was applied anywhere before the leader was asked.

`Net/Check` adds the calls themselves (`handle_check_is_leader_request`, `core/raft_core.rs:279-432`): the position fixed at the call, the
requests to the other voters, their answers in any order or not at all, and the three ways a call ends. `ensure_linearizable` then
compares indexes only; this is enough because the blank entry of a leader stays the same while it leads and is in its log (`RC.noopIn`, with
`Engine/NoopAt` for elections and for leaders that resume), so the index of the position is above everything committed before its term and
everything it committed itself (`CI.read_index`). Simplified: an answer is on its way as soon as the request is handled, and a call survives a
crash of its node; both only add executions. A leader is only asked when its vote is stored (`Step.check`).
