{"id": "C01", "title": "Election safety", "statement": "A leader id (term, node) is exercised by one node only, after a quorum of the membership that node used has durably granted that exact vote, and every log entry that carries this leader id was appended by that one leader in one linear sequence: two nodes never both lead under the same vote.", "quantifier": "every cluster size, every joint membership, every schedule of messages (lost, duplicated, reordered), every crash/restart point", "why_tests_cant": "needs all interleavings of concurrent elections with crashes between granting, persisting and replying; a test runs one schedule", "anchors": ["openraft/src/engine/engine_impl.rs: elect, handle_vote_req, handle_vote_resp, establish_leader", "openraft/src/engine/handler/vote_handler/mod.rs: update_vote", "openraft/src/proposer/candidate.rs: grant_by"]}
{"id": "C02", "title": "Log matching", "statement": "If the logs of two nodes contain the same log id, the two logs are identical at that index and at every smaller index.", "quantifier": "every pair of nodes, every index, every reachable state of the cluster (including durable state after a crash)", "why_tests_cant": "the violating schedules need a particular order of truncation, append and delayed messages over at least three nodes", "anchors": ["openraft/src/engine/handler/following_handler/mod.rs: append_entries, ensure_log_consecutive", "openraft/src/raft_state/mod.rs: first_conflicting_index", "openraft/src/replication/mod.rs: send_log_entries"]}
{"id": "C03", "title": "Leader completeness", "statement": "An entry that a leader has committed is in the log, at the same index, of every leader with a greater leader id.", "quantifier": "every committed entry, every later leader, every reachable state, with membership changes in between", "why_tests_cant": "a violation needs a rare election between two overlapping quorums after a crash; the set of histories is infinite", "anchors": ["openraft/src/engine/engine_impl.rs: handle_vote_req, establish_leader", "openraft/src/engine/handler/replication_handler/mod.rs: try_commit_quorum_accepted"]}
{"id": "C04", "title": "State machine safety", "statement": "If one node hands the entry e at index i to its state machine and any node (the same one later, or another) hands e' at index i to its state machine, then e = e'.", "quantifier": "every pair of apply events in every execution, with crashes, restarts, snapshots and membership changes", "why_tests_cant": "is a statement over all pairs of events of all executions", "anchors": ["openraft/src/engine/handler/following_handler/mod.rs: commit_entries", "openraft/src/engine/handler/replication_handler/mod.rs: try_commit_quorum_accepted", "openraft/src/core/sm/worker.rs: apply"]}
{"id": "C05", "title": "The committed position only moves forward and applies are contiguous", "statement": "On one node the committed log id never decreases, and the ranges handed to the state machine (apply ranges and installed snapshots) follow each other without gap and without overlap.", "quantifier": "every sequence of engine inputs (append, commit, vote, snapshot, client write, acknowledgements) from any valid state", "why_tests_cant": "any order of stale commit indexes, snapshots and acknowledgements can be fed to the node; tests pick a few", "anchors": ["openraft/src/raft_state/mod.rs: update_committed", "openraft/src/engine/handler/following_handler/mod.rs: commit_entries, install_full_snapshot", "openraft/src/engine/command.rs: Apply"]}
{"id": "C06", "title": "Votes only grow, also across a crash", "statement": "The vote of a node never decreases, neither in memory while it runs nor on disk over any number of crashes; a vote that was answered to a peer is never followed by an answer carrying a smaller vote.", "quantifier": "every sequence of inputs, every prefix of the write queue that survives a crash", "why_tests_cant": "crash points between issuing the write and sending the answer cannot be enumerated by tests", "anchors": ["openraft/src/engine/handler/vote_handler/mod.rs: update_vote", "openraft/src/core/raft_core.rs: run_command SaveVote, handle_vote_request", "openraft/src/engine/command.rs: Condition"]}
{"id": "C07", "title": "A success answer is only sent for durable data", "statement": "When a node answers an AppendEntries request with success, or answers a vote request with granted, the vote of the request (or a greater one) and all entries up to the acknowledged log id are already flushed to disk.", "quantifier": "every interleaving of engine inputs, command execution and disk completions; every crash point", "why_tests_cant": "the answer is gated by a comparison of IO ids over a queue whose interleavings with disk completions are unbounded", "anchors": ["openraft/src/engine/command.rs: Condition, condition()", "openraft/src/core/raft_core.rs: run_engine_commands, run_command", "openraft/src/raft_state/io_state/io_progress.rs", "openraft/src/raft_state/io_state/io_id.rs"]}
{"id": "C08", "title": "Two quorums of one membership intersect", "statement": "Any two node sets that both count as a quorum of the same (uniform or joint) membership share a node; a superset of a quorum is a quorum; the set of all voters is a quorum.", "quantifier": "every non-empty joint membership with non-empty voter sets, every pair of node sets", "why_tests_cant": "quantifies over all finite sets of nodes and all joint configurations", "anchors": ["openraft/src/quorum/quorum_set_impl.rs: is_quorum", "openraft/src/quorum/joint.rs: is_quorum"]}
{"id": "C09", "title": "Each accepted membership change keeps old and new quorums intersecting", "statement": "If change_membership accepts a change from membership m to m', any quorum of m and any quorum of m' share a node.", "quantifier": "every membership m (any number of joint configs), every ChangeMembers variant, every retain flag", "why_tests_cant": "all memberships and all eight change kinds; tests use sizes up to five", "anchors": ["openraft/src/membership/membership.rs: change, next_coherent", "openraft/src/quorum/coherent_impl.rs: find_coherent, is_coherent_with"]}
{"id": "C10", "title": "Membership change requests are validated", "statement": "A membership accepted by change_membership or initialize has no empty voter config, a node record for every voter, and is not empty; a request that would break this is rejected with an error and changes nothing. Node records of existing members are replaced only by SetNodes and by a full replace.", "quantifier": "every current membership and every ChangeMembers value with every argument", "why_tests_cant": "the space of memberships times requests is infinite and the rejected shapes are rare", "anchors": ["openraft/src/membership/membership.rs: change, ensure_valid, extend_nodes", "openraft/src/change_members.rs"]}
{"id": "C11", "title": "Repeating a membership change reaches the target in at most two steps", "statement": "Applying the same ReplaceAllVoters request twice (committing each result) yields a uniform membership whose only voter config is the requested set, whatever membership one starts from, and a third application changes nothing.", "quantifier": "every starting membership with any number of joint configs, every target voter set", "why_tests_cant": "unbounded set of starting joint configurations", "anchors": ["openraft/src/membership/membership.rs: next_coherent", "openraft/src/quorum/coherent_impl.rs: find_coherent"]}
{"id": "C12", "title": "The log id reported as quorum-accepted is accepted by a quorum", "statement": "After any sequence of progress updates the value the leader takes as granted by a quorum (used to commit logs and to compute the lease) is reached by a quorum of voters, and it is the greatest such value.", "quantifier": "every voter set and joint config, every sequence of monotone progress updates of every node", "why_tests_cant": "the failing sequences depend on the order of updates; a test would need to hit one of them", "anchors": ["openraft/src/progress/mod.rs: VecProgress::update_with, move_up, upgrade_quorum_set"]}
{"id": "C13", "title": "Vote counting is exact", "statement": "A candidate is told that its vote is granted exactly when the set of voters whose grant it has received is a quorum of its membership; grants from the same node count once.", "quantifier": "every joint membership, every order and multiplicity of grant messages", "why_tests_cant": "all orders of all subsets of grants", "anchors": ["openraft/src/proposer/candidate.rs: grant_by", "openraft/src/progress/mod.rs: VecProgress::update_with"]}
{"id": "C14", "title": "The in-memory log-id index answers as the stored log does", "statement": "After any sequence of appends, truncations and purges, looking up a log id by index in the compressed in-memory list returns exactly the log id of the entry stored at this index, and nothing for indexes that are not stored.", "quantifier": "every sequence of append/extend/truncate/purge operations and every index", "why_tests_cant": "the compressed list has a distinct shape for every pattern of leader changes; the space of histories is infinite", "anchors": ["openraft/src/engine/log_id_list.rs: append, extend, extend_from_same_leader, truncate, purge, get"]}
{"id": "C15", "title": "The log-id index rebuilt at start-up is right", "statement": "Loading the index from storage at start-up gives, for every index, the log id of the stored entry, for any stored log with monotone log ids, and terminates.", "quantifier": "every stored log with non-decreasing leader ids, every purge position", "why_tests_cant": "a recursive bisection over all shapes of logs", "anchors": ["openraft/src/engine/log_id_list.rs: load_log_ids"]}
{"id": "C16", "title": "Votes and log ids are consistently ordered", "statement": "In the default mode votes, leader ids and log ids are total orders; a committed vote is greater than the uncommitted vote of the same leader and smaller than any vote of a greater leader. In single-term-leader mode the comparison is a partial order as long as no two different leaders of one term are both committed: two different candidates of one term are incomparable, so a node that stored one of them accepts no vote request of the other, and a committed vote is comparable with every vote and greater than all uncommitted votes of its term.", "quantifier": "all votes, leader ids and log ids", "why_tests_cant": "order laws range over all triples", "anchors": ["openraft/src/vote/vote.rs: partial_cmp", "openraft/src/vote/leader_id/leader_id_adv.rs", "openraft/src/vote/leader_id/leader_id_std.rs", "openraft/src/log_id/mod.rs"]}
{"id": "C17", "title": "A truncation never removes a committed entry and an append never leaves a hole", "statement": "When a follower handles AppendEntries, it deletes nothing at or below its committed position, keeps every entry that agrees with the request, and ends with a log of consecutive indexes in which the request's entries follow prev_log_id.", "quantifier": "every valid follower state and every request whose entries are consecutive with prev_log_id and which does not contradict the committed prefix", "why_tests_cant": "all combinations of overlapping, stale, shorter and conflicting requests", "anchors": ["openraft/src/engine/handler/following_handler/mod.rs: append_entries, ensure_log_consecutive, truncate_logs", "openraft/src/raft_state/log_state_reader.rs: has_log_id"]}
{"id": "C18", "title": "Replication probing finds the matching point and stops", "statement": "For every follower log, the leader's search for the greatest matching log id ends: each answer strictly shrinks the search interval, the interval always contains the true matching point, and after finitely many answers the leader sends logs from the true matching point or a snapshot.", "quantifier": "every leader log, every follower log, every purge position, every sequence of match/conflict answers consistent with the follower log", "why_tests_cant": "termination and the interval invariant over all log shapes", "anchors": ["openraft/src/progress/entry/mod.rs: next_send, update_matching, update_conflicting, calc_mid", "openraft/src/progress/inflight/mod.rs: ack, conflict"]}
{"id": "C19", "title": "Log positions stay ordered", "statement": "On every node: purged <= snapshot <= committed <= last log, and flushed <= submitted <= accepted for the write progress, in every state.", "quantifier": "every sequence of engine inputs from a valid initial state", "why_tests_cant": "invariant over all histories", "anchors": ["openraft/src/docs/data/log_pointers.md", "openraft/src/raft_state/mod.rs: validate", "openraft/src/raft_state/io_state/io_progress.rs: accept, submit, flush"]}
{"id": "C20", "title": "Purging never removes data that is still needed", "statement": "Logs are deleted only up to a position covered by a snapshot this node holds, never one that a replication stream of the leader is currently sending, and the policy keeps at least the configured number of logs before the snapshot position; the purged position never moves backwards.", "quantifier": "every state, every purge request (by policy, by user, by snapshot install) and every set of in-flight replications", "why_tests_cant": "ranges over all positions and in-flight ranges", "anchors": ["openraft/src/engine/handler/log_handler/mod.rs: calc_purge_upto, purge_log", "openraft/src/engine/handler/replication_handler/mod.rs: try_purge_log", "openraft/src/engine/engine_impl.rs: trigger_purge_log"]}
{"id": "C21", "title": "Installing a snapshot never moves a node backwards", "statement": "A snapshot at or below the committed position is ignored; otherwise afterwards committed, snapshot and purged positions equal the snapshot's last log id, no log that conflicts with the snapshot remains, logs after a matching snapshot position are kept, and the effective membership is the later one of the snapshot's and the kept log's.", "quantifier": "every follower state and every snapshot", "why_tests_cant": "all relations between local log and snapshot", "anchors": ["openraft/src/engine/handler/following_handler/mod.rs: install_full_snapshot", "openraft/src/raft_state/membership_state/mod.rs: update_committed"]}
{"id": "C22", "title": "A chunked snapshot is received as it was sent", "statement": "When the receiver reports a chunked snapshot as complete, its content equals the sender's snapshot byte for byte.", "quantifier": "every snapshot content, every chunk size, every delivery (loss, retry, restart of either side, duplication and reordering of chunk requests)", "why_tests_cant": "all schedules of chunk requests including late duplicates", "anchors": ["openraft/src/network/snapshot_transport.rs: Chunked::send_snapshot, receive_snapshot, Streaming::receive"]}
{"id": "C23", "title": "A vote is not granted while a leader lease is in force", "statement": "A node that has accepted a leader does not grant a vote to anyone during the lease it promised; extending the lease never shortens it; if a quorum promised the lease no other leader can be elected before it ends.", "quantifier": "every time, every sequence of lease updates and every pair of quorums", "why_tests_cant": "all timings", "anchors": ["openraft/src/utime.rs: Leased", "openraft/src/engine/engine_impl.rs: handle_vote_req", "openraft/src/engine/handler/vote_handler/mod.rs: update_vote"]}
{"id": "C24", "title": "The leader's quorum-acknowledged time is a real acknowledgement", "statement": "The time a leader reports as last acknowledged by a quorum is a time at which a quorum of voters still accepted this leader.", "quantifier": "every sequence of heartbeat and replication answers", "why_tests_cant": "needs the rejecting answers to be interleaved with the accepting ones", "anchors": ["openraft/src/core/heartbeat/worker.rs: do_run", "openraft/src/proposer/leader.rs: last_quorum_acked_time", "openraft/src/engine/handler/replication_handler/mod.rs: update_leader_clock"]}
{"id": "C25", "title": "Linearizable reads see every acknowledged write", "statement": "If ensure_linearizable returns Ok(read_log_id), every write whose success was reported to a client before the call began has a log id at or below read_log_id and is in the log of the answering node.", "quantifier": "every execution with any number of leaders, elections, crashes and membership changes", "why_tests_cant": "the property compares events of different nodes over all executions", "anchors": ["openraft/src/core/raft_core.rs: handle_check_is_leader_request", "openraft/src/engine/handler/leader_handler/mod.rs: get_read_log_id"]}
{"id": "C26", "title": "A client write is answered with the result of its own entry", "statement": "If client_write answers Ok, the entry applied at the returned log id carries that client's payload; a client whose entry was removed from the log before commit gets an error, not Ok.", "quantifier": "every interleaving of client writes, elections, truncations and applies on one node", "why_tests_cant": "interleavings of the responder table with leadership changes", "anchors": ["openraft/src/core/raft_core.rs: write_entry, handle_apply_result, run_command TruncateLog", "openraft/src/proposer/leader.rs: assign_log_ids"]}
{"id": "C27", "title": "A restarted leader never assigns a log id twice", "statement": "Two different entries never get the same log id, also when a leader crashes and comes back as leader.", "quantifier": "every crash point of a leader, including between replicating an entry and flushing it locally", "why_tests_cant": "needs a crash in the window between replication and the local flush", "anchors": ["openraft/src/engine/engine_impl.rs: startup", "openraft/src/engine/handler/vote_handler/mod.rs: become_leader", "openraft/src/engine/handler/leader_handler/mod.rs: leader_append_entries"]}
{"id": "C28", "title": "Entries sent in a leader's name are that leader's entries", "statement": "An AppendEntries request carrying vote v contains only entries, and a prev_log_id, of the log of the leader elected with v.", "quantifier": "every schedule of replication tasks against leadership changes of the sending node", "why_tests_cant": "needs a step-down between queuing and executing a replication request", "anchors": ["openraft/src/replication/mod.rs: send_log_entries", "openraft/src/engine/handler/vote_handler/mod.rs: become_following", "openraft/src/core/raft_core.rs: RebuildReplicationStreams"]}
{"id": "C29", "title": "Membership changes are safe across leaders", "statement": "If two leaders in sequence propose membership changes, a committed entry of one is never lost by an election under the membership of the other.", "quantifier": "every sequence of membership changes by different leaders, every schedule", "why_tests_cant": "the violating run needs three leaders and two diverging membership logs", "anchors": ["openraft/src/raft_state/membership_state/change_handler.rs: apply, ensure_committed", "openraft/src/core/raft_core.rs: change_membership", "openraft/src/docs/data/extended-membership.md"]}
{"id": "C30", "title": "The effective membership is the last one in the log", "statement": "After any append, commit, truncation, snapshot or restart the effective membership is the one of the last membership entry of the log (or the snapshot's if the log has none), and the committed membership is one at or below it that is committed.", "quantifier": "every log and every sequence of appends, truncations and commits", "why_tests_cant": "all positions of membership entries relative to truncation points", "anchors": ["openraft/src/raft_state/membership_state/mod.rs: commit, update_committed, append, truncate", "openraft/src/engine/handler/following_handler/mod.rs: append_membership, last_two_memberships"]}
{"id": "C31", "title": "The membership found at start-up is the last one stored", "statement": "The chunked backward scan of the log at start-up returns exactly the last two membership entries at or after the given index, in log order, and terminates.", "quantifier": "every log length, every position of membership entries, every purge and applied position", "why_tests_cant": "chunk boundaries (64) against all positions", "anchors": ["openraft/src/storage/helper.rs: last_membership_in_log, get_membership"]}
{"id": "C32", "title": "Restart recovers what was durable", "statement": "The state loaded at start-up has the durable vote and log; every entry up to the greater of saved-committed and applied is re-applied exactly once and in order on top of the state machine's own position; a log that ends before the applied position is cleaned so that no hole remains.", "quantifier": "every durable storage content that a crash can leave (any prefix of the write queue)", "why_tests_cant": "all crash points", "anchors": ["openraft/src/storage/helper.rs: get_initial_state, reapply_committed"]}
{"id": "C33", "title": "initialize works only on a pristine node and only for a voter", "statement": "initialize succeeds only if the node has no log and no vote and the given membership is valid and contains the node as a voter; every other call returns an error without changing log or vote; a second initialize fails.", "quantifier": "every node state and every membership", "why_tests_cant": "all states", "anchors": ["openraft/src/engine/engine_impl.rs: initialize, check_initialize, check_members_contain_me", "openraft/src/raft_state/mod.rs: is_initialized"]}
{"id": "C34", "title": "Executing an apply command never fails for lack of its log id", "statement": "When the runtime executes an apply command, the first log id of the range can be found, so the node does not abort.", "quantifier": "every interleaving of appends, commits, snapshot installs and delayed command execution", "why_tests_cant": "needs a snapshot install while an apply command waits behind a slow disk", "anchors": ["openraft/src/core/raft_core.rs: run_command Apply", "openraft/src/engine/handler/following_handler/mod.rs: install_full_snapshot", "openraft/src/engine/handler/log_handler/mod.rs: purge_log"]}
{"id": "C35", "title": "Transferring leadership to any member does not abort a node", "statement": "transfer_leader(to) for any node id `to` known to the cluster leads to an election by a node that can win, or is ignored; no node panics.", "quantifier": "every membership and every target node, voters and learners", "why_tests_cant": "targets outside the voter set are not exercised by tests", "anchors": ["openraft/src/core/raft_core.rs: HandleTransferLeader", "openraft/src/engine/engine_impl.rs: elect", "openraft/src/proposer/candidate.rs: grant_by"]}
{"id": "C36", "title": "Commands are executed in order", "statement": "Commands leave the engine output in the order the engine emitted them; a command whose condition does not hold blocks the later ones and is not lost or duplicated when postponed.", "quantifier": "every sequence of emitted commands and every sequence of condition outcomes", "why_tests_cant": "unbounded queues and outcomes", "anchors": ["openraft/src/engine/engine_output.rs", "openraft/src/core/raft_core.rs: run_engine_commands"]}
{"id": "C37", "title": "The event loop serves both queues", "statement": "The budget split between API messages and notifications always gives each queue at least one slot and never exceeds the configured total.", "quantifier": "every sequence of adjustments, every total of at least 20", "why_tests_cant": "all sequences of load patterns", "anchors": ["openraft/src/core/balancer.rs"]}
{"id": "C38", "title": "Accepted configurations keep heartbeats inside election timeouts", "statement": "A configuration that passes validation has heartbeat_interval < election_timeout_min < election_timeout_max and a non-zero payload limit, and the random election timeout lies within [min, max).", "quantifier": "every configuration value", "why_tests_cant": "all u64 values", "anchors": ["openraft/src/config/config.rs: validate, new_rand_election_timeout", "openraft/src/engine/engine_config.rs"]}
{"id": "C39", "title": "Replication payload limits are respected and always make progress", "statement": "Each log replication request carries consecutive entries that start right after prev_log_id and at most the allowed number of entries, and if it is not empty it makes progress; the size hint after a too-large answer is positive and expires.", "quantifier": "every range and every hint state", "why_tests_cant": "all hint/ttl states", "anchors": ["openraft/src/replication/mod.rs: send_log_entries", "openraft/src/replication/hint.rs", "openraft/src/progress/entry/mod.rs: next_send"]}
{"id": "C40", "title": "A node out of the voter set does not disturb elections by itself", "statement": "A node that is not a voter of its effective membership never starts an election by timeout or by the elect trigger, and a candidate counts only answers of voters.", "quantifier": "every node state, time and membership", "why_tests_cant": "all membership/vote combinations", "anchors": ["openraft/src/core/raft_core.rs: handle_tick_election, handle ExternalCommand::Elect", "openraft/src/proposer/candidate.rs"]}
{"id": "C41", "title": "Installing a snapshot is crash safe", "statement": "A crash at any point while a snapshot is being installed (after the conflicting logs were deleted, before the snapshot is durable) never lets a node forget an entry that it acknowledged and that is committed.", "quantifier": "every cluster execution with any interleaving of snapshot installation, crashes, elections and membership changes", "why_tests_cant": "needs a crash between two writes to two different stores combined with a membership change and three leaders", "anchors": ["openraft/src/engine/handler/following_handler/mod.rs: install_full_snapshot 279-330 (truncate_logs before the snapshot command)"]}
{"id": "C42", "title": "Executing a queued command never aborts the node", "statement": "When run_engine_commands executes a command that the engine emitted earlier, none of the unwraps, expects and debug assertions of run_command fails, however long the command had to wait.", "quantifier": "every interleaving of engine inputs, disk and state machine completions and command execution on one node", "why_tests_cant": "needs a command that waits behind a slow disk while the role, the membership or the log of the node changes", "anchors": ["openraft/src/core/raft_core.rs: run_command, spawn_replication_stream, spawn_parallel_vote_requests, broadcast_transfer_leader", "openraft/src/engine/command.rs: condition()"]}
{"id": "C43", "title": "The log store holds what the engine believes it holds", "statement": "After the queued commands are executed, the log ids of the log store, its purged position and its vote are those of the in-memory state; at any time the store is what the engine's state was at the point of the command stream that execution has reached, and the durable part is an earlier point of it.", "quantifier": "every interleaving of engine inputs, command execution and disk completions", "why_tests_cant": "the in-memory state runs ahead of the log store by an unbounded queue of commands", "anchors": ["openraft/src/core/raft_core.rs: run_command, append_to_log", "openraft/src/engine/command.rs", "openraft/src/raft_state/mod.rs"]}
{"id": "C44", "title": "Every request is answered exactly once and in kind", "statement": "A request of another node (append, vote, snapshot) or of a client (initialize) makes the node send exactly one answer, of the kind of the request; no other input makes it send one. A vote is granted exactly if the request's vote is not smaller, the candidate's log is not behind and no lease is in force; an append request is refused exactly if the node's vote is greater, and succeeds exactly if the node has the log id before the entries.", "quantifier": "every state of a node and every request", "why_tests_cant": "the answer depends on the combination of vote, log, committed position, lease and time; tests sample a few", "anchors": ["openraft/src/engine/engine_impl.rs: handle_vote_req, handle_append_entries, handle_install_full_snapshot, initialize", "openraft/src/core/raft_core.rs: handle_vote_request, handle_append_entries_request, handle_initialize"]}
{"id": "C45", "title": "No input aborts a node", "statement": "In a release build, no message of another node, client request, notification of an own task, disk completion, state machine command or restart makes a node abort: every unwrap, expect and unreachable in the code that handles it is met.", "quantifier": "every history of a node from its first start over any number of crashes, every message its peers can send", "why_tests_cant": "the states in which an unwrap fails are combinations of membership, leadership and queued work that tests do not enumerate", "anchors": ["openraft/src/engine/engine_impl.rs", "openraft/src/engine/handler/*/mod.rs", "openraft/src/proposer/candidate.rs: grant_by", "openraft/src/progress/entry/update.rs", "openraft/src/core/raft_core.rs: handle_api_msg, handle_notification", "openraft/src/core/sm/worker.rs"]}
{"id": "C46", "title": "Memberships are only taken from messages and changes", "statement": "Every membership that a node uses as effective or committed, has in its log, in its state machine or in a snapshot was named by an event of the life of the node: an entry or snapshot of a leader, the initial cluster, or a change of the membership that was effective at that time; otherwise it is the empty membership of a new node. In particular a node whose peers only send memberships in which every voter has a node record never uses one in which a voter has none.", "quantifier": "every history of a node from its first start over any number of crashes, every message, well formed or not", "why_tests_cant": "a membership is copied between the log, the state machine, snapshots and the engine in many orders of truncation, purge, snapshot and restart", "anchors": ["openraft/src/raft_state/membership_state/mod.rs", "openraft/src/raft_state/membership_state/change_handler.rs", "openraft/src/engine/handler/following_handler/mod.rs", "openraft/src/storage/helper.rs: get_initial_state, last_membership_in_log", "openraft/src/core/sm/worker.rs"]}
{"id": "C47", "title": "One snapshot is built at a time", "statement": "At most one snapshot is being built: counting the build commands that wait, the orders that the state machine worker has not yet taken, the builders that run and the reports that are not yet handled gives at most one. The mark by which the engine refuses to start another build is set exactly while there is one, so a request to build is refused only then, and the report of a build always clears the mark.", "quantifier": "every history of a node from its first start over any number of crashes, every message", "why_tests_cant": "a build passes through four queues, in between the node can be asked again by the policy or by the user, install a snapshot, change its role or crash", "anchors": ["openraft/src/engine/handler/snapshot_handler/mod.rs: trigger_snapshot", "openraft/src/engine/engine_impl.rs: finish_building_snapshot", "openraft/src/core/sm/worker.rs: build_snapshot", "openraft/src/raft_state/io_state.rs: building_snapshot"]}
{"id": "C48", "title": "A command that waits is not kept waiting forever", "statement": "Commands of the engine are executed in order; one whose condition does not hold holds back all later ones. Whenever the first command is held back, a write, a job of the state machine or a report of one of them is under way. In an infinite run in which the node does something whenever there is something to do, however many messages arrive in between, every command that the engine emits is executed; in particular every answer is sent.", "quantifier": "every history of a node from its first start over any number of crashes, every message a peer can send, every order of writes, state machine work and reports; every infinite run from such a state", "why_tests_cant": "whether a condition can still become true depends on the order in which writes, snapshots and reports of different leaders complete; that a command is executed at all is a statement about infinite runs", "anchors": ["openraft/src/core/raft_core.rs: run_engine_commands, run_command, handle_notification", "openraft/src/engine/command.rs: Command::condition, Condition", "openraft/src/raft_state/io_state/io_progress.rs", "openraft/src/engine/handler/following_handler/mod.rs: install_full_snapshot", "openraft/src/engine/handler/log_handler/mod.rs: purge_log"]}
{"id": "C49", "title": "The self-check of the raft state does not fail", "statement": "`Engine::state` is a `Valid<RaftState>`: a debug build checks at every access that purged <= purge_upto <= snapshot <= committed <= last log id, that the list of log ids starts at the purged position, that the committed membership is not above the effective one, that flushed <= submitted <= accepted, and that recorded purged <= recorded snapshot <= recorded applied; it panics if one of them is false. In every state of a node all of them hold.", "quantifier": "every history of a node from its first start over any number of crashes, every message a peer can send, every order of writes, state machine work and reports", "why_tests_cant": "tests run in debug builds and see only the states of their own schedules; the positions are moved by the engine, the log store and the state machine worker in any order", "anchors": ["openraft/src/raft_state/mod.rs: Validate for RaftState", "openraft/src/raft_state/io_state.rs: Validate for IOState", "openraft/src/raft_state/io_state/io_progress.rs: Validate for IOProgress", "openraft/src/raft_state/membership_state/mod.rs: Validate for MembershipState", "openraft/src/engine/engine_impl.rs: Engine::state"]}
{"id": "C50", "title": "A membership change that returns Ok has been made", "statement": "`Raft::change_membership` sends its request to the leader and, if the answer is a joint config, sends the same request again. When it returns Ok, the returned membership was committed, it is not joint, its voters are exactly those the request asks for, and it has records of exactly the nodes the request asks for.", "quantifier": "every starting membership, every request, any number of calls open at the same time, failures of calls at any point, changes of the leader in between", "why_tests_cant": "the membership can change between the two requests of a call; tests make one call at a time", "anchors": ["openraft/src/raft/impl_raft_blocking_write.rs: change_membership", "openraft/src/raft_state/membership_state/change_handler.rs: apply", "openraft/src/core/raft_core.rs: change_membership"]}
{"id": "C51", "title": "The caller of a committed write is answered", "statement": "A client that waits for a write or a membership change on a node gets an answer sooner or later once the node knows that the index it waits for is committed: its own entry if that was applied, an error if the entry was replaced by another one. A client whose index is removed from the log does not wait for ever either.", "quantifier": "every infinite run of a process, fresh or restarted, in which commands, log store, state machine worker and main loop keep working, with any messages in between; every waiting caller", "why_tests_cant": "it is about infinite runs: that an answer never comes cannot be seen in a finite test, and the answer depends on the order of commands, writes, state machine work and reports", "anchors": ["openraft/src/core/raft_core.rs: run_engine_commands", "openraft/src/core/raft_core.rs: runtime_loop", "openraft/src/core/raft_core.rs: handle_apply_result", "openraft/src/core/raft_core.rs: run_command (TruncateLog)", "openraft/src/core/sm/worker.rs: worker_loop"]}
{"id": "C52", "title": "A candidate that a quorum grants leads", "statement": "A node that stands for election leads as soon as the granted answers of a majority of every config of its membership have reached it, unless it has seen a greater vote in between; every granted answer to its current vote is counted, however late, repeated or reordered; it then stores its vote as that of a leader and appends a blank entry. A voter that has no leader or whose lease on it is over, that has seen no vote as great, and whose log is not ahead says yes.", "quantifier": "every sequence of inputs of an engine, every membership (joint ones too), every order, repetition and number of answers; every state of the voter", "why_tests_cant": "tests elect leaders in clusters of three and five nodes on friendly schedules; an answer that is lost in the count shows only as a longer election", "anchors": ["openraft/src/engine/engine_impl.rs: handle_vote_resp", "openraft/src/engine/engine_impl.rs: establish_leader", "openraft/src/engine/engine_impl.rs: handle_vote_req", "openraft/src/engine/handler/establish_handler/mod.rs: establish", "openraft/src/proposer/candidate.rs: grant_by"]}
{"id": "C53", "title": "What a node reports about itself is true, and Wait tells it", "statement": "Every value a node publishes on its metrics channel stays true: term, applied entry, snapshot and purged position of the node are at least the reported ones from then on, and the reported vote is durable. The fields agree with each other: the state says whether the node leads, asks for votes, is a voter; a leader that is a voter names itself, a candidate nobody; the current leader is a voter of the reported membership; nothing is applied beyond the last log entry. Reported term, applied and purged positions do not go back. Wait returns Ok only with a published value that passes the test, ShuttingDown only when the node is gone and the last value fails it, and misses no value that stays.", "quantifier": "every life of a node over crashes, every moment of publishing, every interleaving of sends and polls, every test", "why_tests_cant": "the server state is a cached field that each handler must update; tests wait on metrics with generous timeouts and would not see a value that was wrong for a moment or a wakeup that was lost", "anchors": ["openraft/src/core/raft_core.rs: report_metrics", "openraft/src/core/raft_core.rs: current_leader", "openraft/src/core/raft_core.rs: main", "openraft/src/metrics/wait.rs: metrics", "openraft/src/metrics/metric.rs", "openraft/src/raft_state/mod.rs: calc_server_state", "openraft/src/engine/handler/server_state_handler/mod.rs: update_server_state_if_changed"]}
{"id": "C54", "title": "A leader only asks for what it has", "statement": "Every request that a leader gives to a replication task is for another member of the effective membership, is what its progress holds as in flight for that member, and can be served: either its current snapshot, when the next entry for the member is to be purged or is purged, or a non-empty range of at most max_payload_entries entries, all of them in the log, above everything that may be purged and above everything known to match, whose previous log id is in the log too. The same holds for what a restarted leader asks for at once.", "quantifier": "every life of a node over any events and crashes, every request", "why_tests_cant": "the range is cut out of the log by three positions that move independently (probing, purging, the snapshot); a request for a purged entry shows only as a storage error in the replication task of one schedule", "anchors": ["openraft/src/progress/entry/mod.rs: next_send", "openraft/src/engine/handler/replication_handler/mod.rs: initiate_replication", "openraft/src/engine/handler/replication_handler/mod.rs: send_to_target", "openraft/src/engine/handler/replication_handler/mod.rs: rebuild_replication_streams", "openraft/src/replication/request.rs"]}
{"id": "C55", "title": "The replication tasks of a leader", "statement": "A leader and its replication tasks keep in step: a running task of the session in force has at most one request with payload, counting its channel, its next action, a snapshot being sent and the commands that wait; what the leader holds as in flight for its target is never lost, but with the task, on its way to it, or reported; the events a task takes meet the debug assertions of process_event; the leader takes every report without an abort; a task of the session in force that is about to send a range finds all of its entries in the log it reads, so its read neither panics nor fails its assertion and yields consecutive entries after prev_log_id; a report of a task that was replaced changes nothing.", "quantifier": "every life of a node with its tasks over any events, answers of the targets, rebuilds of the streams and crashes", "why_tests_cant": "the request, its answer, the report and the rebuild of the streams interleave over three queues; a report that finds nothing in flight is an abort of the whole node, seen only in one schedule", "anchors": ["openraft/src/replication/mod.rs: main", "openraft/src/replication/mod.rs: process_event", "openraft/src/replication/mod.rs: send_log_entries", "openraft/src/replication/mod.rs: stream_snapshot", "openraft/src/replication/mod.rs: handle_snapshot_callback", "openraft/src/core/raft_core.rs: spawn_replication_stream", "openraft/src/core/raft_core.rs: remove_all_replication", "openraft/src/progress/inflight/mod.rs: ack"]}
{"id": "C56", "title": "Callers of a node that stops", "statement": "After the core task of a node has ended, by a storage error, a panic or a shutdown, every call on its handles returns, those that wait for an answer and those that are made later: with an answer that was given before, or with the reason for which the task ended. No call panics, none waits forever, and shutdown does not return before the task has ended.", "quantifier": "every number of concurrent calls, every interleaving of their steps with the end of the core task, every call dropped by its caller at an await", "why_tests_cant": "the first call that finds the core gone joins the task for all others; which call is first, and whether its caller drops it while it awaits the task, depends on the schedule", "anchors": ["openraft/src/raft/raft_inner.rs: call_core", "openraft/src/raft/raft_inner.rs: get_core_stopped_error", "openraft/src/raft/raft_inner.rs: join_core_task", "openraft/src/raft/core_state.rs: is_running", "openraft/src/raft/mod.rs: with_state_machine", "openraft/src/raft/mod.rs: shutdown"]}
{"id": "C57", "title": "A leader commits what a quorum has stored", "statement": "When a leader has counted a report about a node's log (of a follower, or of its own disk), every log id of its own term that a majority of every config of the effective membership is recorded to store is committed. So a leader whose followers store and acknowledge everything commits everything.", "quantifier": "every execution of a leader, any number of voters, any order of the reports, any membership", "why_tests_cant": "the granted position is found by an incremental search in a vector that is only partly sorted; whether a report starts the search depends on all reports before it; tests use three voters, where the order cannot go wrong", "anchors": ["openraft/src/progress/mod.rs: update_with", "openraft/src/progress/mod.rs: move_up", "openraft/src/engine/handler/replication_handler/mod.rs: update_matching", "openraft/src/engine/handler/replication_handler/mod.rs: try_commit_quorum_accepted", "openraft/src/engine/handler/replication_handler/mod.rs: update_local_progress"]}
{"id": "C58", "title": "A leader that a quorum keeps acknowledging reports so", "statement": "The time a leader reports as last acknowledged by a quorum is not before any time at which a majority of every config of the effective membership is recorded to have acknowledged it (the leader itself counts with the present time). So while a majority answers its heartbeats, the reported time moves on.", "quantifier": "every execution of a leader, any number of voters, any order of the answers, any moments at which the metrics are reported", "why_tests_cant": "as for C57, the search for the granted value starts or not depending on all answers before; the unit tests have three voters, where nothing can go wrong", "anchors": ["openraft/src/proposer/leader.rs: last_quorum_acked_time", "openraft/src/progress/mod.rs: increase_to, update_with, move_up", "openraft/src/engine/handler/replication_handler/mod.rs: update_leader_clock", "openraft/src/core/raft_core.rs: report_metrics"]}
{"id": "C59", "title": "A blocking add_learner returns when the learner is up to date", "statement": "When a blocking add_learner for another node returns Ok, the node has reported, with the membership of the call or a later one in effect, that it leads and that the log the learner is known to have ends at most replication_lag_threshold entries before its own. Conversely the call keeps waiting only as long as the node leads, the learner is a member, and it is further behind.", "quantifier": "every life of a node, every moment at which it reports its metrics, shuts down or the call is polled, every threshold and learner", "why_tests_cant": "the result of the wait is dropped, so what Ok means depends on what else happens while the call waits (a change of leader, a removal, a shutdown); the tests add learners to a leader that stays", "anchors": ["openraft/src/raft/impl_raft_blocking_write.rs: add_learner", "openraft/src/raft/mod.rs: check_replication_upto_date, wait", "openraft/src/core/replication_state.rs: replication_lag", "openraft/src/metrics/wait.rs: Wait::metrics"]}
{"id": "C60", "title": "Heartbeat workers send the heartbeats of their leader", "statement": "A heartbeat worker sends only heartbeats that the core broadcast in the session (leader vote and membership) for which the worker was spawned, in the order of the broadcasts and each at most once; what it reports to the core is the session and the sending time of a heartbeat that it sent, and a report of another session changes nothing.", "quantifier": "every sequence of broadcasts, rebuilds of the workers and the end of the core, every interleaving with the steps of all workers ever spawned, every answer or timeout", "why_tests_cant": "which value a worker reads depends on the scheduling between changed and borrow_watched and on what the channel held when the receiver was cloned; receivers of a wrong heartbeat drop it silently", "anchors": ["openraft/src/core/heartbeat/handle.rs: broadcast, spawn_workers, shutdown", "openraft/src/core/heartbeat/worker.rs: HeartbeatWorker::run", "openraft/src/core/raft_core.rs: RebuildReplicationStreams, BroadcastHeartbeat, HeartbeatProgress"]}
{"id": "C61", "title": "An instant in the metrics survives being written and read", "statement": "An instant that is serialised and deserialised is the same up to the time that passes between looking at the system clock and at the monotonic clock, for all instants representable in 64 bits of nanoseconds, before and after 1970; otherwise an error is returned.", "quantifier": "every instant, every pair of clocks and moments at which they are read, every range of the platform", "why_tests_cant": "the result depends on the readings of two clocks at four moments; a test sees one process with clocks nobody sets, and one instant close to now", "anchors": ["openraft/src/metrics/serde_instant.rs: serialize, visit_u64", "openraft/src/instant.rs: elapsed, saturating_duration_since"]}
{"id": "C62", "title": "Ticks are spaced, and stop when told to", "statement": "The tick loop sends ticks numbered 1, 2, 3, ... that are at least the interval apart; after enable(false) or shutdown at most the one tick follows that was already under way, and none after the returned handle is joined; the loop ends only if it is told to or the core is gone, and then within one round; an enabled loop sends a tick whenever the interval is over; only the first shutdown returns the handle.", "quantifier": "every interval, every sequence of enabling, disabling, shutdown, end of the core and passing of time, interleaved in any way with the steps of the loop", "why_tests_cant": "the single test counts ticks around one shutdown; the cases at the edge need the loop between two of its instructions", "anchors": ["openraft/src/core/tick.rs: Tick::spawn, tick_loop, TickHandle::enable, TickHandle::shutdown, drop"]}
{"id": "C63", "title": "The three metrics channels agree", "statement": "After the first report and whenever no report is under way, RaftDataMetrics and RaftServerMetrics hold the same values as RaftMetrics, of which they are a subset. Whoever has seen the metrics of a report finds, then or later, data metrics and server metrics of this report or a later one; these two channels announce only values that differ from the last.", "quantifier": "every node, every process of it from start to end, every moment between the three sends of a report at which a reader looks", "why_tests_cant": "the tests wait on RaftMetrics; a reader between two sends, and the other channels after the end of a node, are not looked at", "anchors": ["openraft/src/core/raft_core.rs: report_metrics, flush_metrics, main", "openraft/src/metrics/raft_metrics.rs: RaftDataMetrics, RaftServerMetrics", "openraft/src/raft/mod.rs: Raft::new"]}
{"id": "C64", "title": "A replication task respects its backoff and loses nothing in it", "statement": "After a target was unreachable the task of its replication begins no request before the next duration of the backoff is over; with each further failure the following duration is used, and a success ends the backoff. Without a backoff it does not wait. What was pushed to the task meanwhile is not lost: the next request is the newest data pushed, or what the last one left, or the committed log id, and it carries the newest committed log id. Once its channel is closed the task begins nothing and ends without waiting for the backoff.", "quantifier": "every iterator of backoff durations, every sequence of results of the requests, every order of pushes, passing time and close of the channel", "why_tests_cant": "the tests check that some time passes with one fixed backoff; they do not try results, pushes and the close in all orders, nor snapshots to a target that stays unreachable", "anchors": ["openraft/src/replication/mod.rs: ReplicationCore::main, drain_events_with_backoff, backoff_drain_events, drain_events, try_drain_events, process_event, stream_snapshot, handle_snapshot_callback", "openraft/src/network/backoff.rs: Backoff", "openraft/src/error/streaming_error.rs: From<StreamingError> for ReplicationError"]}
{"id": "C65", "title": "A node does not call elections before its election timeout is over", "statement": "Let the cluster have more than one voter. After a node has handled a message of a leader whose vote is not below its own, has granted its vote, has called for votes for whatever reason, or has started, no tick makes it call for votes before its election timeout is over again, lengthened by smaller_log_timeout if it has met a greater log. So the elections a node calls by ticks are more than an election timeout apart, and a node that hears a leader in time calls none. Nothing else puts the timer off, in particular no vote request that is refused and no leader that is behind: when lease and timeout are over, the next tick does call for votes.", "quantifier": "every history of a running node with its clock: any messages, notifications, commands, flushes and answers in any order between the two events, of any length", "why_tests_cant": "tests wait for a leader with one fixed timing; they do not check that nothing in between, such as a refused vote, a purge or a snapshot, moves the timer back", "anchors": ["openraft/src/core/raft_core.rs: handle_tick_election", "openraft/src/utime.rs: Leased::update, touch, is_expired", "openraft/src/engine/handler/vote_handler/mod.rs: update_vote", "openraft/src/engine/engine_impl.rs: elect, handle_vote_req", "openraft/src/storage/helper.rs: get_initial_state"]}
{"id": "C66", "title": "Errors of a network reach the replication task as what they are", "statement": "What a network of version 1 reports is acted on for what it is: an answer stays that answer and no error becomes one; a target that is unreachable, or whose Raft has stopped with a fatal error, makes the replication task back off, and nothing else does; a request that is too large stays so, with its hint; no failure of the network or of the target ends the replication or counts as a failure of this node. None of the conversions panics. A snapshot counts as sent only if the target has answered for every byte of it; once cancelled nothing more is sent.", "quantifier": "every result the network can return for append_entries, vote and install_snapshot, every sequence of answers, errors, lost answers and read failures while a snapshot is sent in chunks, every size of the snapshot and of the chunks", "why_tests_cant": "the tests use networks that return one or two kinds of errors; the combinations of nested errors and of their places within a transfer are not tried", "anchors": ["openraft/src/error/decompose.rs: decompose, decompose_infallible", "openraft/src/error/into_ok.rs: into_ok", "openraft/src/error/streaming_error.rs: From<StreamingError> for ReplicationError, From<RPCError> for StreamingError", "openraft/src/network/v2/adapt_v1.rs: append_entries, vote, full_snapshot", "openraft/src/network/snapshot_transport.rs: Chunked::send_snapshot", "openraft/src/replication/mod.rs: main, handle_snapshot_callback"]}
