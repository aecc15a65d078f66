{
 "claims": [
  {
   "property": "C08",
   "status": "proved",
   "theorems": [
    "Openraft.Props.C08_isQuorum_spec",
    "Openraft.Props.C08_quorums_intersect",
    "Openraft.Props.C08_superset",
    "Openraft.Props.C08_all_voters"
   ],
   "note": "is_quorum decides the majority-of-every-config specification; any two quorums of a membership share a voter."
  },
  {
   "property": "C09",
   "status": "proved",
   "theorems": [
    "Openraft.Props.C09_change_intersects",
    "Openraft.Props.C09_change_decision"
   ],
   "note": "Every membership computed by Membership::change shares a config with the old one, so quorums of both intersect."
  },
  {
   "property": "C10",
   "status": "proved",
   "theorems": [
    "Openraft.Props.C10_change_voters",
    "Openraft.Props.C10_change_nodes",
    "Openraft.Props.C10_change_valid",
    "Openraft.Props.C10_change_rejects",
    "Openraft.Props.C10_change_keeps_records"
   ],
   "note": ""
  },
  {
   "property": "C11",
   "status": "proved",
   "theorems": [
    "Openraft.Props.C11_two_steps"
   ],
   "note": ""
  },
  {
   "property": "C12",
   "status": "partial",
   "theorems": [
    "Openraft.Props.C12_false",
    "Openraft.Props.C12_commit_false",
    "Openraft.Props.C12_two_of_five",
    "Openraft.Props.C12_granted_exact_partial",
    "Openraft.Props.C12_three_voters_partial",
    "Openraft.Props.C12_upgrade_exact",
    "Openraft.Props.C12_commit_partial",
    "Openraft.Props.C12_session_decision"
   ],
   "note": "The full claim is false for this code: C12_false is a concrete sequence of updates after which the code grants a value only 2 of 5 voters have reached. Proved exact: sequences without overtaking, one config of at most three voters, and upgrade_quorum_set."
  },
  {
   "property": "C13",
   "status": "proved",
   "theorems": [
    "Openraft.Props.C13_vote_count_exact",
    "Openraft.Props.C13_grants_of_voters_accepted"
   ],
   "note": ""
  },
  {
   "property": "C14",
   "status": "proved",
   "theorems": [
    "Openraft.Props.C14_lookup_exact",
    "Openraft.Props.C14_by_last_leader"
   ],
   "note": "Refinement: after any valid sequence of append/extend/truncate/purge the compact list answers like the full list of log ids."
  },
  {
   "property": "C15",
   "status": "proved",
   "theorems": [
    "Openraft.Props.C15_load_exact",
    "Openraft.Props.C15_load_empty"
   ],
   "note": "The binary-search loader terminates and rebuilds the list of any log; termination is part of the definition."
  },
  {
   "property": "C16",
   "status": "proved",
   "theorems": [
    "Openraft.Props.C16_vote_cmp",
    "Openraft.Props.C16_vote_total",
    "Openraft.Props.C16_logId_total",
    "Openraft.Props.C16_committed_between",
    "Openraft.Props.C16_logId_leader_first",
    "Openraft.Props.C16_std_panics_iff",
    "Openraft.Props.C16_std_partial_order",
    "Openraft.Props.C16_std_candidates_incomparable",
    "Openraft.Props.C16_std_committed_greatest",
    "Openraft.Props.C16_std_terms",
    "Openraft.Props.C16_std_ge_refl"
   ],
   "note": ""
  },
  {
   "property": "C01",
   "status": "partial",
   "theorems": [
    "Openraft.Props.C01_one_node",
    "Openraft.Props.C01_granted_by_quorum",
    "Openraft.Props.C01_one_sequence_partial",
    "Openraft.Props.C01_net_one_node_partial",
    "Openraft.Props.C01_net_elected_partial",
    "Openraft.Props.net_node_run_partial",
    "Openraft.Props.C27_false"
   ],
   "note": "The election part is proved for all executions of the cluster model. That the entries of one leader id form one sequence is proved under Rules.Safe; without it C27_false shows it to be false."
  },
  {
   "property": "C02",
   "status": "partial",
   "theorems": [
    "Openraft.Props.C02_log_matching_partial",
    "Openraft.Props.C02_net_partial",
    "Openraft.Props.C02_net_rules_partial",
    "Openraft.Props.C02_false",
    "Openraft.Props.C02_needs_fenceTasks",
    "Openraft.Props.C02_net_needs_fenceTasks",
    "Openraft.Props.C02_net_needs_losslessResume"
   ],
   "note": "Proved for every execution restricted by Rules.Safe (five restrictions, each excludes one way in which the code breaks safety). False for the code as it is. The net theorems prove it for clusters of the real nodes (engine, queue, log store, worker), with crashes, restarts and snapshot transfer."
  },
  {
   "property": "C03",
   "status": "partial",
   "theorems": [
    "Openraft.Props.C03_leader_completeness_partial",
    "Openraft.Props.C03_net_partial",
    "Openraft.Props.C03_net_applied_partial",
    "Openraft.Props.C03_net_rules_partial",
    "Openraft.Props.C03_false",
    "Openraft.Props.C29_false",
    "Openraft.Props.C03_net_needs_exactQuorum",
    "Openraft.Props.C03_net_needs_ownTermGate",
    "Openraft.Props.C03_net_needs_snapAgrees",
    "Openraft.Props.C03_net_needs_snapMember",
    "Openraft.Props.C03_net_needs_fits"
   ],
   "note": "Proved for every execution restricted by Rules.Safe, membership changes included. False for the code as it is. The net theorems prove it for clusters of the real nodes (engine, queue, log store, worker), with crashes, restarts and snapshot transfer."
  },
  {
   "property": "C04",
   "status": "partial",
   "theorems": [
    "Openraft.Props.C04_state_machine_safety_partial",
    "Openraft.Props.C04_net_partial",
    "Openraft.Props.C04_net_snapshots_partial",
    "Openraft.Props.C04_net_same_partial",
    "Openraft.Props.C04_false",
    "Openraft.Props.C04_needs_exactQuorum",
    "Openraft.Props.C04_needs_fenceTasks",
    "Openraft.Props.C04_needs_ownTermGate",
    "Openraft.Props.C04_needs_losslessResume",
    "Openraft.Props.C04_needs_atomicSnapshot",
    "Openraft.Props.C04_net_rules_partial",
    "Openraft.Props.C04_net_needs_exactQuorum",
    "Openraft.Props.C04_net_needs_fenceTasks",
    "Openraft.Props.C04_net_needs_ownTermGate",
    "Openraft.Props.C04_net_needs_losslessResume",
    "Openraft.Props.C04_net_needs_snapAgrees",
    "Openraft.Props.C04_net_needs_snapMember",
    "Openraft.Props.C04_net_needs_fits"
   ],
   "note": "Proved for every execution restricted by Rules.Safe, and for clusters of real nodes under the eight restrictions of Net/Model (NetRules); for each of the five restrictions of Rules.Safe, and for seven of NetRules, a concrete execution shows that it cannot be dropped."
  },
  {
   "property": "C25",
   "status": "partial",
   "theorems": [
    "Openraft.Props.C25_read_sees_writes_partial",
    "Openraft.Props.C25_net_partial",
    "Openraft.Props.C25_call_partial",
    "Openraft.Props.C25_call_no_abort",
    "Openraft.Props.C25_false",
    "Openraft.Props.C25_net_false",
    "Openraft.Props.C25_call_false",
    "Openraft.Props.C25_read_position",
    "Openraft.Props.C25_restart_entry"
   ],
   "note": "Proved under Rules.Safe and keepCommitted, and for clusters of real nodes (C25_net_partial; C25_call_partial for the calls of handle_check_is_leader_request and the index comparison of ensure_linearizable) under the restrictions of Net/Model and Remembers; false for a leader that restarts and forgot its committed position."
  },
  {
   "property": "C27",
   "status": "partial",
   "theorems": [
    "Openraft.Props.C27_log_id_unique_partial",
    "Openraft.Props.C02_net_partial",
    "Openraft.Props.C27_false",
    "Openraft.Props.C02_net_needs_losslessResume"
   ],
   "note": "Proved under Rules.Safe; false for the code as it is (a leader that lost unflushed entries resumes)."
  },
  {
   "property": "C28",
   "status": "partial",
   "theorems": [
    "Openraft.Props.C28_own_entries_partial",
    "Openraft.Props.C28_net_partial",
    "Openraft.Props.C28_net_one_sequence_partial",
    "Openraft.Props.C28_false",
    "Openraft.Props.C02_net_needs_fenceTasks"
   ],
   "note": "Proved while replication tasks only send for a leader in office (fenceTasks); false for the code as it is."
  },
  {
   "property": "C29",
   "status": "partial",
   "theorems": [
    "Openraft.Props.C03_leader_completeness_partial",
    "Openraft.Props.C29_false",
    "Openraft.Props.C29_needs_ownTermGate",
    "Openraft.Props.C03_net_partial",
    "Openraft.Props.C03_net_needs_ownTermGate"
   ],
   "note": "Proved under Rules.Safe, and for clusters of real nodes under NetRules.all; false for the code as it is, also with real nodes."
  },
  {
   "property": "C41",
   "status": "partial",
   "theorems": [
    "Openraft.Props.C03_leader_completeness_partial",
    "Openraft.Props.C41_false",
    "Openraft.Props.C04_needs_atomicSnapshot",
    "Openraft.Props.C41_answer_decision",
    "Openraft.Props.C41_answer_installed",
    "Openraft.Props.C03_net_needs_snapAgrees"
   ],
   "note": "False: C41_false, with real nodes C03_net_needs_snapAgrees. Proved if no crash happens between the two writes."
  },
  {
   "property": "C18",
   "status": "partial",
   "theorems": [
    "Openraft.Props.C18_no_abort",
    "Openraft.Props.C18_no_abort_debug_partial",
    "Openraft.Props.C18_recorded_is_true",
    "Openraft.Props.C18_interval",
    "Openraft.Props.C18_terminates_partial",
    "Openraft.Props.C18_terminates_new_leader",
    "Openraft.Props.C18_stuck",
    "Openraft.Props.C18_debug_aborts"
   ],
   "note": "Asynchronous session (task, report queue, lossy network, crashing follower) and synchronous rounds. Termination is false for a target added while unreachable when all logs get purged (C18_stuck); the debug build can abort when a newer snapshot is sent (C18_debug_aborts). Proved in full for the sessions of a new leader."
  },
  {
   "property": "C37",
   "status": "proved",
   "theorems": [
    "Openraft.Props.C37_budgets",
    "Openraft.Props.C37_turn_serves_both",
    "Openraft.Props.C37_position_shrinks",
    "Openraft.Props.C37_no_starvation",
    "Openraft.Props.C37_no_overflow",
    "Openraft.Props.C37_small_total",
    "Openraft.Props.C37_share_never_recovers",
    "Openraft.Props.C37_low_share_reachable"
   ],
   "note": "For every execution of the event loop with a total of at least 10 (the code uses 10 000). Also shown: a share below 16 never grows again."
  },
  {
   "property": "C38",
   "status": "proved",
   "theorems": [
    "Openraft.Props.C38_validate_exact",
    "Openraft.Props.C38_validate_unchanged",
    "Openraft.Props.C38_rand_timeout",
    "Openraft.Props.C38_rand_timeout_all",
    "Openraft.Props.C38_timer"
   ],
   "note": "The command line parser is not modelled."
  },
  {
   "property": "C39",
   "status": "proved",
   "theorems": [
    "Openraft.Props.C39_request_shape",
    "Openraft.Props.C39_at_most_max",
    "Openraft.Props.C39_success_progress",
    "Openraft.Props.C39_hint_expires",
    "Openraft.Props.C39_terminates",
    "Openraft.Props.C39_zero_hint_livelock",
    "Openraft.Props.C39_empty_success"
   ],
   "note": "A hint of zero, which only debug builds reject, is shown to make no progress."
  },
  {
   "property": "C22",
   "status": "partial",
   "theorems": [
    "Openraft.Props.C22_receiver",
    "Openraft.Props.C22_received_as_sent_partial",
    "Openraft.Props.C22_clean_completes",
    "Openraft.Props.C22_late_chunk_corrupts",
    "Openraft.Props.C22_zero_chunk_never_completes"
   ],
   "note": "Proved when the requests of one snapshot arrive in the order they were sent, at most once (losses, retries, concurrent transfers, receiver restarts allowed). False when a late chunk overtakes: C22_late_chunk_corrupts."
  },
  {
   "property": "C31",
   "status": "proved",
   "theorems": [
    "Openraft.Props.C31_scan_exact",
    "Openraft.Props.C31_any_chunk_size",
    "Openraft.Props.C31_get_membership",
    "Openraft.Props.C31_applied_membership"
   ],
   "note": ""
  },
  {
   "property": "C05",
   "status": "proved",
   "theorems": [
    "Openraft.Props.C05_committed_forward",
    "Openraft.Props.C05_contiguous"
   ],
   "note": "For every execution of the engine model from any state that satisfies the engine invariant, as the start of a node does. Over a restart the state machine's own position is taken over (see C32)."
  },
  {
   "property": "C06",
   "status": "proved",
   "theorems": [
    "Openraft.Props.C06_disk_forward",
    "Openraft.Props.C06_memory",
    "Openraft.Props.C06_answers",
    "Openraft.Props.C06_vote_forward",
    "Openraft.Props.C06_saved_votes"
   ],
   "note": "For all messages (also ones no peer would send), all interleavings, any number of crashes; after a crash only the stored vote is assumed to be kept. On the cluster: C06_votes_grow."
  },
  {
   "property": "C17",
   "status": "proved",
   "theorems": [
    "Openraft.Props.C17_append",
    "Openraft.Props.C17_keeps_agreeing"
   ],
   "note": ""
  },
  {
   "property": "C19",
   "status": "partial",
   "theorems": [
    "Openraft.Props.C19_positions_ordered_partial",
    "Openraft.Props.C19_life_partial",
    "Openraft.Props.C19_reached_debug",
    "Openraft.Props.C19_snapshot_position_goes_back",
    "Openraft.Props.C19_purged_above_snapshot"
   ],
   "note": "Log positions proved in every state of a node's life over crashes with Fits; the positions reached in storage for debug builds. The reached snapshot position can go back; after a restart the purged position can be above the snapshot."
  },
  {
   "property": "C20",
   "status": "proved",
   "theorems": [
    "Openraft.Props.C20_purges_forward",
    "Openraft.Props.C20_purge_covered",
    "Openraft.Props.C20_not_in_flight",
    "Openraft.Props.C20_policy_keeps",
    "Openraft.Props.C20_scheduled_goes_back"
   ],
   "note": "The position scheduled for purging (not the purged one) can go back: C20_scheduled_goes_back."
  },
  {
   "property": "C21",
   "status": "partial",
   "theorems": [
    "Openraft.Props.C21_install",
    "Openraft.Props.C30_phantom",
    "Openraft.Props.C21_answer"
   ],
   "note": "Proved except where a snapshot beyond the log carries a membership older than one of the dropped log (SnapOk.beyond): there the code keeps the dropped membership, C30_phantom."
  },
  {
   "property": "C30",
   "status": "partial",
   "theorems": [
    "Openraft.Props.C30_effective_is_last_partial",
    "Openraft.Props.C30_phantom",
    "Openraft.Props.C30_committed_is_not",
    "Openraft.Props.C04_net_needs_snapMember"
   ],
   "note": "False for a snapshot beyond the log (C30_phantom; it breaks the safety of a cluster, C04_net_needs_snapMember); the committed membership need not be committed (C30_committed_is_not)."
  },
  {
   "property": "C33",
   "status": "proved",
   "theorems": [
    "Openraft.Props.C33_refused",
    "Openraft.Props.C33_accepted",
    "Openraft.Props.C33_once",
    "Openraft.Props.C33_membership_valid"
   ],
   "note": ""
  },
  {
   "property": "C40",
   "status": "proved",
   "theorems": [
    "Openraft.Props.C40_no_election",
    "Openraft.Props.C40_counted",
    "Openraft.Props.C40_only_voters",
    "Openraft.Props.C40_elected_by_quorum",
    "Openraft.Props.C40_tick_decision",
    "Openraft.Props.C40_step_down"
   ],
   "note": ""
  },
  {
   "property": "C36",
   "status": "proved",
   "theorems": [
    "Openraft.Props.C36_in_order",
    "Openraft.Props.C36_blocked",
    "Openraft.Props.C36_counter"
   ],
   "note": ""
  },
  {
   "property": "C34",
   "status": "partial",
   "theorems": [
    "Openraft.Props.C34_apply_aborts",
    "Openraft.Props.C34_calm_partial"
   ],
   "note": "False: C34_apply_aborts has an execution that aborts. Proved for all lives (over crashes, debug and release builds) in which no snapshot is installed while an apply command waits."
  },
  {
   "property": "C42",
   "status": "partial",
   "theorems": [
    "Openraft.Props.C42_rebuild_aborts",
    "Openraft.Props.C42_replicate",
    "Openraft.Props.C42_calm_partial"
   ],
   "note": "False: C42_rebuild_aborts has an execution that aborts. Replicate commands never fail (all lives, debug and release). Every command: proved for release builds and lives in which no snapshot is installed while an apply command waits and the node keeps leading and loses no member while a rebuild waits."
  },
  {
   "property": "C07",
   "status": "partial",
   "theorems": [
    "Openraft.Props.C07_append_durable",
    "Openraft.Props.C07_vote_durable",
    "Openraft.Props.C07_vote_decision",
    "Openraft.Props.C07_append_decision"
   ],
   "note": "Votes: proved without assumptions. Appends: proved for every life of a node in which each restart finds a log and a state machine that fit each other (Fits); C32_stale_tail and C32_not_cleaned show restarts where they do not."
  },
  {
   "property": "C32",
   "status": "partial",
   "theorems": [
    "Openraft.Props.C32_restart_partial",
    "Openraft.Props.C32_stale_tail",
    "Openraft.Props.C32_not_cleaned",
    "Openraft.Props.C32_hole",
    "Openraft.Props.C04_net_needs_fits"
   ],
   "note": "Proved for restarts that find a fitting log and state machine (Fits). The three counterexamples are restarts after a crash that lost a truncation, resp. that compares log ids of different leaders: the log is not cleaned, a hole remains. The hole breaks the safety of a cluster (C04_net_needs_fits)."
  },
  {
   "property": "C43",
   "status": "proved",
   "theorems": [
    "Openraft.Props.C43_store_follows",
    "Openraft.Props.C43_durable_prefix",
    "Openraft.Props.C43_in_step"
   ],
   "note": "For every life of a node in which each restart finds a fitting log and state machine (see C32)."
  },
  {
   "property": "C24",
   "status": "partial",
   "theorems": [
    "Openraft.Props.C24_refusal_counted_false",
    "Openraft.Props.C24_five_false",
    "Openraft.Props.C24_lease_of_two",
    "Openraft.Props.C24_quorum_partial",
    "Openraft.Props.C07_append_decision"
   ],
   "note": "False: the heartbeat worker counts refusals (C24_refusal_counted_false), and with five voters the reported time may be one that only the leader and one follower acknowledged, for any number of heartbeats (C24_five_false, C24_lease_of_two). Proved for every execution of a node: the reported time is one at or after which a majority of the voters answered, for one config of at most three voters (the progress tracker is wrong for more, C12_false); answers other than HigherVote, the only ones a replication stream counts, are given by nodes that took the leader's vote (C07_append_decision). Missing: the answers of the heartbeat worker, joint configs, more than three voters."
  },
  {
   "property": "C44",
   "status": "proved",
   "theorems": [
    "Openraft.Props.C44_answered_once",
    "Openraft.Props.C07_vote_decision",
    "Openraft.Props.C07_append_decision",
    "Openraft.Props.C21_answer"
   ],
   "note": "For every engine state. C07_append_decision is for requests of another node."
  },
  {
   "property": "C23",
   "status": "partial",
   "theorems": [
    "Openraft.Props.C23_promise_partial",
    "Openraft.Props.C23_extend",
    "Openraft.Props.C23_quorum_partial",
    "Openraft.Props.C23_quorum_change_partial",
    "Openraft.Props.C23_leader_grants",
    "Openraft.Props.C23_restart_forgets",
    "Openraft.Props.C23_elect_command",
    "Openraft.Props.C23_transfer"
   ],
   "note": "Proved over all timed histories of nodes without restart, for followers, with one clock, leaving out manual elections, transfers by the leader and the tick of an only voter. False for the leader itself (it does not renew its own lease), across a restart, and after a manual election or a transfer."
  },
  {
   "property": "C26",
   "status": "partial",
   "theorems": [
    "Openraft.Props.C26_own_entry_partial",
    "Openraft.Props.C26_once_partial",
    "Openraft.Props.C26_waiting_partial",
    "Openraft.Props.C26_truncated",
    "Openraft.Props.C26_never_answered",
    "Openraft.Props.C26_elect_on_leader"
   ],
   "note": "Proved for every run of a node since its last start: a caller answered with an entry asked for that payload and the entry was applied, no caller is answered twice, a truncation answers its callers with an error. False: a caller whose entry is lost to an installed snapshot is never answered; with a manual election on a leader (release build) a caller is answered with another entry. Missing: runs with a manual election on a leader."
  },
  {
   "property": "C35",
   "status": "partial",
   "theorems": [
    "Openraft.Props.C35_false",
    "Openraft.Props.C35_learner_aborts",
    "Openraft.Props.C35_learner_run",
    "Openraft.Props.C35_transfer_partial",
    "Openraft.Props.C35_target_wins_partial",
    "Openraft.Props.C35_send"
   ],
   "note": "False: a learner that is told to take over aborts on its own vote (C35_false). C35_transfer_partial describes what every other node does; C35_target_wins_partial: a target that is a voter gets the yes of every follower that was told and is not ahead, and leads with a quorum."
  },
  {
   "property": "C45",
   "status": "partial",
   "theorems": [
    "Openraft.Props.C45_no_abort_partial",
    "Openraft.Props.C45_worker",
    "Openraft.Props.C45_restart",
    "Openraft.Props.C45_calm_partial"
   ],
   "note": "Proved for every event but the execution of a queued command, and for that one too under the premises of C42_calm_partial, over all lives of a node in a release build, for messages that other nodes can send. Start-up: for a fitting log and state machine (see C32)."
  },
  {
   "property": "C46",
   "status": "proved",
   "theorems": [
    "Openraft.Props.C46_memberships",
    "Openraft.Props.C46_voters_known",
    "Openraft.Props.C46_change"
   ],
   "note": "For every life of a node over crashes, without assumptions on messages."
  },
  {
   "property": "C47",
   "status": "proved",
   "theorems": [
    "Openraft.Props.C47_one_build",
    "Openraft.Props.C47_request",
    "Openraft.Props.C47_end"
   ],
   "note": "For every life of a node over crashes, release and debug builds. A build that fails stops the node and is not modelled."
  },
  {
   "property": "C48",
   "status": "partial",
   "theorems": [
    "Openraft.Props.C48_debug",
    "Openraft.Props.C48_executed_debug",
    "Openraft.Props.C48_waits_partial",
    "Openraft.Props.C48_executed_partial",
    "Openraft.Props.C48_calm_partial",
    "Openraft.Props.C48_executed_calm_partial",
    "Openraft.Props.C48_false",
    "Openraft.Props.C48_false_forever"
   ],
   "note": "Proved for debug builds. In release builds it is false (C48_false, C48_false_forever: a node that installs a snapshot of less than it has stored never executes a command again); proved there for nodes that install no snapshot, and for all lives in which the recorded positions do not go back."
  },
  {
   "property": "C49",
   "status": "partial",
   "theorems": [
    "Openraft.Props.C49_debug",
    "Openraft.Props.C49_release_partial",
    "Openraft.Props.C49_purged_recorded",
    "Openraft.Props.C49_applied_forward",
    "Openraft.Props.C49_progress_false",
    "Openraft.Props.C49_purged_false",
    "Openraft.Props.C49_restart_false"
   ],
   "note": "Proved for debug builds, where the check is evaluated, over restarts after which the state machine fits the log; false after other restarts (C49_restart_false). In release builds all conditions but two are proved; those two are false."
  },
  {
   "property": "C50",
   "status": "partial",
   "theorems": [
    "Openraft.Props.C50_result_partial",
    "Openraft.Props.C50_alone_partial",
    "Openraft.Props.C50_last_config",
    "Openraft.Props.C50_second_taken",
    "Openraft.Props.C50_false",
    "Openraft.Props.C50_nodes_false",
    "Openraft.Props.C50_engine_takes",
    "Openraft.Props.C50_engine_change",
    "Openraft.Props.C50_engine_commit"
   ],
   "note": "False with two callers (C50_false) and for requests about nodes that find a joint config (C50_nodes_false). Proved for one call at a time, and for every call whose requests find the membership unchanged."
  },
  {
   "property": "C51",
   "status": "partial",
   "theorems": [
    "Openraft.Props.C51_debug_partial",
    "Openraft.Props.C51_calm_partial",
    "Openraft.Props.C51_removed_debug",
    "Openraft.Props.C51_false"
   ],
   "note": "False when a snapshot goes over the index (C51_false). Proved for every infinite run in which no part of the node stops working: in debug builds for indexes that no installed snapshot goes over, in all builds for processes that install no snapshot. That the main loop takes notifications again and again is a premise (C37 is about its budgets)."
  },
  {
   "property": "C52",
   "status": "proved",
   "theorems": [
    "Openraft.Props.C52_all_counted",
    "Openraft.Props.C52_not_waiting",
    "Openraft.Props.C52_last_yes",
    "Openraft.Props.C52_elected",
    "Openraft.Props.C52_voter_says_yes"
   ],
   "note": "The count and the step to the leader in release and debug builds (where a step returns); that the answers are taken without an abort in release builds. The converse (nobody leads without a quorum) is C40."
  },
  {
   "property": "C53",
   "status": "partial",
   "theorems": [
    "Openraft.Props.C53_server_state",
    "Openraft.Props.C53_report_true",
    "Openraft.Props.C53_vote_durable_partial",
    "Openraft.Props.C53_coherent",
    "Openraft.Props.C53_forward",
    "Openraft.Props.C53_shutdown",
    "Openraft.Props.C53_wait_result",
    "Openraft.Props.C53_wait_wakes",
    "Openraft.Props.C53_wait_applied",
    "Openraft.Props.C53_wait_timeout_false",
    "Openraft.Props.C53_snapshot_back"
   ],
   "note": "Missing: that the vote of `initialize`, which is never stored, is not reported before a later one is. `Wait` can time out although the condition was met before the deadline (F30); the reported snapshot can go back in release builds. The two smaller metrics channels: C63. Heartbeat times are not modelled."
  },
  {
   "property": "C54",
   "status": "partial",
   "theorems": [
    "Openraft.Props.C54_request",
    "Openraft.Props.C54_request_debug",
    "Openraft.Props.C54_restart"
   ],
   "note": "In release builds for lives in which messages meet what their senders guarantee; in debug builds for all. That what is in flight stays in the log until it is answered: C55_entries_there."
  },
  {
   "property": "C55",
   "status": "partial",
   "theorems": [
    "Openraft.Props.C55_node_lives",
    "Openraft.Props.C55_report_taken",
    "Openraft.Props.C55_event_taken",
    "Openraft.Props.C55_round_done",
    "Openraft.Props.C55_no_request_lost",
    "Openraft.Props.C55_one_request",
    "Openraft.Props.C55_entries_there",
    "Openraft.Props.C55_late_report",
    "Openraft.Props.C55_too_large_aborts",
    "Openraft.Props.C55_ousted_reads_other",
    "Openraft.Props.C55_ousted_panics",
    "Openraft.Props.C55_needs_apart"
   ],
   "note": "Release builds. Assumed: a target matches at most what it was sent, conflicts only on what it has not acknowledged, no request without entries is too large (otherwise the node aborts: C55_too_large_aborts); no rebuild of the streams is issued while another one waits (needed in the model: C55_needs_apart). A task of a leader that was ousted may read other entries or panic: C55_ousted_reads_other, C55_ousted_panics."
  },
  {
   "property": "C56",
   "status": "partial",
   "theorems": [
    "Openraft.Props.C56_reason",
    "Openraft.Props.C56_returns",
    "Openraft.Props.C56_no_panic_partial",
    "Openraft.Props.C56_shutdown_partial",
    "Openraft.Props.C56_type_partial",
    "Openraft.Props.C56_told_why_partial",
    "Openraft.Props.C56_dropped_panics",
    "Openraft.Props.C56_shutdown_early",
    "Openraft.Props.C56_wrong_type",
    "Openraft.Props.C56_false"
   ],
   "note": "False: after a call that awaits the core task was dropped (a shutdown with a timeout) later calls panic and a second shutdown returns while the core still runs; the first with_state_machine after the core ended reports a wrong type. Proved: the reason is the right one and every call returns (all runs); no panic, shutdown after the end, and the claim as stated when no such call is dropped and some call has found the core gone."
  },
  {
   "property": "C57",
   "status": "partial",
   "theorems": [
    "Openraft.Props.C57_commits_partial",
    "Openraft.Props.C57_false",
    "Openraft.Props.C57_stuck",
    "Openraft.Props.C57_halted",
    "Openraft.Props.C57_progress",
    "Openraft.Props.C57_four",
    "Openraft.Props.C57_joint"
   ],
   "note": "False with four or more voters and in joint configs: C57_false is a run of a leader of five voters in which a majority stores an entry that is not committed, C57_halted that nothing more is ever committed while only this majority reports. Proved with one config of at most three voters."
  },
  {
   "property": "C58",
   "status": "partial",
   "theorems": [
    "Openraft.Props.C58_reports_partial",
    "Openraft.Props.C58_recorded",
    "Openraft.Props.C58_self",
    "Openraft.Props.C58_false",
    "Openraft.Props.C58_stuck",
    "Openraft.Props.C58_halted"
   ],
   "note": "False with seven voters: C58_false is a run of a leader, with metrics after every input, in which a majority acknowledged time 8 and time 5 is reported; C58_halted that this stays so for ever while only this majority answers. Proved with one config of at most three voters. Missing: what holds with four to six voters and in joint configs."
  },
  {
   "property": "C59",
   "status": "partial",
   "theorems": [
    "Openraft.Props.C59_returns_partial",
    "Openraft.Props.C59_told",
    "Openraft.Props.C59_waits",
    "Openraft.Props.C59_wakes",
    "Openraft.Props.C59_false",
    "Openraft.Props.C59_removed",
    "Openraft.Props.C59_shutdown"
   ],
   "note": "False: the call returns Ok also when the leader was replaced, the learner removed or the node shut down while it waited. Proved: otherwise (unless the deadline of 100 years is over) a report of a leader said that the learner is up to date, and that report is what the learner answered (for executions of the engine); the call waits only for a member that is behind (release builds, messages that meet what their senders guarantee)."
  },
  {
   "property": "C60",
   "status": "partial",
   "theorems": [
    "Openraft.Props.C60_broadcast",
    "Openraft.Props.C60_reported",
    "Openraft.Props.C60_session_partial",
    "Openraft.Props.C60_alive",
    "Openraft.Props.C60_latest",
    "Openraft.Props.C60_ignored",
    "Openraft.Props.C60_false",
    "Openraft.Props.C60_twice",
    "Openraft.Props.C60_after_end"
   ],
   "note": "False: a new worker first sends the last heartbeat of the session before, a broadcast between changed and the read is sent twice, and after the core has ended the last heartbeat may be sent any number of times. Proved: only what was broadcast is sent and reported, in order; while the core is there at most one heartbeat of an older session and none more than twice."
  },
  {
   "property": "C61",
   "status": "partial",
   "theorems": [
    "Openraft.Props.C61_exact",
    "Openraft.Props.C61_steady_partial",
    "Openraft.Props.C61_elsewhere",
    "Openraft.Props.C61_errors",
    "Openraft.Props.C61_number",
    "Openraft.Props.C61_elapsed",
    "Openraft.Props.C61_false",
    "Openraft.Props.C61_order",
    "Openraft.Props.C61_panic"
   ],
   "note": "False if the system clock is set between writing and reading: the instant moves by as much (C61_false; C61_exact says by how much in all cases). Proved for clocks that are not set, on the same and on another machine."
  },
  {
   "property": "C62",
   "status": "proved",
   "theorems": [
    "Openraft.Props.C62_spaced",
    "Openraft.Props.C62_off",
    "Openraft.Props.C62_off_from_start",
    "Openraft.Props.C62_stopped",
    "Openraft.Props.C62_joined",
    "Openraft.Props.C62_closed",
    "Openraft.Props.C62_ends",
    "Openraft.Props.C62_next",
    "Openraft.Props.C62_handle",
    "Openraft.Props.C62_off_one",
    "Openraft.Props.C62_stopped_one"
   ],
   "note": "All interleavings of the loop with its callers. enabled is taken as one variable that all see at once."
  },
  {
   "property": "C63",
   "status": "partial",
   "theorems": [
    "Openraft.Props.C63_agree_partial",
    "Openraft.Props.C63_ended",
    "Openraft.Props.C63_order",
    "Openraft.Props.C63_ahead",
    "Openraft.Props.C63_changes",
    "Openraft.Props.C63_refines",
    "Openraft.Props.C63_false"
   ],
   "note": "False after the end of the node: the server metrics keep the state, e.g. Leader, while the metrics say Shutdown. Proved until then; what a reader finds between the sends is proved for all processes."
  },
  {
   "property": "C64",
   "status": "partial",
   "theorems": [
    "Openraft.Props.C64_waits",
    "Openraft.Props.C64_grows_partial",
    "Openraft.Props.C64_sleeps",
    "Openraft.Props.C64_wakes",
    "Openraft.Props.C64_commit",
    "Openraft.Props.C64_next",
    "Openraft.Props.C64_data",
    "Openraft.Props.C64_closed",
    "Openraft.Props.C64_quits",
    "Openraft.Props.C64_ends",
    "Openraft.Props.C64_too_large_loops",
    "Openraft.Props.C64_no_panic",
    "Openraft.Props.C64_snapshot_resets",
    "Openraft.Props.C64_snapshot_first",
    "Openraft.Props.C64_false"
   ],
   "note": "False for the answers of the target: beginning to stream a snapshot counts as a success and ends the backoff, so that undelivered snapshots are always followed by the first duration (C64_false). Proved for the results as main sees them, all interleavings."
  },
  {
   "property": "C65",
   "status": "proved",
   "theorems": [
    "Openraft.Props.C65_quiet",
    "Openraft.Props.C65_spaced",
    "Openraft.Props.C65_followed",
    "Openraft.Props.C65_restart",
    "Openraft.Props.C65_calls",
    "Openraft.Props.C65_fires",
    "Openraft.Props.C65_single",
    "Openraft.Props.C65_obsolete"
   ],
   "note": "One node with its clock, any events in between. The statement is for more than one voter; C65_single shows that with one voter elections follow at every tick (F43). Clocks do not go back (Hist.mono)."
  },
  {
   "property": "C66",
   "status": "partial",
   "theorems": [
    "Openraft.Props.C66_rpc",
    "Openraft.Props.C66_stream",
    "Openraft.Props.C66_ways",
    "Openraft.Props.C66_api",
    "Openraft.Props.C66_converts",
    "Openraft.Props.C66_chunked",
    "Openraft.Props.C66_chunked_again",
    "Openraft.Props.C66_chunked_all",
    "Openraft.Props.C66_chunked_ends",
    "Openraft.Props.C66_chunked_completes",
    "Openraft.Props.C66_callback",
    "Openraft.Props.C66_cancelled",
    "Openraft.Props.C66_false"
   ],
   "note": "False for snapshots in chunks: the sender retries every error itself, so that a target that is down is never reported and the task does not back off (C66_false, C66_chunked_again); and the conversion of RPCError to StreamingError panics for PayloadTooLarge (C66_converts). Proved for all results of append_entries and vote, and for every result of a stream."
  }
 ]
}