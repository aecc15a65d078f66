import Verif.Runtime.Crash

/-!
# A cluster of nodes

The nodes are those of `Verif/Runtime/Model.lean`: the engine with its command queue, log store, state machine
worker and notifications. Here they are connected: what a node sends when it executes a command becomes a
message, and a node only handles messages that were sent. Messages are never removed, so they can be lost,
delayed, duplicated and reordered. A node can crash at any time, with any number of its pending writes lost, and
starts again from its disk.

Not modelled:
* chunks of snapshots (`install_snapshot`, see `Verif/Repl/Chunked.lean`): a snapshot is sent as a whole
  (`install_full_snapshot`);
* the scheduling of replication tasks: a task may send any range of the leader's log at any time;
* which node a message is addressed to: any node but the sender may handle it.

The runs are restricted as in `Verif/Cluster/Model.lean`; for what the code does without the restrictions see
`Verif/Props/NetCexProps.lean`:
* `Exact` (`exactQuorum`): a leader only commits what a quorum acknowledged;
* the premises of `Step.send` (`fenceTasks`): replication tasks send only while their leader leads and its vote is
  durable (`Step.sendSnap` and `Step.check` have the same premises);
* the last premise of `Step.change` (`ownTermGate`): a leader changes the membership only after it committed an
  entry of its own;
* `Allowed` for `electCmd` and `handleTransfer`: a node that leads is not told to start an election;
* `Lossless` (`losslessResume`): a node that resumes as a leader after a crash led before and lost nothing of its log;
* `Fits` (`Verif/Runtime/Restart.lean`): after a crash the state machine fits the log;
* `SnapFit`: a node installs a snapshot only if no entry of its log conflicts with the end of the snapshot, and, when
  the snapshot is beyond the log, no membership of the log is above the one of the snapshot.
-/

set_option autoImplicit false

namespace Openraft.Net
open Openraft.Engine Openraft.Runtime
open Openraft.Cluster (Payload)

/-- what was sent -/
inductive Pkt where
  /-- `VoteRequest`, `raft/message/vote.rs:9-15` -/
  | vote (v : Vote) (last : Option LogId)
  /-- `AppendEntriesRequest`, `raft/message/append_entries.rs:10-28` -/
  | app (v : Vote) (prev : Option LogId) (es : List Ent) (lc : Option LogId)
  /-- an answer of node `src` -/
  | answer (src : NodeId) (r : Resp)
  /-- the committed position that the replication tasks of the leader with vote `v` were told:
  `ReplicationCore::committed`, set by `spawn_replication_stream` (`core/raft_core.rs:822-826`) and by
  `Replicate::Committed` (`replication/mod.rs:637-653`) -/
  | hint (v : Vote) (c : LogId)
  /-- a snapshot with the vote of the leader that sends it, `RaftNetworkV2::full_snapshot`, called by
  `ReplicationCore::send_snapshot` (`replication/mod.rs:763-806`) -/
  | snap (v : Vote) (m : SnapMeta)
deriving DecidableEq

/-- what node `q` sends when it executes a command, `core/raft_core.rs:1670-1805`:
`spawn_parallel_vote_requests` (1058-1115), the heartbeat workers (`core/heartbeat/worker.rs:85-90`), the answers
(`engine/command.rs:120-180`), and what replication tasks are told -/
def pktsOf (q : NodeId) (n : Node) : Cmd → List Pkt
  | .sendVote v last => [.vote v last]
  | .heartbeat v _ c => [.app v none [] c]
  | .respond _ _ r => [.answer q r]
  | .replCommitted (some c) => [.hint n.disk.vote c]
  | .rebuild _ => match n.eng.leader, n.eng.st.committed with
    | some l, some c => [.hint l.vote c]
    | _, _ => []
  | _ => []

/-- what node `q` sends in a step -/
def emit (q : NodeId) (n : Node) : Ev → List Pkt
  | .run => match n.head with
    | some c => if n.ready c then pktsOf q n c else []
    | none => []
  | _ => []

/-- a cluster: its nodes, what was sent, and the record of all entries that were in a state machine -/
structure Net where
  nodes : NodeId → Node
  pkts : List Pkt
  hist : List (NodeId × Ent)

/-- the nodes of a cluster that never ran before -/
structure Start where
  cfg : NodeId → Cfg
  now : NodeId → Nat
  persist : NodeId → Bool
  ids : ∀ q, (cfg q).id = q

def Net.init (s : Start) : Net := ⟨fun q => Node.fresh (s.cfg q) (s.now q) (s.persist q), [], []⟩

/-- a leader only commits what a quorum of the voters acknowledged, by its own bookkeeping -/
def Exact (n n' : Node) : Prop :=
  ∀ l' c, n'.eng.leader = some l' → n'.eng.st.committed = some c → n'.eng.st.committed ≠ n.eng.st.committed →
    isQuorum l'.progress.vp.configs ((l'.progress.vp.vector.filter fun z => decide (some c ≤ z.2)).map (·.1)).dedup = true

/-- The snapshots that the model lets a node install, if they are newer than what it has committed. Not covered:
* the log has another id at the last position of the snapshot: the code deletes everything after the committed position
  (`engine/handler/following_handler/mod.rs:299-307`), also entries it has acknowledged to the leader, before the
  snapshot is installed;
* the snapshot is beyond the log, but the effective membership of the log is above the one of the snapshot: the engine
  keeps this membership though it drops the log (finding F12). -/
def SnapFit (e : Eng) (m : SnapMeta) : Prop :=
  ∀ x, m.lastLogId = some x → e.st.committed < some x →
    (∀ y, e.st.getLogId x.index = some y → y = x) ∧
    (e.st.getLogId x.index = none → nextIndex e.st.ms.effective.logId ≤ nextIndex m.mem.logId)

/-- the messages node `q` may handle -/
def Input.Sent (m0 : Membership) (pkts : List Pkt) (q : NodeId) (n : Node) : Input → Prop
  | .appendReq _ v prev es lc => Pkt.app v prev es lc ∈ pkts ∧ v.leaderId.node ≠ q
  | .voteReq _ v last => Pkt.vote v last ∈ pkts ∧ v.leaderId.node ≠ q
  | .snapReq _ v m => Pkt.snap v m ∈ pkts ∧ v.leaderId.node ≠ q ∧ SnapFit n.eng m
  | .init _ m => m = m0
  | .write x => ∀ m, x ≠ .membership m
  | .change _ _ => n.eng.leader ≠ none → ∃ c, n.eng.st.committed = some c ∧ c.leaderId = n.eng.st.vote.data.leaderId
  | .handleTransfer v t => n.eng.st.vote.data = v → q = t → n.eng.leader = none
  | .electCmd => n.eng.leader = none
  | .voteResp t v last gr _ => Pkt.answer t (.vote v last gr) ∈ pkts
  | .higherVote w _ => ∃ t, (∃ v u, Pkt.answer t (.append (.higherVote w) v u) ∈ pkts) ∨ Pkt.answer t (.snapshot w) ∈ pkts
  | .replProgress s t r => ∀ m, r = .matching m → Pkt.answer t (.append .success s.vote m) ∈ pkts ∨
      ∃ sm w, Pkt.snap s.vote sm ∈ pkts ∧ sm.lastLogId = m ∧ Pkt.answer t (.snapshot w) ∈ pkts ∧ w ≤ s.vote
  | _ => True

/-- the events that may happen in node `q` -/
def Allowed (m0 : Membership) (pkts : List Pkt) (q : NodeId) (n : Node) : Ev → Prop
  | .msg _ i => Input.Sent m0 pkts q n i
  | .write _ _ p => Input.Sent m0 pkts q n (.write p)
  | .change _ _ c r => Input.Sent m0 pkts q n (.change c r)
  | _ => True

/-- the node `q` is in another state and has sent something -/
def Net.put (N : Net) (q : NodeId) (n : Node) (ps : List Pkt) : Net :=
  ⟨fun i => if i = q then n else N.nodes i, ps ++ N.pkts, n.sm.hist.map (fun e => (q, e)) ++ N.hist⟩

/-- A node whose durable vote is that of an elected leader with its own id resumes as this leader when it
starts again (`Engine::startup`, `engine/engine_impl.rs:141-171`). `Lossless`: then it leads when it crashes and its
whole log is durable. Without this restriction the code violates the properties (`losslessResume` of
`Verif/Cluster/Model.lean`). -/
def Lossless (n : Node) (k : Nat) : Prop :=
  n.disk.vote.leaderId.node = n.eng.cfg.id → n.disk.vote.committed = true →
    n.eng.leader ≠ none ∧ n.eng.st.vote.data = n.disk.vote ∧ (n.crashDisk k).store.lastLogId = n.eng.st.lastLogId

/-- what can happen in a cluster -/
inductive Step (m0 : Membership) (dbg : Bool) (N : Net) : Net → Prop
  /-- an event in a node -/
  | node (q : NodeId) (ev : Ev) (n' : Node) : Allowed m0 N.pkts q (N.nodes q) ev → (N.nodes q).step dbg ev = .ok n' →
      Exact (N.nodes q) n' → Step m0 dbg N (N.put q n' (emit q (N.nodes q) ev))
  /-- a replication task reads a range of the log and sends it, `replication/mod.rs:368-438` -/
  | send (q : NodeId) (l : Leader) (prev lc : Option LogId) (k : Nat) : (N.nodes q).eng.leader = some l →
      (N.nodes q).disk.vote = l.vote →
      (∀ x, prev = some x → x ∈ (N.nodes q).rd.purged.toList ++ (N.nodes q).rd.entries.map (·.id)) →
      ((N.nodes q).rd.read (nextIndex prev) (nextIndex prev + k)).length = k →
      (∀ x, lc = some x → Pkt.hint l.vote x ∈ N.pkts) →
      Step m0 dbg N { N with pkts := .app l.vote prev ((N.nodes q).rd.read (nextIndex prev) (nextIndex prev + k)) lc :: N.pkts }
  /-- a replication task sends the current snapshot of the state machine, `replication/mod.rs:708-806` -/
  | sendSnap (q : NodeId) (l : Leader) : (N.nodes q).eng.leader = some l → (N.nodes q).disk.vote = l.vote →
      (N.nodes q).sm.snap.lastLogId ≠ none → Step m0 dbg N { N with pkts := .snap l.vote (N.nodes q).sm.snap :: N.pkts }
  /-- a leader asks node `t` whether it still accepts it, on behalf of a read, `handle_check_is_leader_request`
  (`core/raft_core.rs:325-337`): `prev` is the last log id that `t` is known to have -/
  | check (q : NodeId) (l : Leader) (t : NodeId) (prev : Option LogId) : (N.nodes q).eng.leader = some l → (N.nodes q).disk.vote = l.vote →
      (t, prev) ∈ l.progress.vp.vector →
      Step m0 dbg N { N with pkts := .app (N.nodes q).eng.st.vote.data prev [] (N.nodes q).eng.st.committed :: N.pkts }
  /-- A node crashes when the first `k` of its pending writes are durable, and starts again. `Fits`: what is left of
  the state machine fits the log. -/
  | crash (q : NodeId) (k now : Nat) (n' : Node) : Fits ((N.nodes q).crashDisk k) (N.nodes q).sm.reboot → Lossless (N.nodes q) k →
      restart dbg now (N.nodes q).eng.cfg ((N.nodes q).crashDisk k) (N.nodes q).sm = .ok n' → Step m0 dbg N (N.put q n' [])

/-- the cluster goes from one state to another -/
inductive Steps (m0 : Membership) (dbg : Bool) (N : Net) : Net → Prop
  | refl : Steps m0 dbg N N
  | step {N' N'' : Net} : Steps m0 dbg N N' → Step m0 dbg N' N'' → Steps m0 dbg N N''

/-- a state of a cluster -/
def Reach (m0 : Membership) (dbg : Bool) (N : Net) : Prop := ∃ s, Steps m0 dbg (Net.init s) N

end Openraft.Net
