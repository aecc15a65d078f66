import Verif.Pure.Progress
import Mathlib.Data.List.Dedup
import Mathlib.Order.Nat
import Mathlib.Data.Nat.Basic

/-!
# A cluster of openraft nodes

State and step function of a whole cluster: nodes, the network, the replication tasks, crashes.

What a node is here. `vote` and `log` are the *durable* vote and log. The handlers of a follower are
one atomic step at the moment their writes are flushed: every answer of a follower waits for the flush
(`Condition::IOFlushed`, `engine_impl.rs:395-411`, `raft_core.rs:1619-1631`), so nothing that is not
durable is visible outside; the states in which only a part of the writes of a handler survived a crash
are events of their own (`learn`, `recvApp` with fewer entries, `cutApp`, `cutSnap`). A leader, on the
other hand, replicates entries before they are flushed (`leader_handler/mod.rs:53-96`): `buf` holds its
appended but not yet flushed entries.

Simplifications:
* the entry at position `i` of a log has index `i`; its log id is `⟨lid, i⟩`;
* a log is never shortened from the front: purging (`log_handler/mod.rs`) only removes entries that a
  snapshot covers, and the content of a snapshot is the sequence of entries it covers;
* a position is a number of entries (`next_index`) instead of an `Option<LogId>`;
* the size and timing of messages is arbitrary; answers that carry no success are reduced to the vote
  they report (`tell`);
* `elect` on a node that is still a leader (`Trigger::elect`) is excluded here, see
  `Verif/Engine` for what happens then.
-/

set_option autoImplicit false

namespace Openraft.Cluster

/-- `EntryPayload`, `entry/payload.rs:12-24` -/
inductive Payload where
  | blank
  | normal (d : Nat)
  | membership (m : Membership)
deriving DecidableEq, Repr

/-- `Entry`, `entry/mod.rs:22-30`; the index is the position in the log. -/
structure Entry where
  lid : LeaderId
  payload : Payload
deriving DecidableEq, Repr

abbrev Log := List Entry

/-- the membership an entry carries, `RaftPayload::get_membership` -/
def Entry.cfg (e : Entry) : Option Membership :=
  match e.payload with
  | .membership m => some m
  | _ => none

/-- last membership entry of a log with its position -/
def lastCfgFrom : Nat → Log → Option (Nat × Membership)
  | _, [] => none
  | i, e :: l =>
    match lastCfgFrom (i + 1) l with
    | some r => some r
    | none => e.cfg.map fun m => (i, m)

/-- The effective membership of a log is the last one in it: `MembershipState::effective`,
`raft_state/membership_state/mod.rs` (C30 shows that the code keeps it so). -/
def lastCfg (l : Log) : Option (Nat × Membership) := lastCfgFrom 0 l

/-- effective membership, the empty default if there is none -/
def effMembership (l : Log) : Membership := ((lastCfg l).map (·.2)).getD ⟨[], []⟩

/-- log id at a position, `LogIdList::get` -/
def idAt (l : Log) (i : Nat) : Option LogId := l[i]?.map fun e => ⟨e.lid, i⟩

/-- `last_log_id()` -/
def lastId (l : Log) : Option LogId := idAt l (l.length - 1)

/-- The part of `Leader` (`proposer/leader.rs:36-72`) that matters here: its id and the progress of
all nodes as numbers of matching entries. -/
structure Leader where
  lid : LeaderId
  prog : VecProgress Nat
deriving DecidableEq, Repr

/-- `Candidate`, `proposer/candidate.rs:21-43`. `granted` is the set of nodes that granted; the code
keeps it as a `VecProgress<bool>`, C13 shows that this is the same. -/
structure Cand where
  lid : LeaderId
  last : Option LogId
  configs : List (List NodeId)
  granted : List NodeId
deriving DecidableEq, Repr

/-- One node. -/
structure Node where
  /-- durable vote -/
  vote : Vote := ⟨⟨0, 0⟩, false⟩
  /-- durable log -/
  log : Log := []
  /-- entries a leader appended that are not yet flushed -/
  buf : Log := []
  leader : Option Leader := none
  cand : Option Cand := none
  /-- number of entries known to be committed -/
  committed : Nat := 0
  /-- `accepted_io.last_log_id` under the current vote, as a number of entries -/
  acc : Nat := 0
  /-- entries applied to the state machine, or covered by an installed snapshot -/
  sm : Log := []
deriving DecidableEq, Repr

/-- the log as the node's memory and its log reader see it -/
def Node.mem (nd : Node) : Log := nd.log ++ nd.buf

/-- `AppendEntriesRequest`, `raft/message/append_entries.rs:17-38`: `prev = 0` is `prev_log_id: None`,
otherwise `prev_log_id = ⟨prevLid, prev - 1⟩`; the vote is the committed vote of `lid`. -/
structure App where
  lid : LeaderId
  prev : Nat
  prevLid : LeaderId
  entries : List Entry
  commit : Nat
deriving DecidableEq, Repr

/-- Messages. The network never forgets one, so it may deliver a message late, twice or never. -/
inductive Msg where
  /-- `VoteRequest` -/
  | voteReq (lid : LeaderId) (last : Option LogId)
  /-- `VoteResponse` with `vote_granted`, from `src` -/
  | grant (src : NodeId) (lid : LeaderId)
  /-- any answer that carries the sender's vote -/
  | tell (v : Vote)
  | app (a : App)
  /-- success answer to an `AppendEntriesRequest` or snapshot -/
  | ack (src : NodeId) (lid : LeaderId) (m : Nat)
  /-- a full snapshot sent by leader `lid` -/
  | snap (lid : LeaderId) (content : Log)
deriving DecidableEq, Repr

/-- the vote that the receiver of a message may store without doing anything else -/
def Msg.vote? : Msg → Option Vote
  | .tell v => some v
  | .app a => some ⟨a.lid, true⟩
  | .snap lid _ => some ⟨lid, true⟩
  | _ => none

/-- A queued `Replicate::logs` order of a replication task, `replication/request.rs`: the log ids of the
range `(prev, hi]` were fixed when it was queued, the entries are read when it runs. -/
structure Task where
  owner : NodeId
  lid : LeaderId
  prev : Nat
  prevLid : LeaderId
  hi : Nat
  commit : Nat
deriving DecidableEq, Repr

/-- The cluster. `hist` records every content a state machine ever had. -/
structure State where
  nodes : NodeId → Node
  msgs : List Msg
  tasks : List Task
  hist : List (NodeId × Log)

/-- All nodes fresh. -/
def init : State := ⟨fun _ => {}, [], [], []⟩

/-- Restrictions under which executions are considered; with all of them `false` every execution of the
code is allowed. Each one excludes one way in which the code breaks safety. -/
structure Rules where
  /-- the value granted by `VecProgress` is only committed if a quorum really reached it (C12) -/
  exactQuorum : Bool
  /-- a replication task only sends while its leader is still in office (C28) -/
  fenceTasks : Bool
  /-- a leader proposes a membership only after it committed an entry of its own (C29) -/
  ownTermGate : Bool
  /-- a node only resumes leadership after a restart if none of its entries got lost (C27) -/
  losslessResume : Bool
  /-- no crash between the truncation and the installation of a snapshot (C41) -/
  atomicSnapshot : Bool
  /-- a node that resumes leadership after a restart still knows its committed position (C25) -/
  keepCommitted : Bool
deriving DecidableEq, Repr

def Rules.all : Rules := ⟨true, true, true, true, true, true⟩

/-- The rules that the safety of logs and state machines needs. -/
structure Rules.Safe (R : Rules) : Prop where
  exactQuorum : R.exactQuorum = true
  fenceTasks : R.fenceTasks = true
  ownTermGate : R.ownTermGate = true
  losslessResume : R.losslessResume = true
  atomicSnapshot : R.atomicSnapshot = true

theorem Rules.all_safe : Rules.all.Safe := ⟨rfl, rfl, rfl, rfl, rfl⟩

inductive Event where
  | init (n : NodeId)
  | elect (n : NodeId)
  | recvVote (n : NodeId) (lid : LeaderId) (last : Option LogId)
  | recvGrant (n q : NodeId)
  | tell (n : NodeId)
  | learn (n : NodeId) (v : Vote)
  | write (n : NodeId) (d : Nat)
  | change (n : NodeId) (ch : ChangeMembers) (retain : Bool)
  | queue (n : NodeId) (lo hi : Nat)
  | send (t : Task)
  | beat (n : NodeId)
  | recvApp (n : NodeId) (a : App) (j : Nat)
  | cutApp (n : NodeId) (a : App)
  | recvAck (n q : NodeId) (m : Nat)
  | flush (n : NodeId) (k : Nat)
  | notify (n : NodeId) (v : Nat)
  | apply (n : NodeId) (k : Nat)
  | sendSnap (n : NodeId) (k : Nat)
  | recvSnap (n : NodeId) (lid : LeaderId) (content : Log)
  | cutSnap (n : NodeId) (lid : LeaderId) (content : Log)
  | quit (n : NodeId)
  | crash (n : NodeId) (f k c : Nat) (resume : Bool)
deriving DecidableEq, Repr

/-! ## Transitions of one node -/

/-- The first entry of a cluster: `initialize` gives it `LogId::default()`, `engine_impl.rs:189-192`. -/
def initEntry (m0 : Membership) : Entry := ⟨⟨0, 0⟩, .membership m0⟩

/-- `VoteHandler::update_vote` (`vote_handler/mod.rs:101-138`) for the vote of another node that is not
smaller, with `become_following` (222-233). The vote is written after everything that was appended
before, hence `buf` is flushed. A greater vote resets the accepted IO (line 129). -/
def Node.adopt (nd : Node) (v : Vote) : Node :=
  { nd with
    vote := v
    log := nd.mem
    buf := []
    leader := none
    cand := none
    acc := if nd.vote = v then nd.acc else 0 }

/-- `Engine::elect`, `engine_impl.rs:211-230`, with `new_candidate` (115-130) -/
def Node.elect (nd : Node) (n : NodeId) : Node :=
  let lid : LeaderId := ⟨nd.vote.leaderId.term + 1, n⟩
  { nd with
    vote := ⟨lid, false⟩
    cand := some { lid := lid, last := lastId nd.mem, configs := (effMembership nd.mem).configs, granted := [] }
    acc := 0 }

/-- `handle_vote_resp` for a granted vote, `engine_impl.rs:345-352`, and `establish_leader`
(`631-659`): commit the vote and append a blank entry. -/
def Node.granted (nd : Node) (c : Cand) (q : NodeId) : Node :=
  let g := if q ∈ c.granted then c.granted else q :: c.granted
  if isQuorum c.configs g then
    { nd with
      vote := ⟨c.lid, true⟩
      leader := some ⟨c.lid, VecProgress.new c.configs (effMembership nd.log).learnerIds 0⟩
      cand := none
      buf := [⟨c.lid, .blank⟩]
      acc := 0 }
  else { nd with cand := some { c with granted := g } }

/-- `leader_append_entries` of one ordinary entry, `leader_handler/mod.rs:53-96` -/
def Node.write (nd : Node) (ld : Leader) (d : Nat) : Node :=
  { nd with buf := nd.buf ++ [⟨ld.lid, .normal d⟩] }

/-- `leader_append_entries` of a membership entry, with `append_membership` and `rebuild_progresses`,
`replication_handler/mod.rs:56-109` -/
def Node.propose (nd : Node) (ld : Leader) (m : Membership) : Node :=
  { nd with
    buf := nd.buf ++ [⟨ld.lid, .membership m⟩]
    leader := some { ld with prog := ld.prog.upgrade m.configs m.learnerIds 0 } }

/-- `has_log_id`, `raft_state/log_state_reader.rs:23-35` -/
def Node.hasId (nd : Node) (i : Nat) (lid : LeaderId) : Bool :=
  decide (i < nd.committed) || idAt nd.log i == some ⟨lid, i⟩

/-- `first_conflicting_index`, `raft_state/mod.rs:299-318`; `i` is the position of the first entry -/
def Node.firstConflict (nd : Node) : Nat → List Entry → Nat
  | _, [] => 0
  | i, e :: es => if nd.hasId i e.lid then nd.firstConflict (i + 1) es + 1 else 0

/-- The prev-log check of `ensure_log_consecutive`, `following_handler/mod.rs:114-131` -/
def Node.prevOk (nd : Node) (a : App) : Bool := a.prev == 0 || nd.hasId (a.prev - 1) a.prevLid

/-- `following_handler::append_entries`, `following_handler/mod.rs:62-109`: drop what conflicts and
append the rest. -/
def Node.merge (nd : Node) (prev : Nat) (es : List Entry) : Log :=
  let s := nd.firstConflict prev es
  if s < es.length then nd.log.take (prev + s) ++ es.drop s else nd.log

/-- `Engine::append_entries` (`engine_impl.rs:419-434`) followed by `handle_commit_entries` (438-449;
`commit_entries`, `following_handler/mod.rs:161-188`), on a node that adopted the vote. Only the first
`j` entries are taken. -/
def Node.append (nd : Node) (a : App) (j : Nat) : Node :=
  if nd.prevOk a then
    let acc := max nd.acc (a.prev + j)
    { nd with
      log := nd.merge a.prev (a.entries.take j)
      acc := acc
      committed := max nd.committed (min acc a.commit) }
  else { nd with log := nd.log.take (a.prev - 1) }

/-- The durable state if the node crashes after the truncation of `append_entries`,
`following_handler/mod.rs:85-91`. -/
def Node.cut (nd : Node) (a : App) : Node :=
  let s := nd.firstConflict a.prev a.entries
  if nd.prevOk a ∧ s < a.entries.length then { nd with log := nd.log.take (a.prev + s) } else nd

/-- `update_matching` (`replication_handler/mod.rs:149-173`) and `try_commit_quorum_accepted`
(179-205): a granted position is committed only if the entry there is of this leader. -/
def Node.progress (nd : Node) (ld : Leader) (q : NodeId) (v : Nat) : Node :=
  match ld.prog.update q v with
  | none => nd
  | some p =>
    { nd with
      leader := some { ld with prog := p }
      committed :=
        if nd.committed < p.granted ∧ (idAt nd.mem (p.granted - 1)).map (·.leaderId) = some ld.lid
        then p.granted else nd.committed }

/-- The committed log id -/
def Node.committedId (nd : Node) : Option LogId := if nd.committed = 0 then none else idAt nd.log (nd.committed - 1)

/-- `install_full_snapshot`, `following_handler/mod.rs:279-330`, on a node that adopted the vote: ignored
if it is not newer than the committed position; otherwise the log is kept if it contains the last log id
of the snapshot and else replaced. -/
def Node.install (nd : Node) (c : Log) : Node :=
  if lastId c ≤ nd.committedId then nd
  else
    { nd with
      log := if idAt nd.log (c.length - 1) = lastId c then nd.log else c
      committed := c.length
      sm := c
      acc := max nd.acc c.length }

/-- The durable state if the node crashes after the truncation in `install_full_snapshot`
(`following_handler/mod.rs:305-311`: all logs above the committed position) and before the snapshot
is installed. -/
def Node.cutSnap (nd : Node) (c : Log) : Node :=
  if lastId c ≤ nd.committedId then nd
  else if (idAt nd.log (c.length - 1)).isSome = true ∧ idAt nd.log (c.length - 1) ≠ lastId c then
    { nd with log := nd.log.take nd.committed }
  else nd

/-- Log after a restart: `get_initial_state`, `storage/helper.rs:110-122` purges up to the last applied
log id if the log is behind it. -/
def restartLog (log sm : Log) : Log := if lastId log < lastId sm then sm else log

/-- `buf` of a node that resumes leadership, `become_leader`, `vote_handler/mod.rs:186-216`: propose a
blank entry unless the log already ends with an entry of this leader. -/
def resumeBuf (log : Log) (lid : LeaderId) : Log :=
  if (lastId log).map (·.leaderId) = some lid then [] else [⟨lid, .blank⟩]

/-- Crash and restart: `f` entries of `buf` reached the disk, the state machine comes back with its
first `k` entries, the saved committed position is `c`. -/
def Node.restart (nd : Node) (f k c : Nat) (resume : Bool) : Node :=
  let sm := nd.sm.take k
  let log := restartLog (nd.log ++ nd.buf.take f) sm
  { vote := nd.vote
    log := log
    buf := if resume then resumeBuf log nd.vote.leaderId else []
    leader :=
      if resume then
        some ⟨nd.vote.leaderId,
          VecProgress.new (effMembership log).configs (effMembership log).learnerIds 0⟩
      else none
    cand := none
    committed := c
    acc := 0
    sm := sm }

/-! ## Steps of the cluster -/

/-- replace one node -/
def State.set (s : State) (n : NodeId) (nd : Node) : State :=
  { s with nodes := fun i => if i = n then nd else s.nodes i }

def State.post (s : State) (m : Msg) : State := { s with msgs := m :: s.msgs }

/-- The leader id is the one of a leader in office on node `n`. -/
def InOffice (s : State) (n : NodeId) (lid : LeaderId) : Bool :=
  match (s.nodes n).leader with
  | some ld => ld.lid == lid
  | none => false

/-- A progress update commits only what a quorum reached. -/
def ExactCommit (nd : Node) (ld : Leader) (q : NodeId) (v : Nat) : Bool :=
  match ld.prog.update q v with
  | none => true
  | some p => (nd.progress ld q v).committed == nd.committed || isQuorum p.configs (p.reached p.granted).dedup

variable (m0 : Membership) (R : Rules)

/-- May event `e` happen in state `s`? -/
def ok (s : State) : Event → Bool
  | .init n =>
    let nd := s.nodes n
    nd.mem = [] ∧ nd.vote = ⟨⟨0, 0⟩, false⟩ ∧ nd.leader = none ∧ m0.configs ≠ [] ∧ m0.contains n
  | .elect n =>
    let nd := s.nodes n
    nd.leader = none ∧ (effMembership nd.mem).isVoter n
  | .recvVote n lid last =>
    let nd := s.nodes n
    Msg.voteReq lid last ∈ s.msgs ∧ lid.node ≠ n ∧ nd.vote ≤ ⟨lid, false⟩ ∧ lastId nd.mem ≤ last
  | .recvGrant n q =>
    match (s.nodes n).cand with
    | some c => Msg.grant q c.lid ∈ s.msgs
    | none => false
  | .tell _ => true
  | .learn n v =>
    s.msgs.any (fun m => m.vote? == some v) ∧ v.leaderId.node ≠ n ∧ (s.nodes n).vote < v
  | .write n _ => (s.nodes n).leader.isSome
  | .change n ch retain =>
    let nd := s.nodes n
    match nd.leader, lastCfg nd.mem, (effMembership nd.mem).change ch retain with
    | some ld, some (k, _), .ok _ =>
      k < nd.committed ∧
        (R.ownTermGate = true → (idAt nd.mem (nd.committed - 1)).map (·.leaderId) = some ld.lid)
    | _, _, _ => false
  | .queue n lo hi =>
    let nd := s.nodes n
    nd.leader.isSome ∧ lo ≤ hi ∧ hi ≤ nd.mem.length
  | .send t => t ∈ s.tasks ∧ (R.fenceTasks = true → InOffice s t.owner t.lid)
  | .beat n => (s.nodes n).leader.isSome
  | .recvApp n a j =>
    Msg.app a ∈ s.msgs ∧ a.lid.node ≠ n ∧ (s.nodes n).vote ≤ ⟨a.lid, true⟩ ∧ j ≤ a.entries.length
  | .cutApp n a => Msg.app a ∈ s.msgs ∧ a.lid.node ≠ n ∧ (s.nodes n).vote ≤ ⟨a.lid, true⟩
  | .recvAck n q m =>
    match (s.nodes n).leader with
    | some ld => Msg.ack q ld.lid m ∈ s.msgs ∧ (R.exactQuorum = true → ExactCommit (s.nodes n) ld q m)
    | none => false
  | .flush n k => (s.nodes n).leader.isSome ∧ k ≤ (s.nodes n).buf.length
  | .notify n v =>
    match (s.nodes n).leader with
    | some ld =>
      v ≤ (s.nodes n).log.length ∧ (ld.prog.get? n).any (fun w => decide (w < v)) = true ∧
        (R.exactQuorum = true → ExactCommit (s.nodes n) ld n v)
    | none => false
  | .apply n k => (s.nodes n).sm.length ≤ k ∧ k ≤ (s.nodes n).committed
  | .sendSnap n k => (s.nodes n).leader.isSome ∧ k ≤ (s.nodes n).sm.length
  | .recvSnap n lid c => Msg.snap lid c ∈ s.msgs ∧ lid.node ≠ n ∧ (s.nodes n).vote ≤ ⟨lid, true⟩
  | .cutSnap n lid c =>
    R.atomicSnapshot = false ∧ Msg.snap lid c ∈ s.msgs ∧ lid.node ≠ n ∧ (s.nodes n).vote ≤ ⟨lid, true⟩
  | .quit n => (s.nodes n).leader.isSome
  | .crash n f k c resume =>
    let nd := s.nodes n
    let nd' := nd.restart f k c resume
    f ≤ nd.buf.length ∧ k ≤ nd.sm.length ∧ k ≤ c ∧ c ≤ nd.committed ∧ c ≤ nd'.log.length ∧
      (resume = true → nd.vote.committed = true ∧ nd.vote.leaderId.node = n ∧
        (R.losslessResume = true → nd.leader.isSome ∧ nd'.mem = nd.mem) ∧
        (R.keepCommitted = true → c = nd.committed))

/-- The state after event `e`. -/
def next (s : State) : Event → State
  | .init n => s.set n { s.nodes n with log := [initEntry m0] }
  | .elect n =>
    let nd := (s.nodes n).elect n
    ((s.set n nd).post (.voteReq nd.vote.leaderId (lastId nd.mem))).post (.grant n nd.vote.leaderId)
  | .recvVote n lid _ => (s.set n ((s.nodes n).adopt ⟨lid, false⟩)).post (.grant n lid)
  | .recvGrant n q =>
    match (s.nodes n).cand with
    | some c => s.set n ((s.nodes n).granted c q)
    | none => s
  | .tell n => s.post (.tell (s.nodes n).vote)
  | .learn n v => s.set n ((s.nodes n).adopt v)
  | .write n d =>
    match (s.nodes n).leader with
    | some ld => s.set n ((s.nodes n).write ld d)
    | none => s
  | .change n ch retain =>
    match (s.nodes n).leader, (effMembership (s.nodes n).mem).change ch retain with
    | some ld, .ok m => s.set n ((s.nodes n).propose ld m)
    | _, _ => s
  | .queue n lo hi =>
    match (s.nodes n).leader with
    | some ld =>
      let nd := s.nodes n
      { s with tasks := ⟨n, ld.lid, lo, ((idAt nd.mem (lo - 1)).map (·.leaderId)).getD ⟨0, 0⟩, hi, nd.committed⟩ :: s.tasks }
    | none => s
  | .send t => s.post (.app ⟨t.lid, t.prev, t.prevLid, ((s.nodes t.owner).mem.take t.hi).drop t.prev, t.commit⟩)
  | .beat n =>
    match (s.nodes n).leader with
    | some ld => s.post (.app ⟨ld.lid, 0, ⟨0, 0⟩, [], (s.nodes n).committed⟩)
    | none => s
  | .recvApp n a j =>
    let nd := (s.nodes n).adopt ⟨a.lid, true⟩
    let s' := s.set n (nd.append a j)
    if nd.prevOk a then s'.post (.ack n a.lid (a.prev + j)) else s'
  | .cutApp n a => s.set n (((s.nodes n).adopt ⟨a.lid, true⟩).cut a)
  | .recvAck n q m =>
    match (s.nodes n).leader with
    | some ld => s.set n ((s.nodes n).progress ld q m)
    | none => s
  | .flush n k =>
    let nd := s.nodes n
    s.set n { nd with log := nd.log ++ nd.buf.take k, buf := nd.buf.drop k }
  | .notify n v =>
    match (s.nodes n).leader with
    | some ld => s.set n ((s.nodes n).progress ld n v)
    | none => s
  | .apply n k =>
    let nd := s.nodes n
    let sm := nd.sm ++ (nd.mem.take k).drop nd.sm.length
    { s.set n { nd with sm := sm } with hist := (n, sm) :: s.hist }
  | .sendSnap n k =>
    match (s.nodes n).leader with
    | some ld => s.post (.snap ld.lid ((s.nodes n).sm.take k))
    | none => s
  | .recvSnap n lid c =>
    let nd := ((s.nodes n).adopt ⟨lid, true⟩).install c
    { (s.set n nd).post (.ack n lid c.length) with hist := (n, nd.sm) :: s.hist }
  | .cutSnap n lid c => s.set n (((s.nodes n).adopt ⟨lid, true⟩).cutSnap c)
  | .quit n =>
    let nd := s.nodes n
    s.set n { nd with log := nd.mem, buf := [], leader := none, acc := 0 }
  | .crash n f k c resume =>
    { s.set n ((s.nodes n).restart f k c resume) with tasks := s.tasks.filter fun t => t.owner ≠ n }

/-- Run a list of events, `none` if one of them may not happen. -/
def run (s : State) : List Event → Option State
  | [] => some s
  | e :: es => if ok m0 R s e then run (next m0 s e) es else none

/-- States of executions from the initial state. -/
inductive Reachable : State → Prop
  | init : Reachable init
  | step {s : State} (e : Event) : Reachable s → ok m0 R s e = true → Reachable (next m0 s e)

theorem reachable_run {s s' : State} {es : List Event} (h : Reachable m0 R s) (hr : run m0 R s es = some s') :
    Reachable m0 R s' := by
  induction es generalizing s with
  | nil => simp only [run, Option.some.injEq] at hr; exact hr ▸ h
  | cons e es ih =>
    simp only [run] at hr
    split at hr
    · rename_i hok; exact ih (h.step e hok) hr
    · cases hr

end Openraft.Cluster
