import Verif.Net.Rules

/-!
# Executions of clusters of real nodes that break safety

Each script is an execution in which one of the restrictions of `Verif/Net/Model.lean` is dropped.
-/

set_option autoImplicit false

namespace Openraft.Net
open Openraft.Engine Openraft.Runtime
open Openraft.Cluster (Payload)

namespace Play
open Openraft.Engine.Demo (lid m3)

/-- what happens, given the state reached -/
abbrev Script := List (XNet → List XEv)

/-- node `q` does all it can without messages -/
def work (q : NodeId) (now k : Nat) : List XEv :=
  (List.replicate k [.node q .run, .node q .flush, .node q (.note now), .node q .sm]).flatten

/-- node `q` handles a message and does all it can -/
def tell (q : NodeId) (now : Nat) (i : Input) (k : Nat := 7) : Script :=
  [fun _ => .node q (.msg now i) :: work q now k]

/-- the latest vote request -/
def lastVote : List Pkt → Option (Vote × Option LogId)
  | [] => none
  | .vote v last :: _ => some (v, last)
  | _ :: ps => lastVote ps

/-- the latest `AppendEntries` request -/
def lastApp : List Pkt → Option (Vote × Option LogId × List Ent × Option LogId)
  | [] => none
  | .app v prev es lc :: _ => some (v, prev, es, lc)
  | _ :: ps => lastApp ps

/-- the latest snapshot -/
def lastSnap : List Pkt → Option (Vote × SnapMeta)
  | [] => none
  | .snap v m :: _ => some (v, m)
  | _ :: ps => lastSnap ps

/-- the latest answer of node `t` -/
def lastAnswer (t : NodeId) : List Pkt → Option Resp
  | [] => none
  | .answer s r :: ps => if s = t then some r else lastAnswer t ps
  | _ :: ps => lastAnswer t ps

/-- node `t` handles the latest vote request, candidate `q` its answer -/
def ask (q t : NodeId) (now : Nat) : Script :=
  [fun X => match lastVote X.net.pkts with
    | some (v, last) => .node t (.msg now (.voteReq 0 v last)) :: work t now 4
    | none => [],
   fun X => match lastVote X.net.pkts, lastAnswer t X.net.pkts with
    | some (v, _), some (.vote v' last gr) => .node q (.msg now (.voteResp t v' last gr v)) :: work q now 8
    | _, _ => []]

/-- node `q` is elected by the nodes `ts` -/
def elect (q : NodeId) (ts : List NodeId) (now : Nat) : Script :=
  [fun _ => .node q (.msg now .electCmd) :: work q now 6] ++ ts.flatMap fun t => ask q t now

/-- a client writes -/
def write (q : NodeId) (now d : Nat) : Script := [fun _ => .node q (.write now d (.normal d)) :: work q now 6]

/-- a client changes the voters -/
def voters (q : NodeId) (now : Nat) (ids : List NodeId) : Script :=
  [fun _ => .node q (.change now 0 (.replaceAllVoters ids) true) :: work q now 8]

/-- a task of node `q` sends `k` entries with the vote of the leader, node `t` handles them -/
def send (q t : NodeId) (now : Nat) (prev lc : Option LogId) (k : Nat) : Script :=
  [fun X => match (X.net.nodes q).eng.leader with
    | some l => [.send q l.vote prev lc k]
    | none => [],
   fun X => match lastApp X.net.pkts with
    | some (v, prev, es, lc) => .node t (.msg now (.appendReq 0 v prev es lc)) :: work t now 6
    | none => []]

/-- the leader `q` is told what `t` has -/
def ack (q t : NodeId) (now : Nat) : Script :=
  [fun X => match (X.net.nodes q).eng.leader, lastAnswer t X.net.pkts with
    | some l, some (.append .success _ m) =>
      .node q (.msg now (.replProgress ⟨l.vote, (X.net.nodes q).eng.st.ms.effective.logId⟩ t (.matching m))) :: work q now 8
    | _, _ => []]

/-- as `work`, but no write becomes durable -/
def rush (q : NodeId) (now k : Nat) : List XEv :=
  (List.replicate k [.node q .run, .node q (.note now), .node q .sm]).flatten

/-- as `ack`, but no write becomes durable -/
def ackRush (q t : NodeId) (now : Nat) : Script :=
  [fun X => match (X.net.nodes q).eng.leader, lastAnswer t X.net.pkts with
    | some l, some (.append .success _ m) =>
      .node q (.msg now (.replProgress ⟨l.vote, (X.net.nodes q).eng.st.ms.effective.logId⟩ t (.matching m))) :: rush q now 8 ++ (.node q (.msg now .initiate) :: rush q now 6)
    | _, _ => []]

/-- as `write`, but no write becomes durable -/
def writeRush (q : NodeId) (now d : Nat) : Script := [fun _ => .node q (.write now d (.normal d)) :: rush q now 6]

/-- leader `q` gives its replication tasks something to do, `Leader::initiate_replication` -/
def kick (q : NodeId) (now : Nat) : Script := [fun _ => .node q (.msg now .initiate) :: work q now 6]

/-- entries are sent and acknowledged -/
def repl (q t : NodeId) (now : Nat) (prev lc : Option LogId) (k : Nat) : Script := send q t now prev lc k ++ ack q t now

/-- node `t` refuses a request of leader `q`, which learns of a higher vote -/
def refuse (q t : NodeId) (now : Nat) (prev : Option LogId) : Script :=
  send q t now prev none 0 ++
  [fun X => match (X.net.nodes q).eng.leader, lastAnswer t X.net.pkts with
    | some l, some (.append (.higherVote w) _ _) => .node q (.msg now (.higherVote w l.vote)) :: work q now 6
    | _, _ => []]

/-- leader `q` builds a snapshot and sends it to node `t` -/
def snap (q t : NodeId) (now : Nat) : Script :=
  [fun _ => [.node q (.msg now .snapshotCmd)] ++ work q now 4 ++ [.node q (.build 0)] ++ work q now 2,
   fun X => match (X.net.nodes q).eng.leader with
    | some l => [.sendSnap q l.vote]
    | none => [],
   fun X => match lastSnap X.net.pkts with
    | some (v, m) => .node t (.msg now (.snapReq 0 v m)) :: work t now 8
    | none => []]

/-- nodes that never ran -/
def start : Start := ⟨fun q => ⟨q, some 100, 1, 1, 300, 10, 10, 5⟩, fun _ => 0, fun _ => false, fun _ => rfl⟩
/-- the cluster at the start -/
def fresh : XNet := ⟨Net.init start, fun _ => none⟩

/-- two state machines were given different entries for one index -/
def clash (X : XNet) : Bool := X.net.hist.any fun x => X.net.hist.any fun y => decide (x.2.id.index = y.2.id.index) && decide (x.2 ≠ y.2)

theorem clash_spec {X : XNet} (h : clash X = true) : ∃ x ∈ X.net.hist, ∃ y ∈ X.net.hist, x.2.id.index = y.2.id.index ∧ x.2 ≠ y.2 := by
  obtain ⟨x, hx, h⟩ := List.any_eq_true.1 h
  obtain ⟨y, hy, h⟩ := List.any_eq_true.1 h
  simp only [Bool.and_eq_true, decide_eq_true_eq] at h
  exact ⟨x, hx, y, hy, h⟩

/-- voters 1 to 5 -/
def m5 : Membership := ⟨[[1, 2, 3, 4, 5]], [(1, 0), (2, 0), (3, 0), (4, 0), (5, 0)]⟩

/-- Nodes 2 and 3 acknowledge, node 3 overtakes node 2, then the writes of leader 1 itself become durable: it takes index 5 for
committed, which only 1 and 3 of five have, and applies it. Node 2 is elected without it and fills index 5 itself. -/
def cexQuorum : Script :=
  tell 1 10 (.init 0 m5) 8 ++ ask 1 2 20 ++ ask 1 3 21 ++ repl 1 2 30 none none 2 ++ repl 1 3 31 none none 2 ++
  writeRush 1 41 2 ++ writeRush 1 42 3 ++ writeRush 1 43 4 ++ writeRush 1 44 5 ++ writeRush 1 45 6 ++
  send 1 2 50 (some (lid 1 1 1)) none 1 ++ ackRush 1 2 50 ++ send 1 3 51 (some (lid 1 1 1)) none 1 ++ ackRush 1 3 51 ++
  send 1 2 52 (some (lid 1 1 2)) none 2 ++ ackRush 1 2 52 ++ send 1 3 53 (some (lid 1 1 2)) none 1 ++ ackRush 1 3 53 ++
  send 1 3 54 (some (lid 1 1 3)) none 2 ++ ackRush 1 3 54 ++ [fun _ => work 1 60 14] ++
  elect 2 [4, 5] 100 ++ repl 2 4 110 none none 2 ++ repl 2 4 111 (some (lid 1 1 1)) none 4 ++ repl 2 5 112 none none 2 ++ repl 2 5 113 (some (lid 1 1 1)) none 4

/-- A replication task of leader 1 was told to send the entry at index 3 to node 3. Node 1 follows leader 2 and has its
entries now; the task reads the entry of leader 2 and sends it in the name of leader 1. Node 3 has the entry of leader
2 after entries of leader 1; when leader 2 says that its entry is committed, node 3 applies them. -/
def cexFence : Script :=
  tell 1 10 (.init 0 m5) 8 ++ ask 1 2 20 ++ ask 1 3 21 ++ repl 1 3 31 none none 2 ++ repl 1 2 31 none none 1 ++
  write 1 41 7 ++ repl 1 3 42 (some (lid 1 1 1)) none 1 ++ write 1 43 9 ++
  elect 2 [4, 5] 100 ++ write 2 110 21 ++ write 2 111 22 ++
  send 2 1 120 (some (lid 0 0 0)) none 3 ++
  [fun _ => [.send 1 ⟨⟨1, 1⟩, true⟩ (some (lid 1 1 2)) none 1]] ++
  [fun X => match lastApp X.net.pkts with
    | some (v, prev, es, lc) => .node 3 (.msg 130 (.appendReq 0 v prev es lc)) :: work 3 130 6
    | none => []] ++
  repl 2 4 140 none none 2 ++ kick 2 140 ++ repl 2 4 141 (some (lid 2 2 1)) none 2 ++ repl 2 5 142 none none 2 ++ kick 2 142 ++ repl 2 5 143 (some (lid 2 2 1)) none 2 ++
  send 2 3 150 (some (lid 2 2 3)) (some (lid 2 2 3)) 0

/-- voters 1, 3, 4; learner 2 -/
def m134 : Membership := ⟨[[1, 3, 4]], [(1, 0), (2, 0), (3, 0), (4, 0)]⟩

/-- Leader 1 commits the joint config of `{1, 3, 4}` and `{2}` and proposes to go back, only it knows. Leader 2 proposes
`{2}` before it has committed an entry of its own, and commits alone. Leader 1 comes back with its own config. -/
def cexGate : Script :=
  tell 1 10 (.init 0 m134) 8 ++ ask 1 3 20 ++ repl 1 3 31 none none 2 ++ voters 1 40 [2] ++
  repl 1 2 41 none none 3 ++ repl 1 3 42 (some (lid 1 1 1)) none 1 ++ repl 1 4 43 none none 3 ++ send 1 2 44 (some (lid 1 1 2)) (some (lid 1 1 2)) 0 ++
  voters 1 50 [1, 3, 4] ++
  elect 2 [3, 4] 100 ++ voters 2 110 [2] ++
  send 1 3 120 (some (lid 1 1 2)) none 1 ++
  [fun X => match lastAnswer 3 X.net.pkts with
    | some (.append (.higherVote w) _ _) => .node 1 (.msg 121 (.higherVote w ⟨⟨1, 1⟩, true⟩)) :: work 1 121 6
    | _ => []] ++
  elect 1 [3] 200 ++ repl 1 3 210 (some (lid 1 1 2)) none 2

/-- Leader 1 commits and applies an entry that nodes 2 and 3 have, before it is durable in its own log. It crashes, resumes
as the leader and gives the same log id to another entry. -/
def cexResume : Script :=
  tell 1 10 (.init 0 m3) 8 ++ ask 1 2 20 ++ repl 1 2 30 none none 2 ++ repl 1 3 40 none none 2 ++
  writeRush 1 50 7 ++ send 1 2 60 (some (lid 1 1 1)) none 1 ++ ackRush 1 2 61 ++ send 1 3 70 (some (lid 1 1 1)) none 1 ++ ackRush 1 3 71 ++
  [fun _ => .crash 1 0 100 :: work 1 100 6] ++ repl 1 2 105 (some (lid 1 1 1)) none 0 ++ write 1 110 8 ++ repl 1 2 120 (some (lid 1 1 1)) none 1

/-- voters 1, 2, 3; learners 4, 5, 6 -/
def m123 : Membership := ⟨[[1, 2, 3]], [(1, 0), (2, 0), (3, 0), (4, 0), (5, 0), (6, 0)]⟩

/-- Leader 2 commits the joint config of `{1, 2, 3}` and `{4, 5, 6}` without 3 and proposes `{4, 5, 6}`, which reaches only 4.
Node 1 is elected under the joint config and writes two entries. Node 4 is elected under `{4, 5, 6}`, commits and sends a
snapshot to 1, which conflicts with the last entry of 1. Node 1 truncates its log and crashes before the snapshot is
installed. Node 3, which never saw the joint config, is elected by the old config. -/
def cexSnapshot : Script :=
  tell 2 10 (.init 0 m123) 8 ++ ask 2 1 20 ++ repl 2 1 31 none none 2 ++ repl 2 3 32 none none 2 ++ send 2 1 33 (some (lid 1 2 1)) (some (lid 1 2 1)) 0 ++ voters 2 40 [4, 5, 6] ++
  repl 2 1 41 (some (lid 1 2 1)) none 1 ++ repl 2 4 42 none none 3 ++ repl 2 5 43 none none 3 ++ repl 2 6 44 none none 3 ++
  voters 2 50 [4, 5, 6] ++ repl 2 4 51 (some (lid 1 2 2)) none 1 ++
  elect 1 [3, 5, 6] 100 ++ write 1 110 7 ++
  elect 4 [5] 200 ++ repl 4 5 210 (some (lid 1 2 2)) none 2 ++
  ([fun _ => [.node 4 (.msg 220 .snapshotCmd)] ++ work 4 220 4 ++ [.node 4 (.build 0)] ++ work 4 220 2,
   fun X => match (X.net.nodes 4).eng.leader with
    | some l => [.sendSnap 4 l.vote]
    | none => [],
   fun X => match lastSnap X.net.pkts with
    | some (v, m) => [.node 1 (.msg 230 (.snapReq 0 v m)), .node 1 .run, .node 1 .run, .node 1 .run, .node 1 .flush, .node 1 .flush, .crash 1 0 240]
    | none => []] : Script) ++
  elect 3 [1] 300 ++ repl 3 1 310 none none 3

/-- voter 1; learners 2, 3, 4 -/
def m1 : Membership := ⟨[[1]], [(1, 0), (2, 0), (3, 0), (4, 0)]⟩

/-- Leader 1 commits the joint config of `{1}` and `{1, 2, 3}`. Leader 2 proposes `{1, 2, 3}` (index 6), which nobody else gets.
Leader 1 is elected again, commits the joint config of `{1, 2, 3}` and `{4}` (index 5) and two entries (6 and 7), and sends a
snapshot of all this to node 2. Node 2 drops its log for the snapshot, but keeps the config `{1, 2, 3}` of the entry it
dropped. Leader 1 proposes `{4}`, which 4 commits alone, and applies it. Node 2 is elected by node 3 alone under its
config, and fills the same index. -/
def cexPhantom : Script :=
  tell 1 10 (.init 0 m1) 16 ++ voters 1 20 [1, 2, 3] ++ repl 1 2 30 none none 3 ++
  elect 2 [1] 100 ++ repl 2 1 110 (some (lid 1 1 2)) none 1 ++ write 2 120 7 ++ write 2 121 8 ++ voters 2 122 [1, 2, 3] ++
  elect 1 [3] 200 ++ repl 1 3 210 none none 5 ++ voters 1 220 [4] ++ repl 1 3 230 (some (lid 3 1 4)) none 1 ++ repl 1 4 231 none none 6 ++
  write 1 240 9 ++ repl 1 3 241 (some (lid 3 1 5)) none 1 ++ repl 1 4 242 (some (lid 3 1 5)) none 1 ++
  write 1 243 10 ++ repl 1 3 244 (some (lid 3 1 6)) none 1 ++ repl 1 4 245 (some (lid 3 1 6)) none 1 ++
  snap 1 2 250 ++
  voters 1 260 [4] ++ repl 1 4 261 (some (lid 3 1 7)) none 1 ++
  elect 2 [3] 300 ++ repl 2 3 310 (some (lid 3 1 7)) none 1

/-- Node 3 has an entry of its own at index 2 (term 2) that nobody else got. Leader 1 commits entries of term 1 up to index 4,
and one of term 3. Node 2 applied the entries up to index 4 and built a snapshot; as the next leader it sends it to node
3, which crashes after the snapshot is installed and before its log is purged. At the restart the last log id, of term
2, is not smaller than the applied one, of term 1: the log stays, and what leader 2 sends comes after a hole. Node 3
is elected and sends its entry at index 2 to node 5, which takes it for committed. (Release build.) -/
def cexFits : Script :=
  tell 1 10 (.init 0 m5) 8 ++ ask 1 2 20 ++ ask 1 4 21 ++ write 1 30 2 ++ write 1 31 3 ++ write 1 32 4 ++
  send 1 3 40 none none 2 ++
  elect 3 [4, 5] 100 ++
  refuse 1 4 110 (some (lid 1 1 1)) ++
  elect 1 [4, 5] 200 ++ repl 1 4 210 none none 5 ++ kick 1 210 ++ repl 1 4 211 (some (lid 1 1 4)) none 1 ++
  repl 1 5 212 none none 5 ++ kick 1 212 ++ repl 1 5 213 (some (lid 1 1 4)) none 1 ++
  send 1 2 220 none (some (lid 3 1 5)) 5 ++
  ([fun _ => work 2 229 4 ++ [.node 2 (.msg 230 .snapshotCmd)] ++ work 2 230 4 ++ [.node 2 (.build 0)] ++ work 2 230 2] : Script) ++
  send 1 2 240 (some (lid 1 1 4)) none 1 ++
  elect 2 [4, 5] 300 ++
  ([fun X => match (X.net.nodes 2).eng.leader with
    | some l => [.sendSnap 2 l.vote]
    | none => [],
   fun X => match lastSnap X.net.pkts with
    | some (v, m) => [.node 3 (.msg 310 (.snapReq 0 v m)), .node 3 .run, .node 3 .run, .node 3 .run, .node 3 .sm, .crash 3 0 320] ++ work 3 320 6
    | none => []] : Script) ++
  repl 2 4 331 (some (lid 1 1 4)) none 2 ++
  send 2 3 340 (some (lid 1 1 4)) none 2 ++ repl 2 5 352 (some (lid 1 1 4)) none 2 ++
  send 2 3 360 (some (lid 4 2 6)) (some (lid 4 2 6)) 0 ++
  elect 3 [4, 5] 400 ++ send 3 5 410 (some (lid 1 1 1)) (some (lid 4 2 6)) 1 ++
  [fun _ => work 5 420 4]

end Play
end Openraft.Net
