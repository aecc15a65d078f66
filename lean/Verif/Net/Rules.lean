import Verif.Net.Demo

/-!
# The cluster of real nodes without its restrictions

`Verif/Net/Model.lean` restricts the executions. Here each restriction can be switched off, to show what the code does
then. With all of them on, the executions are those of `Verif/Net/Model.lean` (`XStep.toStep`, `XStep.ofStep`).
-/

set_option autoImplicit false

namespace Openraft.Net
open Openraft.Engine Openraft.Runtime
open Openraft.Cluster (Payload)

/-- the restrictions of `Verif/Net/Model.lean` -/
structure NetRules where
  /-- `Exact` -/
  exactQuorum : Bool
  /-- replication tasks send only while their leader leads and its vote is durable -/
  fenceTasks : Bool
  /-- a leader changes the membership only after it committed an entry of its own -/
  ownTermGate : Bool
  /-- a node that leads is not told to start an election -/
  quietLeader : Bool
  /-- `Lossless` -/
  losslessResume : Bool
  /-- `Fits` -/
  fits : Bool
  /-- no entry of the log conflicts with the end of a snapshot that is installed -/
  snapAgrees : Bool
  /-- no membership of the log is above the one of a snapshot that is beyond the log and is installed -/
  snapMember : Bool
deriving DecidableEq, Repr

def NetRules.all : NetRules := ⟨true, true, true, true, true, true, true, true⟩
def NetRules.none : NetRules := ⟨false, false, false, false, false, false, false, false⟩

/-- `SnapFit`, as far as the rules ask for it -/
def SnapFitR (R : NetRules) (e : Eng) (m : SnapMeta) : Prop :=
  ∀ x, m.lastLogId = some x → e.st.committed < some x →
    (R.snapAgrees = true → ∀ y, e.st.getLogId x.index = some y → y = x) ∧
    (R.snapMember = true → e.st.getLogId x.index = Option.none → nextIndex e.st.ms.effective.logId ≤ nextIndex m.mem.logId)

/-- the messages node `q` may handle -/
def Input.SentR (R : NetRules) (m0 : Membership) (pkts : List Pkt) (q : NodeId) (n : Node) : Input → Prop
  | .snapReq _ v m => Pkt.snap v m ∈ pkts ∧ v.leaderId.node ≠ q ∧ SnapFitR R n.eng m
  | .change c r => R.ownTermGate = true → Input.Sent m0 pkts q n (.change c r)
  | .handleTransfer v t => R.quietLeader = true → Input.Sent m0 pkts q n (.handleTransfer v t)
  | .electCmd => R.quietLeader = true → Input.Sent m0 pkts q n .electCmd
  | i => Input.Sent m0 pkts q n i

/-- the events that may happen in node `q` -/
def AllowedR (R : NetRules) (m0 : Membership) (pkts : List Pkt) (q : NodeId) (n : Node) : Ev → Prop
  | .msg _ i => Input.SentR R m0 pkts q n i
  | .write _ _ p => Input.SentR R m0 pkts q n (.write p)
  | .change _ _ c r => Input.SentR R m0 pkts q n (.change c r)
  | _ => True

/-- a cluster, and the vote of the replication tasks of each node -/
structure XNet where
  net : Net
  tasks : NodeId → Option Vote

/-- The vote of the replication tasks: `RebuildReplicationStreams` ends all tasks and starts those of the leader
(`core/raft_core.rs:1770-1786`, `spawn_replication_stream`, 806-836). Nothing else ends them: a node that stops leading
keeps its tasks (`become_following`, `engine/handler/vote_handler/mod.rs:222-233`, emits no command). -/
def tasksAfter (n : Node) (t : Option Vote) : Ev → Option Vote
  | .run => match n.head with
    | some (.rebuild ts) => if ts.isEmpty then Option.none else n.eng.leader.map (·.vote)
    | _ => t
  | _ => t

/-- the vote with which a replication task of a node sends -/
def Sends (R : NetRules) (X : XNet) (q : NodeId) (v : Vote) : Prop :=
  (∃ l, (X.net.nodes q).eng.leader = some l ∧ (X.net.nodes q).disk.vote = l.vote ∧ v = l.vote) ∨
    R.fenceTasks = false ∧ X.tasks q = some v

/-- the log id before the entries that a replication task of a node sends: one of the log; a task of a node that stopped
leading has the range it was told by `Replicate` (`replication/mod.rs:368-438`) -/
def SendsAfter (R : NetRules) (n : Node) (prev : Option LogId) : Prop :=
  (∀ x, prev = some x → x ∈ n.rd.purged.toList ++ n.rd.entries.map (·.id)) ∨
    R.fenceTasks = false ∧ ∃ t last, Cmd.replicate t (.logs prev last) ∈ n.eng.out.take n.done

/-- what can happen in a cluster under some rules, see `Step` -/
inductive XStep (R : NetRules) (m0 : Membership) (dbg : Bool) (X : XNet) : XNet → Prop
  | node (q : NodeId) (ev : Ev) (n' : Node) : AllowedR R m0 X.net.pkts q (X.net.nodes q) ev → (X.net.nodes q).step dbg ev = .ok n' →
      (R.exactQuorum = true → Exact (X.net.nodes q) n') →
      XStep R m0 dbg X ⟨X.net.put q n' (emit q (X.net.nodes q) ev), fun i => if i = q then tasksAfter (X.net.nodes q) (X.tasks q) ev else X.tasks i⟩
  | send (q : NodeId) (v : Vote) (prev lc : Option LogId) (k : Nat) : Sends R X q v →
      SendsAfter R (X.net.nodes q) prev →
      ((X.net.nodes q).rd.read (nextIndex prev) (nextIndex prev + k)).length = k →
      (∀ x, lc = some x → Pkt.hint v x ∈ X.net.pkts) →
      XStep R m0 dbg X ⟨{ X.net with pkts := .app v prev ((X.net.nodes q).rd.read (nextIndex prev) (nextIndex prev + k)) lc :: X.net.pkts }, X.tasks⟩
  | sendSnap (q : NodeId) (v : Vote) : Sends R X q v → (X.net.nodes q).sm.snap.lastLogId ≠ Option.none →
      XStep R m0 dbg X ⟨{ X.net with pkts := .snap v (X.net.nodes q).sm.snap :: X.net.pkts }, X.tasks⟩
  | check (q : NodeId) (l : Leader) (t : NodeId) (prev : Option LogId) : (X.net.nodes q).eng.leader = some l → (X.net.nodes q).disk.vote = l.vote →
      (t, prev) ∈ l.progress.vp.vector →
      XStep R m0 dbg X ⟨{ X.net with pkts := .app (X.net.nodes q).eng.st.vote.data prev [] (X.net.nodes q).eng.st.committed :: X.net.pkts }, X.tasks⟩
  | crash (q : NodeId) (k now : Nat) (n' : Node) : (R.fits = true → Fits ((X.net.nodes q).crashDisk k) (X.net.nodes q).sm.reboot) →
      (R.losslessResume = true → Lossless (X.net.nodes q) k) →
      restart dbg now (X.net.nodes q).eng.cfg ((X.net.nodes q).crashDisk k) (X.net.nodes q).sm = .ok n' →
      XStep R m0 dbg X ⟨X.net.put q n' [], fun i => if i = q then Option.none else X.tasks i⟩

/-- the states of a cluster under some rules -/
inductive XReach (R : NetRules) (m0 : Membership) (dbg : Bool) : XNet → Prop
  | init (s : Start) : XReach R m0 dbg ⟨Net.init s, fun _ => Option.none⟩
  | step {X X' : XNet} : XReach R m0 dbg X → XStep R m0 dbg X X' → XReach R m0 dbg X'

variable {R : NetRules} {m0 : Membership} {dbg : Bool} {X X' : XNet}

/-- with all restrictions, these are the executions of `Verif/Net/Model.lean` -/
theorem XStep.toStep (h : XStep .all m0 dbg X X') : Step m0 dbg X.net X'.net := by
  cases h with
  | node q ev n' h1 h2 h3 =>
    refine .node q ev n' ?_ h2 (h3 rfl)
    cases ev with
    | msg now i =>
      cases i with
      | snapReq tx v m => exact ⟨h1.1, h1.2.1, fun x hx hc => ⟨(h1.2.2 x hx hc).1 rfl, (h1.2.2 x hx hc).2 rfl⟩⟩
      | change c r => exact h1 rfl
      | handleTransfer v t => exact h1 rfl
      | electCmd => exact h1 rfl
      | _ => exact h1
    | change now tx c r => exact h1 rfl
    | _ => exact h1
  | send q v prev lc k h1 h2 h3 h4 =>
    rcases h1 with ⟨l, h5, h6, rfl⟩ | ⟨h5, _⟩
    · rcases h2 with h2 | ⟨h7, _⟩
      · exact .send q l prev lc k h5 h6 h2 h3 h4
      · cases h7
    · cases h5
  | sendSnap q v h1 h2 =>
    rcases h1 with ⟨l, h5, h6, rfl⟩ | ⟨h5, _⟩
    · exact .sendSnap q l h5 h6 h2
    · cases h5
  | check q l t prev h1 h2 h3 => exact .check q l t prev h1 h2 h3
  | crash q k now n' h1 h2 h3 => exact .crash q k now n' (h1 rfl) (h2 rfl) h3

/-- the executions of `Verif/Net/Model.lean` are possible under all rules -/
theorem XStep.ofStep {N' : Net} (h : Step m0 dbg X.net N') : ∃ X', XStep R m0 dbg X X' ∧ X'.net = N' := by
  cases h with
  | node q ev n' h1 h2 h3 =>
    refine ⟨_, .node q ev n' ?_ h2 (fun _ => h3), rfl⟩
    cases ev with
    | msg now i =>
      cases i with
      | snapReq tx v m => exact ⟨h1.1, h1.2.1, fun x hx hc => ⟨fun _ => (h1.2.2 x hx hc).1, fun _ => (h1.2.2 x hx hc).2⟩⟩
      | change c r => exact fun _ => h1
      | handleTransfer v t => exact fun _ => h1
      | electCmd => exact fun _ => h1
      | _ => exact h1
    | change now tx c r => exact fun _ => h1
    | _ => exact h1
  | send q l prev lc k h1 h2 h3 h4 h5 => exact ⟨_, .send q l.vote prev lc k (Or.inl ⟨l, h1, h2, rfl⟩) (Or.inl h3) h4 h5, rfl⟩
  | sendSnap q l h1 h2 h3 => exact ⟨_, .sendSnap q l.vote (Or.inl ⟨l, h1, h2, rfl⟩) h3, rfl⟩
  | check q l t prev h1 h2 h3 => exact ⟨_, .check q l t prev h1 h2 h3, rfl⟩
  | crash q k now n' h1 h2 h3 => exact ⟨_, .crash q k now n' (fun _ => h1) (fun _ => h2) h3, rfl⟩

theorem XReach.toReach (h : XReach .all m0 dbg X) : Reach m0 dbg X.net := by
  induction h with
  | init s => exact ⟨s, .refl⟩
  | step _ h ih => obtain ⟨s, hs⟩ := ih; exact ⟨s, .step hs h.toStep⟩

theorem XReach.ofReach {N : Net} (h : Reach m0 dbg N) : ∃ X, XReach R m0 dbg X ∧ X.net = N := by
  obtain ⟨s, hs⟩ := h
  induction hs with
  | refl => exact ⟨_, .init s, rfl⟩
  | step _ h ih =>
    obtain ⟨X, h1, rfl⟩ := ih
    obtain ⟨X', h2, h3⟩ := XStep.ofStep (R := R) h
    exact ⟨X', .step h1 h2, h3⟩

/-! ## Concrete executions -/

/-- decides `SnapFitR` -/
def snapFitRB (R : NetRules) (e : Eng) (m : SnapMeta) : Bool := match m.lastLogId with
  | Option.none => true
  | some x => !decide (e.st.committed < some x) || match e.st.getLogId x.index with
    | some y => !R.snapAgrees || decide (y = x)
    | Option.none => !R.snapMember || decide (nextIndex e.st.ms.effective.logId ≤ nextIndex m.mem.logId)

theorem snapFitRB_ok {e : Eng} {m : SnapMeta} (h : snapFitRB R e m = true) : SnapFitR R e m := by
  intro x hx hc
  unfold snapFitRB at h
  rw [hx] at h
  simp only [hc, decide_true, Bool.not_true, Bool.false_or] at h
  split at h
  · next y hy =>
    rw [hy]
    refine ⟨fun hR z hz => ?_, fun _ hn => by cases hn⟩
    cases hz
    rw [hR] at h
    exact of_decide_eq_true h
  · next hy =>
    rw [hy]
    refine ⟨fun _ z hz => (by cases hz), fun hR _ => ?_⟩
    rw [hR] at h
    exact of_decide_eq_true h

def allowedRB (R : NetRules) (m0 : Membership) (pkts : List Pkt) (q : NodeId) (n : Node) : Ev → Bool
  | .msg _ (.snapReq _ v m) => pkts.contains (.snap v m) && v.leaderId.node != q && snapFitRB R n.eng m
  | .msg _ (.change c r) => !R.ownTermGate || sentB m0 pkts q n (.change c r)
  | .msg _ (.handleTransfer v t) => !R.quietLeader || sentB m0 pkts q n (.handleTransfer v t)
  | .msg _ .electCmd => !R.quietLeader || sentB m0 pkts q n .electCmd
  | .msg _ i => sentB m0 pkts q n i
  | .write _ _ p => sentB m0 pkts q n (.write p)
  | .change _ _ c r => !R.ownTermGate || sentB m0 pkts q n (.change c r)
  | _ => true

theorem allowedRB_ok {pkts : List Pkt} {q : NodeId} {n : Node} {ev : Ev} (h : allowedRB R m0 pkts q n ev = true) :
    AllowedR R m0 pkts q n ev := by
  have hor : ∀ {b : Bool} {i : Input}, (!b || sentB m0 pkts q n i) = true → b = true → Input.Sent m0 pkts q n i := by
    intro b i h hb
    subst hb
    exact sentB_ok (by simpa using h)
  cases ev with
  | msg now i =>
    cases i with
    | snapReq tx v m =>
      simp only [allowedRB, Bool.and_eq_true, bne_iff_ne, List.contains_iff_mem] at h
      exact ⟨h.1.1, h.1.2, snapFitRB_ok h.2⟩
    | change c r => exact fun hR => hor h hR
    | handleTransfer v t => exact fun hR => hor h hR
    | electCmd => exact fun hR => hor h hR
    | appendReq tx v prev es lc => exact sentB_ok (m0 := m0) (pkts := pkts) (q := q) (n := n) (i := .appendReq tx v prev es lc) h
    | voteReq tx v last => exact sentB_ok (m0 := m0) (pkts := pkts) (q := q) (n := n) (i := .voteReq tx v last) h
    | init tx m => exact sentB_ok (m0 := m0) (pkts := pkts) (q := q) (n := n) (i := .init tx m) h
    | write x => exact sentB_ok (m0 := m0) (pkts := pkts) (q := q) (n := n) (i := .write x) h
    | voteResp t v last gr s => exact sentB_ok (m0 := m0) (pkts := pkts) (q := q) (n := n) (i := .voteResp t v last gr s) h
    | higherVote w s => exact sentB_ok (m0 := m0) (pkts := pkts) (q := q) (n := n) (i := .higherVote w s) h
    | replProgress s t r => exact sentB_ok (m0 := m0) (pkts := pkts) (q := q) (n := n) (i := .replProgress s t r) h
    | _ => trivial
  | write now tx p => exact sentB_ok (m0 := m0) (pkts := pkts) (q := q) (n := n) (i := .write p) h
  | change now tx c r => exact fun hR => hor h hR
  | _ => trivial

/-- an event of a cluster under some rules -/
inductive XEv where
  | node (q : NodeId) (ev : Ev)
  | send (q : NodeId) (v : Vote) (prev lc : Option LogId) (k : Nat)
  | sendSnap (q : NodeId) (v : Vote)
  | crash (q : NodeId) (k now : Nat)

def sendsB (R : NetRules) (X : XNet) (q : NodeId) (v : Vote) : Bool :=
  (match (X.net.nodes q).eng.leader with
    | some l => decide ((X.net.nodes q).disk.vote = l.vote) && decide (v = l.vote)
    | Option.none => false) || !R.fenceTasks && decide (X.tasks q = some v)

theorem sendsB_ok {q : NodeId} {v : Vote} (h : sendsB R X q v = true) : Sends R X q v := by
  simp only [sendsB, Bool.or_eq_true, Bool.and_eq_true, decide_eq_true_eq, Bool.not_eq_true'] at h
  rcases h with h | h
  · split at h
    · next l hl =>
      simp only [Bool.and_eq_true, decide_eq_true_eq] at h
      exact Or.inl ⟨l, hl, h.1, h.2⟩
    · cases h
  · exact Or.inr h

def sendsAfterB (R : NetRules) (n : Node) (prev : Option LogId) : Bool :=
  decide (∀ x ∈ prev.toList, x ∈ n.rd.purged.toList ++ n.rd.entries.map (·.id)) ||
    !R.fenceTasks && (n.eng.out.take n.done).any fun c => match c with
      | .replicate _ (.logs p _) => decide (p = prev)
      | _ => false

theorem sendsAfterB_ok {n : Node} {prev : Option LogId} (h : sendsAfterB R n prev = true) : SendsAfter R n prev := by
  simp only [sendsAfterB, Bool.or_eq_true, Bool.and_eq_true, decide_eq_true_eq, Bool.not_eq_true', List.any_eq_true] at h
  rcases h with h | ⟨h, c, hc, h1⟩
  · exact Or.inl fun x hx => h x (by subst hx; simp)
  · split at h1
    · next t p last =>
      have := of_decide_eq_true h1
      subst this
      exact Or.inr ⟨h, t, last, hc⟩
    · cases h1

/-- what a step leads to, if it is allowed -/
def XNet.after (R : NetRules) (m0 : Membership) (dbg : Bool) (X : XNet) : XEv → Option XNet
  | .node q ev => match (X.net.nodes q).step dbg ev with
    | .ok n' => if allowedRB R m0 X.net.pkts q (X.net.nodes q) ev && (!R.exactQuorum || exactB (X.net.nodes q) n') then
        some ⟨X.net.put q n' (emit q (X.net.nodes q) ev), fun i => if i = q then tasksAfter (X.net.nodes q) (X.tasks q) ev else X.tasks i⟩
      else Option.none
    | .error _ => Option.none
  | .send q v prev lc k =>
      if sendsB R X q v &&
          sendsAfterB R (X.net.nodes q) prev &&
          decide (((X.net.nodes q).rd.read (nextIndex prev) (nextIndex prev + k)).length = k) &&
          decide (∀ x ∈ lc.toList, Pkt.hint v x ∈ X.net.pkts) then
        some ⟨{ X.net with pkts := .app v prev ((X.net.nodes q).rd.read (nextIndex prev) (nextIndex prev + k)) lc :: X.net.pkts }, X.tasks⟩
      else Option.none
  | .sendSnap q v =>
      if sendsB R X q v && (X.net.nodes q).sm.snap.lastLogId.isSome then
        some ⟨{ X.net with pkts := .snap v (X.net.nodes q).sm.snap :: X.net.pkts }, X.tasks⟩
      else Option.none
  | .crash q k now => match restart dbg now (X.net.nodes q).eng.cfg ((X.net.nodes q).crashDisk k) (X.net.nodes q).sm with
    | .ok n' => if (!R.fits || Runtime.Demo.fitsB ((X.net.nodes q).crashDisk k) (X.net.nodes q).sm.reboot) &&
        (!R.losslessResume || losslessB (X.net.nodes q) k) then some ⟨X.net.put q n' [], fun i => if i = q then Option.none else X.tasks i⟩ else Option.none
    | .error _ => Option.none

theorem XNet.after_ok {ev : XEv} (h : X.after R m0 dbg ev = some X') : XStep R m0 dbg X X' := by
  have hor : ∀ {b c : Bool}, (!b || c) = true → b = true → c = true := by
    intro b c h hb
    subst hb
    simpa using h
  cases ev with
  | node q ev =>
    simp only [XNet.after] at h
    split at h
    · next n' hn =>
      split at h
      · next hc =>
        simp only [Bool.and_eq_true] at hc
        cases h
        exact .node q ev n' (allowedRB_ok hc.1) hn (fun hR => exactB_ok (hor hc.2 hR))
      · cases h
    · cases h
  | send q v prev lc k =>
    simp only [XNet.after] at h
    split at h
    · next hc =>
      simp only [Bool.and_eq_true, decide_eq_true_eq] at hc
      obtain ⟨⟨⟨h1, h2⟩, h3⟩, h4⟩ := hc
      cases h
      exact .send q v prev lc k (sendsB_ok h1) (sendsAfterB_ok h2) h3 (fun x hx => h4 x (by subst hx; simp))
    · cases h
  | sendSnap q v =>
    simp only [XNet.after] at h
    split at h
    · next hc =>
      simp only [Bool.and_eq_true] at hc
      cases h
      exact .sendSnap q v (sendsB_ok hc.1) (fun hn => by simp [hn] at hc)
    · cases h
  | crash q k now =>
    simp only [XNet.after] at h
    split at h
    · next n' hn =>
      split at h
      · next hc =>
        simp only [Bool.and_eq_true] at hc
        cases h
        exact .crash q k now n' (fun hR => Runtime.Demo.fitsB_ok (hor hc.1 hR)) (fun hR => losslessB_ok (hor hc.2 hR)) hn
      · cases h
    · cases h

/-- Steps in a row. Each element gives the next steps, from the state that is reached. -/
def XNet.runTo (R : NetRules) (m0 : Membership) (dbg : Bool) (X : XNet) : List XEv → Option XNet
  | [] => some X
  | ev :: evs => match X.after R m0 dbg ev with
    | some X' => X'.runTo R m0 dbg evs
    | Option.none => Option.none

def XNet.play (R : NetRules) (m0 : Membership) (dbg : Bool) (X : XNet) : List (XNet → List XEv) → Option XNet
  | [] => some X
  | f :: fs => match X.runTo R m0 dbg (f X) with
    | some X' => X'.play R m0 dbg fs
    | Option.none => Option.none

theorem XNet.runTo_ok {evs : List XEv} (hX : XReach R m0 dbg X) (h : X.runTo R m0 dbg evs = some X') : XReach R m0 dbg X' := by
  induction evs generalizing X with
  | nil => cases h; exact hX
  | cons ev evs ih =>
    simp only [XNet.runTo] at h
    split at h
    · next X1 h1 => exact ih (.step hX (XNet.after_ok h1)) h
    · cases h

theorem XNet.play_ok {fs : List (XNet → List XEv)} (hX : XReach R m0 dbg X) (h : X.play R m0 dbg fs = some X') : XReach R m0 dbg X' := by
  induction fs generalizing X with
  | nil => cases h; exact hX
  | cons f fs ih =>
    simp only [XNet.play] at h
    split at h
    · next X1 h1 => exact ih (XNet.runTo_ok hX h1) h
    · cases h

/-- the steps are allowed and lead to a state with the property `p` -/
def XNet.shows (R : NetRules) (m0 : Membership) (dbg : Bool) (X : XNet) (fs : List (XNet → List XEv)) (p : XNet → Bool) : Bool :=
  match X.play R m0 dbg fs with
  | some X' => p X'
  | Option.none => false

theorem XNet.shows_ok {fs : List (XNet → List XEv)} {p : XNet → Bool} (hX : XReach R m0 dbg X) (h : X.shows R m0 dbg fs p = true) :
    ∃ X', XReach R m0 dbg X' ∧ p X' = true := by
  unfold XNet.shows at h
  split at h
  · next X' h1 => exact ⟨X', XNet.play_ok hX h1, h⟩
  · cases h

end Openraft.Net
