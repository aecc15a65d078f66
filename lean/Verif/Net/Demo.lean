import Verif.Net.Model
import Verif.Runtime.Demo
import Verif.Runtime.Life

/-!
# Concrete executions of a cluster
-/

set_option autoImplicit false

namespace Openraft.Net
open Openraft.Engine Openraft.Runtime
open Openraft.Cluster (Payload)

/-- decides `SnapFit` -/
def snapFitB (e : Eng) (m : SnapMeta) : Bool := match m.lastLogId with
  | none => true
  | some x => !decide (e.st.committed < some x) || match e.st.getLogId x.index with
    | some y => decide (y = x)
    | none => decide (nextIndex e.st.ms.effective.logId ≤ nextIndex m.mem.logId)

theorem snapFitB_ok {e : Eng} {m : SnapMeta} (h : snapFitB e m = true) : SnapFit e m := by
  intro x hx hc
  unfold snapFitB at h
  rw [hx] at h
  simp only [hc, decide_true, Bool.not_true, Bool.false_or] at h
  split at h
  · next y hy =>
    rw [hy]
    refine ⟨fun z hz => ?_, fun hn => by cases hn⟩
    cases hz
    exact of_decide_eq_true h
  · next hy =>
    rw [hy]
    exact ⟨fun z hz => (by cases hz), fun _ => of_decide_eq_true h⟩

/-- decides `Input.Sent` (only one direction is proved) -/
def sentB (m0 : Membership) (pkts : List Pkt) (q : NodeId) (n : Node) : Input → Bool
  | .appendReq _ v prev es lc => pkts.contains (.app v prev es lc) && v.leaderId.node != q
  | .voteReq _ v last => pkts.contains (.vote v last) && v.leaderId.node != q
  | .snapReq _ v m => pkts.contains (.snap v m) && v.leaderId.node != q && snapFitB n.eng m
  | .init _ m => decide (m = m0)
  | .write x => match x with
    | .membership _ => false
    | _ => true
  | .change _ _ => n.eng.leader.isNone || match n.eng.st.committed with
    | some c => decide (c.leaderId = n.eng.st.vote.data.leaderId)
    | none => false
  | .handleTransfer v t => n.eng.leader.isNone || decide (n.eng.st.vote.data ≠ v) || decide (q ≠ t)
  | .electCmd => n.eng.leader.isNone
  | .voteResp t v last gr _ => pkts.contains (.answer t (.vote v last gr))
  | .higherVote w _ => pkts.any fun k => match k with
    | .answer _ (.append (.higherVote w') _ _) => decide (w' = w)
    | .answer _ (.snapshot w') => decide (w' = w)
    | _ => false
  | .replProgress s t r => match r with
    | .matching m => pkts.contains (.answer t (.append .success s.vote m)) ||
        (pkts.any fun k => match k with
          | .snap v sm => decide (v = s.vote ∧ sm.lastLogId = m)
          | _ => false) && pkts.any fun k => match k with
          | .answer t' (.snapshot w) => decide (t' = t ∧ w ≤ s.vote)
          | _ => false
    | _ => true
  | _ => true

theorem sentB_ok {m0 : Membership} {pkts : List Pkt} {q : NodeId} {n : Node} {i : Input} (h : sentB m0 pkts q n i = true) :
    Input.Sent m0 pkts q n i := by
  cases i with
  | appendReq tx v prev es lc =>
    simp only [sentB, Bool.and_eq_true, bne_iff_ne, List.contains_iff_mem] at h
    exact h
  | voteReq tx v last =>
    simp only [sentB, Bool.and_eq_true, bne_iff_ne, List.contains_iff_mem] at h
    exact h
  | snapReq tx v m =>
    simp only [sentB, Bool.and_eq_true, bne_iff_ne, List.contains_iff_mem] at h
    exact ⟨h.1.1, h.1.2, snapFitB_ok h.2⟩
  | init tx m =>
    have : m = m0 := of_decide_eq_true h
    exact this
  | write x =>
    intro m hm
    subst hm; cases h
  | change c r =>
    intro hl
    simp only [sentB, Bool.or_eq_true, Option.isNone_iff_eq_none] at h
    rcases h with h | h
    · exact absurd h hl
    · split at h
      · next c hc => exact ⟨c, hc, of_decide_eq_true h⟩
      · cases h
  | handleTransfer v t =>
    intro h1 h2
    simp only [sentB, Bool.or_eq_true, Option.isNone_iff_eq_none, decide_eq_true_eq] at h
    rcases h with (h | h) | h
    · exact h
    · exact absurd h1 h
    · exact absurd h2 h
  | electCmd =>
    simp only [sentB, Option.isNone_iff_eq_none] at h
    exact h
  | voteResp t v last gr s =>
    simp only [sentB, List.contains_iff_mem] at h
    exact h
  | higherVote w s =>
    simp only [sentB, List.any_eq_true] at h
    obtain ⟨k, hk, h⟩ := h
    split at h
    · next t w' v u =>
      have := of_decide_eq_true h
      subst this
      exact ⟨t, Or.inl ⟨v, u, hk⟩⟩
    · next t w' =>
      have := of_decide_eq_true h
      subst this
      exact ⟨t, Or.inr hk⟩
    · cases h
  | replProgress s t r =>
    intro m hm
    subst hm
    simp only [sentB, List.contains_iff_mem, Bool.or_eq_true, Bool.and_eq_true, List.any_eq_true] at h
    rcases h with h | ⟨⟨k, hk, h⟩, k', hk', h'⟩
    · exact Or.inl h
    · right
      split at h
      · next v sm =>
        have h := of_decide_eq_true h
        split at h'
        · next t' w =>
          have h' := of_decide_eq_true h'
          rw [h'.1] at hk'
          rw [h.1] at hk
          exact ⟨sm, w, hk, h.2, hk', h'.2⟩
        · cases h'
      · cases h
  | _ => trivial

def allowedB (m0 : Membership) (pkts : List Pkt) (q : NodeId) (n : Node) : Ev → Bool
  | .msg _ i => sentB m0 pkts q n i
  | .write _ _ p => sentB m0 pkts q n (.write p)
  | .change _ _ c r => sentB m0 pkts q n (.change c r)
  | _ => true

theorem allowedB_ok {m0 : Membership} {pkts : List Pkt} {q : NodeId} {n : Node} {ev : Ev} (h : allowedB m0 pkts q n ev = true) :
    Allowed m0 pkts q n ev := by
  cases ev with
  | msg now i => exact sentB_ok (i := i) h
  | write now tx p => exact sentB_ok (m0 := m0) (pkts := pkts) (q := q) (n := n) (i := .write p) h
  | change now tx c r => exact sentB_ok (m0 := m0) (pkts := pkts) (q := q) (n := n) (i := .change c r) h
  | _ => trivial

def exactB (n n' : Node) : Bool :=
  match n'.eng.leader, n'.eng.st.committed with
  | some l', some c => decide (n'.eng.st.committed = n.eng.st.committed) ||
      isQuorum l'.progress.vp.configs ((l'.progress.vp.vector.filter fun z => decide (some c ≤ z.2)).map (·.1)).dedup
  | _, _ => true

theorem exactB_ok {n n' : Node} (h : exactB n n' = true) : Exact n n' := by
  intro l' c hl hc hne
  unfold exactB at h
  rw [hl, hc] at h
  simp only [Bool.or_eq_true, decide_eq_true_eq] at h
  rcases h with h | h
  · rw [hc] at hne; exact absurd h hne
  · exact h

/-- an event of a cluster -/
inductive NEv where
  | node (q : NodeId) (ev : Ev)
  | send (q : NodeId) (prev lc : Option LogId) (k : Nat)
  | sendSnap (q : NodeId)
  | check (q t : NodeId) (prev : Option LogId)
  | crash (q : NodeId) (k now : Nat)

def losslessB (n : Node) (k : Nat) : Bool :=
  !(decide (n.disk.vote.leaderId.node = n.eng.cfg.id) && n.disk.vote.committed) ||
    (n.eng.leader.isSome && decide (n.eng.st.vote.data = n.disk.vote) && decide ((n.crashDisk k).store.lastLogId = n.eng.st.lastLogId))

theorem losslessB_ok {n : Node} {k : Nat} (h : losslessB n k = true) : Lossless n k := by
  intro h1 h2
  simp only [losslessB, h1, h2, decide_true, Bool.and_self, Bool.not_true, Bool.false_or, Bool.and_eq_true, decide_eq_true_eq] at h
  exact ⟨fun hn => by simp [hn] at h, h.1.2, h.2⟩

/-- what a step leads to, if it is allowed -/
def Net.after (m0 : Membership) (dbg : Bool) (N : Net) : NEv → Option Net
  | .node q ev => match (N.nodes q).step dbg ev with
    | .ok n' => if allowedB m0 N.pkts q (N.nodes q) ev && exactB (N.nodes q) n' then some (N.put q n' (emit q (N.nodes q) ev)) else none
    | .error _ => none
  | .send q prev lc k => match (N.nodes q).eng.leader with
    | none => none
    | some l =>
      if decide ((N.nodes q).disk.vote = l.vote) &&
          decide (∀ x ∈ prev.toList, x ∈ (N.nodes q).rd.purged.toList ++ (N.nodes q).rd.entries.map (·.id)) &&
          decide (((N.nodes q).rd.read (nextIndex prev) (nextIndex prev + k)).length = k) &&
          decide (∀ x ∈ lc.toList, Pkt.hint l.vote x ∈ N.pkts) then
        some { N with pkts := .app l.vote prev ((N.nodes q).rd.read (nextIndex prev) (nextIndex prev + k)) lc :: N.pkts }
      else none
  | .sendSnap q => match (N.nodes q).eng.leader with
    | none => none
    | some l =>
      if decide ((N.nodes q).disk.vote = l.vote) && (N.nodes q).sm.snap.lastLogId.isSome then
        some { N with pkts := .snap l.vote (N.nodes q).sm.snap :: N.pkts }
      else none
  | .check q t prev => match (N.nodes q).eng.leader with
    | none => none
    | some l =>
      if decide ((N.nodes q).disk.vote = l.vote) && decide ((t, prev) ∈ l.progress.vp.vector) then
        some { N with pkts := .app (N.nodes q).eng.st.vote.data prev [] (N.nodes q).eng.st.committed :: N.pkts }
      else none
  | .crash q k now => match restart dbg now (N.nodes q).eng.cfg ((N.nodes q).crashDisk k) (N.nodes q).sm with
    | .ok n' => if Runtime.Demo.fitsB ((N.nodes q).crashDisk k) (N.nodes q).sm.reboot && losslessB (N.nodes q) k then some (N.put q n' []) else none
    | .error _ => none

theorem Net.after_ok {m0 : Membership} {dbg : Bool} {N N' : Net} {ev : NEv} (h : N.after m0 dbg ev = some N') : Step m0 dbg N N' := by
  cases ev with
  | node q ev =>
    simp only [Net.after] at h
    split at h
    · next n' hn =>
      split at h
      · next hc =>
        simp only [Bool.and_eq_true] at hc
        cases h
        exact .node q ev n' (allowedB_ok hc.1) hn (exactB_ok hc.2)
      · cases h
    · cases h
  | send q prev lc k =>
    simp only [Net.after] at h
    split at h
    · cases h
    · next l hl =>
      split at h
      · next hc =>
        simp only [Bool.and_eq_true, decide_eq_true_eq] at hc
        obtain ⟨⟨⟨h1, h2⟩, h3⟩, h4⟩ := hc
        cases h
        exact .send q l prev lc k hl h1 (fun x hx => h2 x (by subst hx; simp)) h3 (fun x hx => h4 x (by subst hx; simp))
      · cases h
  | sendSnap q =>
    simp only [Net.after] at h
    split at h
    · cases h
    · next l hl =>
      split at h
      · next hc =>
        simp only [Bool.and_eq_true, decide_eq_true_eq] at hc
        cases h
        exact .sendSnap q l hl hc.1 (fun hn => by simp [hn] at hc)
      · cases h
  | check q t prev =>
    simp only [Net.after] at h
    split at h
    · cases h
    · next l hl =>
      split at h
      · next hc =>
        simp only [Bool.and_eq_true, decide_eq_true_eq] at hc
        cases h
        exact .check q l t prev hl hc.1 hc.2
      · cases h
  | crash q k now =>
    simp only [Net.after] at h
    split at h
    · next n' hn =>
      split at h
      · next hc =>
        simp only [Bool.and_eq_true] at hc
        cases h
        exact .crash q k now n' (Runtime.Demo.fitsB_ok hc.1) (losslessB_ok hc.2) hn
      · cases h
    · cases h

/-- steps in a row -/
def Net.runTo (m0 : Membership) (dbg : Bool) (N : Net) : List NEv → Option Net
  | [] => some N
  | ev :: evs => match N.after m0 dbg ev with
    | some N' => N'.runTo m0 dbg evs
    | none => none

theorem Steps.trans {m0 : Membership} {dbg : Bool} {A B C : Net} (h1 : Steps m0 dbg A B) (h2 : Steps m0 dbg B C) : Steps m0 dbg A C := by
  induction h2 with
  | refl => exact h1
  | step _ h ih => exact .step ih h

theorem Net.runTo_ok {m0 : Membership} {dbg : Bool} {N N' : Net} {evs : List NEv} (h : N.runTo m0 dbg evs = some N') : Steps m0 dbg N N' := by
  induction evs generalizing N with
  | nil => cases h; exact .refl
  | cons ev evs ih =>
    simp only [Net.runTo] at h
    split at h
    · next N1 h1 => exact Steps.trans (.step .refl (Net.after_ok h1)) (ih h)
    · cases h

/-- the node of an event -/
def NEv.at : NEv → NodeId
  | .node q _ => q
  | .send q _ _ _ => q
  | .sendSnap q => q
  | .check q _ _ => q
  | .crash q _ _ => q

theorem Net.runTo_other {m0 : Membership} {dbg : Bool} {N N' : Net} {evs : List NEv} (h : N.runTo m0 dbg evs = some N') {i : NodeId}
    (hi : ∀ ev ∈ evs, ev.at ≠ i) : N'.nodes i = N.nodes i := by
  induction evs generalizing N with
  | nil => cases h; rfl
  | cons ev evs ih =>
    simp only [Net.runTo] at h
    split at h
    · next N1 h1 =>
      rw [ih h (fun e he => hi e (List.mem_cons_of_mem _ he))]
      have hne := hi ev (List.mem_cons_self ..)
      cases ev with
      | node q ev =>
        simp only [Net.after] at h1
        split at h1
        · split at h1
          · cases h1
            have : i ≠ q := fun hq => hne hq.symm
            simp [Net.put, this]
          · cases h1
        · cases h1
      | send q prev lc k =>
        simp only [Net.after] at h1
        split at h1
        · cases h1
        · split at h1
          · cases h1; rfl
          · cases h1
      | sendSnap q =>
        simp only [Net.after] at h1
        split at h1
        · cases h1
        · split at h1
          · cases h1; rfl
          · cases h1
      | check q t prev =>
        simp only [Net.after] at h1
        split at h1
        · cases h1
        · split at h1
          · cases h1; rfl
          · cases h1
      | crash q k now =>
        simp only [Net.after] at h1
        split at h1
        · split at h1
          · cases h1
            have : i ≠ q := fun hq => hne hq.symm
            simp [Net.put, this]
          · cases h1
        · cases h1
    · cases h

/-- the steps are allowed and lead to a state with the property `p` -/
def Net.shows (m0 : Membership) (dbg : Bool) (N : Net) (evs : List NEv) (p : Net → Bool) : Bool :=
  match N.runTo m0 dbg evs with
  | some N' => p N'
  | none => false

theorem Net.shows_ok {m0 : Membership} {dbg : Bool} {N : Net} {evs : List NEv} {p : Net → Bool} (h : N.shows m0 dbg evs p = true) :
    ∃ N', Steps m0 dbg N N' ∧ p N' = true := by
  unfold Net.shows at h
  split at h
  · next N' h1 => exact ⟨N', Net.runTo_ok h1, h⟩
  · cases h

theorem Net.shows_other {m0 : Membership} {dbg : Bool} {N : Net} {evs : List NEv} {p : Net → Bool} (h : N.shows m0 dbg evs p = true) :
    ∃ N', Steps m0 dbg N N' ∧ p N' = true ∧ ∀ i, (∀ ev ∈ evs, ev.at ≠ i) → N'.nodes i = N.nodes i := by
  unfold Net.shows at h
  split at h
  · next N' h1 => exact ⟨N', Net.runTo_ok h1, h, fun i => Net.runTo_other h1⟩
  · cases h

namespace Demo
open Openraft.Engine.Demo (m3 lid)

/-- three nodes that never ran -/
def start : Start := ⟨fun q => ⟨q, some 100, 1, 1, 300, 10, 10, 5⟩, fun _ => 0, fun _ => false, fun _ => rfl⟩

/-- node `q` does all it can without messages -/
def work (q : NodeId) (now k : Nat) : List NEv :=
  (List.replicate k [.node q .run, .node q .flush, .node q (.note now), .node q .sm]).flatten

/-- the vote of candidate 1 -/
def v1 : Vote := ⟨⟨1, 1⟩, false⟩
/-- the vote of leader 1 -/
def v1c : Vote := ⟨⟨1, 1⟩, true⟩
/-- the vote of candidate 2 -/
def v2u : Vote := ⟨⟨2, 2⟩, false⟩
/-- the vote of leader 2 -/
def v2c : Vote := ⟨⟨2, 2⟩, true⟩

/-- Node 1 is initialized, elected by node 2, replicates its first entries to node 2, commits and applies them. A
client writes; the entry goes to node 2, which also applies what was committed. -/
def first : List NEv :=
  [.node 1 (.msg 1 (.init 1 m3))] ++ work 1 2 8 ++
  [.node 2 (.msg 3 (.voteReq 2 v1 (some (lid 0 0 0))))] ++ work 2 4 4 ++
  [.node 1 (.msg 5 (.voteResp 2 v1 none true v1))] ++ work 1 6 8 ++
  [.send 1 none none 2, .node 2 (.msg 7 (.appendReq 3 v1c none [⟨lid 0 0 0, .membership m3⟩, ⟨lid 1 1 1, .blank⟩] none))] ++ work 2 8 6 ++
  [.node 1 (.msg 9 (.replProgress ⟨v1c, some (lid 0 0 0)⟩ 2 (.matching (some (lid 1 1 1)))))] ++ work 1 10 8 ++
  [.node 1 (.write 11 5 (.normal 7))] ++ work 1 12 6 ++
  [.send 1 (some (lid 1 1 1)) (some (lid 1 1 1)) 1,
    .node 2 (.msg 13 (.appendReq 4 v1c (some (lid 1 1 1)) [⟨lid 1 1 2, .normal 7⟩] (some (lid 1 1 1))))] ++ work 2 14 6

/-- Node 2 is elected by node 3 while node 1 still leads; it replicates to node 3, commits and applies. -/
def second : List NEv :=
  [.node 2 (.msg 40 .electCmd)] ++ work 2 41 6 ++
  [.node 3 (.msg 42 (.voteReq 2 v2u (some (lid 1 1 2))))] ++ work 3 43 4 ++
  [.node 2 (.msg 44 (.voteResp 3 v2u none true v2u))] ++ work 2 45 8 ++
  [.send 2 none none 4, .node 3 (.msg 46 (.appendReq 3 v2c none
    [⟨lid 0 0 0, .membership m3⟩, ⟨lid 1 1 1, .blank⟩, ⟨lid 1 1 2, .normal 7⟩, ⟨lid 2 2 3, .blank⟩] none))] ++ work 3 47 6 ++
  [.node 2 (.msg 48 (.replProgress ⟨v2c, some (lid 0 0 0)⟩ 3 (.matching (some (lid 2 2 3)))))] ++ work 2 49 8

/-- Node 2 gets another write and sends it to node 3, which crashes before the entry is durable. Node 2 crashes too and
resumes as the leader. It sends the entry again; node 3 answers, node 2 commits and applies everything once more. -/
def third : List NEv :=
  [.node 2 (.write 50 9 (.normal 8))] ++ work 2 51 6 ++
  [.send 2 (some (lid 2 2 3)) none 1, .node 3 (.msg 52 (.appendReq 5 v2c (some (lid 2 2 3)) [⟨lid 2 2 4, .normal 8⟩] none)), .node 3 .run,
    .node 3 .run, .node 3 .run, .crash 3 0 60, .crash 2 0 61] ++ work 2 62 6 ++
  [.send 2 (some (lid 2 2 3)) none 1, .node 3 (.msg 63 (.appendReq 5 v2c (some (lid 2 2 3)) [⟨lid 2 2 4, .normal 8⟩] none))] ++ work 3 64 6 ++
  [.node 2 (.msg 65 (.replProgress ⟨v2c, some (lid 0 0 0)⟩ 3 (.matching (some (lid 2 2 4)))))] ++ work 2 66 8

/-- the snapshot of leader 2 -/
def snap2 : SnapMeta := ⟨some (lid 2 2 3), ⟨some (lid 0 0 0), m3⟩, 0⟩

/-- Leader 2 (after `second`) builds a snapshot and purges its log. It sends the snapshot to node 1, which is behind and
still leads with a smaller vote; node 1 installs it instead of its log. Then a write goes to node 1 alone, is
acknowledged, committed and applied. -/
def fourth : List NEv :=
  [.node 2 (.msg 50 .snapshotCmd)] ++ work 2 51 4 ++ [.node 2 (.build 0)] ++ work 2 52 2 ++
  [.sendSnap 2, .node 1 (.msg 53 (.snapReq 6 v2c snap2))] ++ work 1 54 8 ++
  [.node 2 (.msg 55 (.replProgress ⟨v2c, some (lid 0 0 0)⟩ 1 (.matching (some (lid 2 2 3)))))] ++ work 2 55 6 ++
  [.node 2 (.write 56 9 (.normal 8))] ++ work 2 57 6 ++
  [.send 2 (some (lid 2 2 3)) none 1, .node 1 (.msg 58 (.appendReq 5 v2c (some (lid 2 2 3)) [⟨lid 2 2 4, .normal 8⟩] none))] ++ work 1 59 6 ++
  [.node 2 (.msg 60 (.replProgress ⟨v2c, some (lid 0 0 0)⟩ 1 (.matching (some (lid 2 2 4)))))] ++ work 2 61 8

end Demo
end Openraft.Net
