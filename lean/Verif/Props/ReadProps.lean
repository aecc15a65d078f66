import Verif.Net.Check
import Verif.Spec.Quorum

/-!
# Linearizable reads in a cluster of real nodes: C25

`Verif/Props/ClusterProps.lean` states C25 for the abstract cluster; here it is stated for the cluster of real nodes
(`Verif/Net/Model.lean`).
-/

set_option autoImplicit false

namespace Openraft.Props
open Openraft.Engine Openraft.Cluster Openraft.Net
open Openraft.Net.Demo (start first second fifth kept forgot)

variable {m0 : Membership} {dbg : Bool} {N N' : Net}

/-- `handle_check_is_leader_request` (`core/raft_core.rs:279-430`) of leader `i`, called in state `N`, ends with `Ok`:
every node of a quorum `Q` of the effective membership at the call is the leader itself or answered a request later
without a greater vote. -/
def LeaderConfirmed (m0 : Membership) (dbg : Bool) (N : Net) (i : NodeId) (l : Engine.Leader) (Q : Finset NodeId) : Prop :=
  (N.nodes i).eng.leader = some l ∧ Spec.JointQuorum ((N.nodes i).eng.st.ms.effective.mem.configs.map List.toFinset) Q ∧
    ∀ q ∈ Q, q = i ∨ ∃ M, Net.Steps m0 dbg N M ∧ (M.nodes q).eng.st.vote.data ≤ l.vote

theorem quorum23 : Spec.JointQuorum ([[1, 2, 3]].map List.toFinset) {2, 3} := by
  intro c hc
  have : c = [1, 2, 3].toFinset := by simpa using hc
  subst this
  unfold Spec.Majority
  decide

/-- C25 for clusters in states `R`: A leader is asked in state `N` for the position to read at, and is confirmed. Later, in
state `M`, some node has applied the log up to this position. Then its state machine is not behind anything that any
state machine had applied before the leader was asked; in particular it includes every write that was answered. (The configs are sets in the code, here they are lists.) -/
def C25_net_statement (R : Membership → Bool → Net → Prop) : Prop :=
  ∀ (m0 : Membership) (dbg : Bool) (N : Net), m0.configs ≠ [] → R m0 dbg N →
    ∀ (i : NodeId) (l : Engine.Leader) (Q : Finset NodeId), (∀ c ∈ (N.nodes i).eng.st.ms.effective.mem.configs, c.Nodup) → LeaderConfirmed m0 dbg N i l Q →
      ∀ (M : Net) (j : NodeId), Net.Steps m0 dbg N M → (N.nodes i).eng.lhReadLogId l ≤ (M.nodes j).sm.applied →
        ∀ x ∈ N.hist, ∃ a, (M.nodes j).sm.applied = some a ∧ x.2.id.index ≤ a.index

/-- Missing for C25: executions that `Verif/Net/Model.lean` excludes, and those where a leader forgets its committed
position in a crash (`C25_net_false`). -/
theorem C25_net_partial : C25_net_statement Net.ReachR := by
  intro m0 dbg N hm0 h i l Q hnd ⟨hl, hQ, hq⟩ M j hM hR x hx
  have : Fact (m0.configs ≠ []) := ⟨hm0⟩
  obtain ⟨g, hg, hk⟩ := reachR_ci hm0 h
  obtain ⟨g', hg', hle⟩ := hg.steps hm0 hM
  obtain ⟨_, _, _, _, _, _, hn⟩ := hg.node i
  have hlast : ∀ L S, g.el L = some S → L ≤ l.vote.leaderId := by
    intro L S hS
    refine hg.latest (dbg := dbg) hm0 hl Q.nodup_toList ?_ ?_ hS
    · rw [isQuorum_iff]
      intro c hc
      have h1 : Spec.Majority c.toFinset Q := hQ _ (List.mem_map_of_mem hc)
      rw [countIn_eq_card Q.nodup_toList, Finset.toList_toFinset]
      have h2 := List.toFinset_card_of_nodup (hnd c hc)
      unfold Spec.Majority at h1
      omega
    · intro q hqq
      rcases hq q (Finset.mem_toList.1 hqq) with rfl | h1
      · exact ⟨N, .refl, by rw [(hn.r.flow.inv.pj.lead l hl).vote]⟩
      · exact h1
  have := hg.read_pos hm0 hk hl hlast (hg.hist x hx) hg'.gi hle (hg'.pos j).sm hR
  cases ha : (M.nodes j).sm.applied with
  | none => rw [ha] at this; simp at this
  | some a => rw [ha] at this; simp only [nextIndex_some] at this; exact ⟨a, rfl, by omega⟩

/-- Node 2 was confirmed by node 3, crashed and leads again; it has applied the position to read at, and the write at
index 4 that it had applied before the crash. -/
example : ∃ N, Net.ReachR Engine.Demo.m3 true N ∧ (∃ l, LeaderConfirmed Engine.Demo.m3 true N 2 l {2, 3} ∧
    (N.nodes 2).eng.lhReadLogId l ≤ (N.nodes 2).sm.applied) ∧ (∃ x ∈ N.hist, x.1 = 2 ∧ x.2.id.index = 4) ∧
    (∀ c ∈ (N.nodes 2).eng.st.ms.effective.mem.configs, c.Nodup) := by
  obtain ⟨N, h1, _, h3⟩ := Net.showsR_ok (m0 := Engine.Demo.m3) (dbg := true) (.init start) (evs := first ++ second ++ fifth ++ kept)
    (p := fun N => decide (∃ l ∈ (N.nodes 2).eng.leader.toList, (N.nodes 2).eng.st.ms.effective.mem.configs = [[1, 2, 3]] ∧
      (N.nodes 3).eng.st.vote.data ≤ l.vote ∧ (N.nodes 2).eng.lhReadLogId l ≤ (N.nodes 2).sm.applied) &&
      decide (∃ x ∈ N.hist, x.1 = 2 ∧ x.2.id.index = 4)) (by decide +kernel)
  simp only [Bool.and_eq_true, decide_eq_true_eq] at h3
  obtain ⟨⟨l, hl, h4, h5, h6⟩, h7⟩ := h3
  refine ⟨N, h1, ⟨l, ⟨by simpa using hl, ?_, ?_⟩, h6⟩, h7, by rw [h4]; decide⟩
  · rw [h4]; exact quorum23
  · intro q hq
    have : q = 2 ∨ q = 3 := by simpa using hq
    rcases this with rfl | rfl
    · exact Or.inl rfl
    · exact Or.inr ⟨N, .refl, h5⟩

/-- C25 is false for the code: the leader commits and applies a write, and crashes before the committed position that it
saved is durable. It resumes as the leader, and the position to read at is the one of its blank entry, before the
write. Its state machine has reached this position, and does not have the write. -/
theorem C25_net_false : ¬ C25_net_statement Net.Reach := by
  intro hall
  obtain ⟨N, h1, h3⟩ := Net.shows_ok (m0 := Engine.Demo.m3) (dbg := true) (N := Net.init start) (evs := first ++ second ++ fifth ++ forgot)
    (p := fun N => decide (∃ l ∈ (N.nodes 2).eng.leader.toList, (N.nodes 2).eng.st.ms.effective.mem.configs = [[1, 2, 3]] ∧
      (N.nodes 3).eng.st.vote.data ≤ l.vote ∧ (N.nodes 2).eng.lhReadLogId l ≤ (N.nodes 2).sm.applied) &&
      decide (∃ x ∈ N.hist, ¬ ∃ a ∈ (N.nodes 2).sm.applied.toList, x.2.id.index ≤ a.index)) (by decide +kernel)
  simp only [Bool.and_eq_true, decide_eq_true_eq] at h3
  obtain ⟨⟨l, hl, h4, h5, h6⟩, x, hx, h7⟩ := h3
  obtain ⟨a, ha, h8⟩ := hall Engine.Demo.m3 true N (by decide) ⟨start, h1⟩ 2 l {2, 3} (by rw [h4]; decide) ⟨by simpa using hl, by rw [h4]; exact quorum23, by
    intro q hq
    have : q = 2 ∨ q = 3 := by simpa using hq
    rcases this with rfl | rfl
    · exact Or.inl rfl
    · exact Or.inr ⟨N, .refl, h5⟩⟩ N 2 .refl h6 x hx
  exact h7 ⟨a, by rw [ha]; simp, h8⟩

/-! ## The calls of the code -/

/-- C25 for the calls of `handle_check_is_leader_request` (`Verif/Net/Check.lean`), if the calls considered are those that `P`
says: the call ended with `Ok`, and the node that is read from has applied the log up to the position to read at; as in
`ensure_linearizable` (`raft/mod.rs:535-550`) only the indexes are compared. Then its state machine is not behind
anything that any state machine had applied before the call. -/
def C25_call_statement (P : Check → Prop) : Prop :=
  ∀ (m0 : Membership) (dbg : Bool) (R : RNet), m0.configs ≠ [] → RReach m0 dbg R →
    ∀ c ∈ R.checks, P c → c.done = some .ok → ∀ (j : NodeId), nextIndex c.read ≤ nextIndex (R.net.nodes j).sm.applied →
      ∀ x ∈ c.seen, ∃ a, (R.net.nodes j).sm.applied = some a ∧ x.2.id.index ≤ a.index

/-- Missing for C25: executions that `Verif/Net/Model.lean` excludes, and calls after a leader forgot its committed
position in a crash (`C25_call_false`). -/
theorem C25_call_partial : C25_call_statement fun c => c.calm = true := by
  intro m0 dbg R hm0 h c hc hcalm hd j hj x hx
  have : Fact (m0.configs ≠ []) := ⟨hm0⟩
  have h1 := ((rreach_ri hm0 h).checks c hc).covers hm0 hd hcalm hx
  cases ha : (R.net.nodes j).sm.applied with
  | none => rw [ha] at hj; simp at hj; omega
  | some a => rw [ha, nextIndex_some] at hj; exact ⟨a, rfl, by omega⟩

/-- the answers never violate the debug assertion of `handle_check_is_leader_request` (`core/raft_core.rs:386-391`): a
greater vote is greater -/
theorem C25_call_no_abort {R : RNet} (hm0 : m0.configs ≠ []) (h : RReach m0 dbg R) {c : Check} (hc : c ∈ R.checks) {p : NodeId × AppendResp}
    (hp : p ∈ c.answers) : ∃ c', c.collect dbg p.1 p.2 = .ok c' := by
  have : Fact (m0.configs ≠ []) := ⟨hm0⟩
  obtain ⟨N0, l, _, _, _, _, _, _, _, _, _, h10⟩ := ((rreach_ri hm0 h).checks c hc).ex
  rcases h10 p hp with ⟨_, _, _, hw⟩ | ⟨w, hw, hlt⟩
  · obtain ⟨q, r⟩ := p
    cases r with
    | higherVote w => exact absurd rfl (hw w)
    | success => exact ⟨_, rfl⟩
    | conflict => exact ⟨_, rfl⟩
  · rw [hw]
    refine ⟨{ c with done := some .forward }, ?_⟩
    simp [Check.collect, Repl.dassert, hlt]

/-- Leader 1 is asked; node 2 is elected before it gets the request of leader 1, and answers with its vote. -/
example : ∃ R, RReach Engine.Demo.m3 true R ∧ ∃ c ∈ R.checks, (2, .higherVote Net.Demo.v2c) ∈ c.answers := by
  obtain ⟨R, h1, h2⟩ := RNet.shows_ok (m0 := Engine.Demo.m3) (dbg := true) (.init start)
    (evs := first.map REv.net ++ [.ask 1] ++ second.map REv.net ++
      [.answer 0 2 (some (Engine.Demo.lid 1 1 1)) 70 9 (.higherVote Net.Demo.v2c) (some (Engine.Demo.lid 1 1 1))])
    (p := fun R => decide (∃ c ∈ R.checks, (2, .higherVote Net.Demo.v2c) ∈ c.answers)) (by decide +kernel)
  exact ⟨R, h1, of_decide_eq_true h2⟩

/-- Node 2 was asked after it crashed and resumed, node 3 confirmed it, and it has applied the position to read at, and the
write at index 4 that it had applied before the crash. -/
example : ∃ R, RReach Engine.Demo.m3 true R ∧ ∃ c ∈ R.checks, c.calm = true ∧ c.done = some .ok ∧ c.granted = [3, 2] ∧
    nextIndex c.read ≤ nextIndex (R.net.nodes 2).sm.applied ∧ ∃ x ∈ c.seen, x.1 = 2 ∧ x.2.id.index = 4 := by
  obtain ⟨R, h1, h2⟩ := RNet.shows_ok (m0 := Engine.Demo.m3) (dbg := true) (.init start)
    (evs := (first ++ second ++ fifth ++ kept).map REv.net ++ [.ask 2, .answer 0 3 none 70 9 .success none, .collect 0 3 .success])
    (p := fun R => decide (∃ c ∈ R.checks, c.calm = true ∧ c.done = some .ok ∧ c.granted = [3, 2] ∧
      nextIndex c.read ≤ nextIndex (R.net.nodes 2).sm.applied ∧ ∃ x ∈ c.seen, x.1 = 2 ∧ x.2.id.index = 4)) (by decide +kernel)
  exact ⟨R, h1, of_decide_eq_true h2⟩

/-- C25 is false for the calls of the code: see `C25_net_false`; the leader is asked after it resumed, and node 3 confirms
it. -/
theorem C25_call_false : ¬ C25_call_statement fun _ => True := by
  intro hall
  obtain ⟨R, h1, h2⟩ := RNet.shows_ok (m0 := Engine.Demo.m3) (dbg := true) (.init start)
    (evs := (first ++ second ++ fifth ++ forgot).map REv.net ++ [.ask 2, .answer 0 3 none 70 9 .success none, .collect 0 3 .success])
    (p := fun R => decide (∃ c ∈ R.checks, c.done = some .ok ∧ nextIndex c.read ≤ nextIndex (R.net.nodes 2).sm.applied ∧
      ∃ x ∈ c.seen, ¬ ∃ a ∈ (R.net.nodes 2).sm.applied.toList, x.2.id.index ≤ a.index)) (by decide +kernel)
  obtain ⟨c, hc, hd, hj, x, hx, hn⟩ := of_decide_eq_true h2
  obtain ⟨a, ha, h3⟩ := hall Engine.Demo.m3 true R (by decide) h1 c hc trivial hd 2 hj x hx
  exact hn ⟨a, by rw [ha]; simp, h3⟩

end Openraft.Props
