import Verif.Net.Cex
import Verif.Props.NetProps

/-!
# The restrictions of the cluster of real nodes are needed

`Verif/Props/NetProps.lean` proves C04 for clusters of the real nodes under the restrictions of `Verif/Net/Model.lean`. Here
restrictions are dropped one by one: for each of seven, there is an execution of the code (engine, command queue,
log store, worker; in a debug build, for `fits` in a release build) in which two state machines get different entries
for one index. All other restrictions hold in it. Left: `quietLeader` (see `C26_elect_on_leader`).
-/

set_option autoImplicit false

namespace Openraft.Props
open Openraft.Engine Openraft.Net Openraft.Net.Play
open Openraft.Net.Demo (first second)

/-- C04 for clusters of real nodes under some rules: no two state machines ever get different entries for one index -/
def C04_net_statement (R : NetRules) : Prop :=
  ∀ (m0 : Membership) (dbg : Bool) (X : XNet), m0.configs ≠ [] → XReach R m0 dbg X →
    ∀ x ∈ X.net.hist, ∀ y ∈ X.net.hist, x.2.id.index = y.2.id.index → x.2 = y.2

/-- Missing for C04: executions without the restrictions. -/
theorem C04_net_rules_partial : C04_net_statement .all :=
  fun _ _ _ hm0 h _ hx _ hy hi => C04_net_partial hm0 h.toReach hx hy hi

/-- A cluster in which two leaders commit, as an execution under all rules. -/
example : ∃ X, XReach .all Engine.Demo.m3 true X ∧ (∃ x ∈ X.net.hist, x = (1, ⟨⟨⟨1, 1⟩, 1⟩, .blank⟩)) ∧
    ∃ x ∈ X.net.hist, x = (2, ⟨⟨⟨2, 2⟩, 3⟩, .blank⟩) := by
  obtain ⟨N, h1, h2⟩ := Net.shows_ok (m0 := Engine.Demo.m3) (dbg := true) (N := Net.init Net.Demo.start) (evs := first ++ second)
    (p := fun N => decide ((1, ⟨⟨⟨1, 1⟩, 1⟩, .blank⟩) ∈ N.hist) && decide ((2, ⟨⟨⟨2, 2⟩, 3⟩, .blank⟩) ∈ N.hist)) (by decide +kernel)
  obtain ⟨X, h3, rfl⟩ := XReach.ofReach (R := .all) ⟨_, h1⟩
  simp only [Bool.and_eq_true, decide_eq_true_eq] at h2
  exact ⟨X, h3, ⟨_, h2.1, rfl⟩, ⟨_, h2.2, rfl⟩⟩

theorem not_C04_net {R : NetRules} {m0 : Membership} {dbg : Bool} {fs : Script} (hm0 : m0.configs ≠ [])
    (h : fresh.shows R m0 dbg fs clash = true) : ¬ C04_net_statement R := by
  intro hall
  obtain ⟨X, h1, h2⟩ := XNet.shows_ok (.init start) h
  obtain ⟨x, hx, y, hy, h3, h4⟩ := clash_spec h2
  exact h4 (hall m0 dbg X hm0 h1 x hx y hy h3)

/-- The wrong quorum value of `VecProgress` (C12). -/
theorem C04_net_needs_exactQuorum : ¬ C04_net_statement { NetRules.all with exactQuorum := false } :=
  not_C04_net (m0 := m5) (dbg := true) (fs := cexQuorum) (by decide) (by decide +kernel)

/-- Replication tasks that go on after their leader stepped down (C28). -/
theorem C04_net_needs_fenceTasks : ¬ C04_net_statement { NetRules.all with fenceTasks := false } :=
  not_C04_net (m0 := m5) (dbg := true) (fs := cexFence) (by decide) (by decide +kernel)

/-- A membership proposed by a leader that has not committed an entry of its own (C29). -/
theorem C04_net_needs_ownTermGate : ¬ C04_net_statement { NetRules.all with ownTermGate := false } :=
  not_C04_net (m0 := m134) (dbg := true) (fs := cexGate) (by decide) (by decide +kernel)

/-- A leader that resumes after it lost entries (C27). -/
theorem C04_net_needs_losslessResume : ¬ C04_net_statement { NetRules.all with losslessResume := false } :=
  not_C04_net (m0 := Engine.Demo.m3) (dbg := true) (fs := cexResume) (by decide) (by decide +kernel)

/-- A snapshot that conflicts with the log, and a crash (C41). -/
theorem C04_net_needs_snapAgrees : ¬ C04_net_statement { NetRules.all with snapAgrees := false } :=
  not_C04_net (m0 := m123) (dbg := true) (fs := cexSnapshot) (by decide) (by decide +kernel)

/-- A membership that is kept though its entry was dropped for a snapshot (C30). -/
theorem C04_net_needs_snapMember : ¬ C04_net_statement { NetRules.all with snapMember := false } :=
  not_C04_net (m0 := m1) (dbg := true) (fs := cexPhantom) (by decide) (by decide +kernel)
/-- A log that does not fit the state machine after a restart (C32). -/
theorem C04_net_needs_fits : ¬ C04_net_statement { NetRules.all with fits := false } :=
  not_C04_net (m0 := m5) (dbg := false) (fs := cexFits) (by decide) (by decide +kernel)

/-! ## C02 -/

/-- C02 for clusters of real nodes under some rules: two logs that have an entry with the same id are the same up to it -/
def C02_net_statement (R : NetRules) : Prop :=
  ∀ (m0 : Membership) (dbg : Bool) (X : XNet), m0.configs ≠ [] → XReach R m0 dbg X →
    ∀ (i j : NodeId) (s t : LogStore), Stores (X.net.nodes i) s → Stores (X.net.nodes j) t →
      ∀ a ∈ s.entries, ∀ b ∈ t.entries, a.id = b.id →
        a = b ∧ ∀ x ∈ s.entries, ∀ y ∈ t.entries, x.id.index = y.id.index → x.id.index ≤ a.id.index → x = y

/-- Missing for C02: executions without the restrictions. -/
theorem C02_net_rules_partial : C02_net_statement .all :=
  fun _ _ _ hm0 h _ _ _ _ hs ht _ ha _ hb hid => C02_net_partial hm0 h.toReach .refl hs ht ha hb hid

/-- the logs of two nodes differ below a common id -/
def netMismatch (i j : NodeId) (X : XNet) : Bool :=
  decide (∃ a ∈ (X.net.nodes i).rd.entries, ∃ b ∈ (X.net.nodes j).rd.entries, a.id = b.id ∧
    ∃ x ∈ (X.net.nodes i).rd.entries, ∃ y ∈ (X.net.nodes j).rd.entries, x.id.index = y.id.index ∧ x.id.index ≤ a.id.index ∧ x ≠ y)

theorem not_C02_net {R : NetRules} {m0 : Membership} {dbg : Bool} {fs : Script} (i j : NodeId) (hm0 : m0.configs ≠ [])
    (h : fresh.shows R m0 dbg fs (netMismatch i j) = true) : ¬ C02_net_statement R := by
  intro hall
  obtain ⟨X, h1, h2⟩ := XNet.shows_ok (.init start) h
  obtain ⟨a, ha, b, hb, hid, x, hx, y, hy, h3, h4, h5⟩ := of_decide_eq_true h2
  exact h5 ((hall m0 dbg X hm0 h1 i j _ _ (Or.inl rfl) (Or.inl rfl) a ha b hb hid).2 x hx y hy h3 h4)

theorem C02_net_needs_fenceTasks : ¬ C02_net_statement { NetRules.all with fenceTasks := false } :=
  not_C02_net 2 3 (m0 := m5) (dbg := true) (fs := cexFence) (by decide) (by decide +kernel)

theorem C02_net_needs_losslessResume : ¬ C02_net_statement { NetRules.all with losslessResume := false } :=
  not_C02_net 1 3 (m0 := Engine.Demo.m3) (dbg := true) (fs := cexResume) (by decide) (by decide +kernel)

/-! ## C03 -/

/-- C03 for clusters of real nodes under some rules: what a leader has committed, every leader with a greater id has -/
def C03_net_statement (R : NetRules) : Prop :=
  ∀ (m0 : Membership) (dbg : Bool) (X : XNet), m0.configs ≠ [] → XReach R m0 dbg X →
    ∀ (i j : NodeId) (l l' : Engine.Leader) (c : LogId), (X.net.nodes i).eng.leader = some l → (X.net.nodes i).disk.vote = l.vote →
      (X.net.nodes i).eng.st.committed = some c → (X.net.nodes j).eng.leader = some l' → l.vote.leaderId < l'.vote.leaderId →
      ∀ x ∈ (X.net.nodes i).rd.entries, x.id.index ≤ c.index → Purged (X.net.nodes j) x.id.index ∨ Holds (X.net.nodes j) x

/-- Missing for C03: executions without the restrictions. -/
theorem C03_net_rules_partial : C03_net_statement .all :=
  fun _ _ _ hm0 h _ _ _ _ _ hl hd hc hl' hlt _ hx hxc => C03_net_partial hm0 h.toReach .refl hl hd hc hl' hlt hx hxc

/-- leader `i` has committed an entry that the later leader `j` does not have -/
def netLost (i j : NodeId) (X : XNet) : Bool :=
  decide (∃ l ∈ (X.net.nodes i).eng.leader.toList, ∃ l' ∈ (X.net.nodes j).eng.leader.toList, ∃ c ∈ (X.net.nodes i).eng.st.committed.toList,
    (X.net.nodes i).disk.vote = l.vote ∧ l.vote.leaderId < l'.vote.leaderId ∧ (X.net.nodes j).done = (X.net.nodes j).eng.out.length ∧
    ∃ x ∈ (X.net.nodes i).rd.entries, x.id.index ≤ c.index ∧ nextIndex (X.net.nodes j).rd.purged ≤ x.id.index ∧ x ∉ (X.net.nodes j).rd.entries)

theorem not_C03_net {R : NetRules} {m0 : Membership} {dbg : Bool} {fs : Script} (i j : NodeId) (hm0 : m0.configs ≠ [])
    (h : fresh.shows R m0 dbg fs (netLost i j) = true) : ¬ C03_net_statement R := by
  intro hall
  obtain ⟨X, h1, h2⟩ := XNet.shows_ok (.init start) h
  obtain ⟨l, hl, l', hl', c, hc, hd, hlt, hq, x, hx, hxc, hp, hn⟩ := of_decide_eq_true h2
  have hnil : (X.net.nodes j).eng.out.drop (X.net.nodes j).done = [] := by rw [hq]; simp
  rcases hall m0 dbg X hm0 h1 i j l l' c (by simpa using hl) hd (by simpa using hc) (by simpa using hl') hlt x hx hxc with
    (h3 | ⟨u, hu, _⟩) | (h3 | ⟨v, es, hu, _⟩)
  · exact absurd h3 (by omega)
  · rw [hnil] at hu; simp at hu
  · exact hn h3
  · rw [hnil] at hu; simp at hu

theorem C03_net_needs_exactQuorum : ¬ C03_net_statement { NetRules.all with exactQuorum := false } :=
  not_C03_net 1 2 (m0 := m5) (dbg := true) (fs := cexQuorum) (by decide) (by decide +kernel)

theorem C03_net_needs_ownTermGate : ¬ C03_net_statement { NetRules.all with ownTermGate := false } :=
  not_C03_net 2 1 (m0 := m134) (dbg := true) (fs := cexGate) (by decide) (by decide +kernel)

theorem C03_net_needs_snapAgrees : ¬ C03_net_statement { NetRules.all with snapAgrees := false } :=
  not_C03_net 4 3 (m0 := m123) (dbg := true) (fs := cexSnapshot) (by decide) (by decide +kernel)

theorem C03_net_needs_fits : ¬ C03_net_statement { NetRules.all with fits := false } :=
  not_C03_net 1 3 (m0 := m5) (dbg := false) (fs := cexFits) (by decide) (by decide +kernel)

theorem C03_net_needs_snapMember : ¬ C03_net_statement { NetRules.all with snapMember := false } :=
  not_C03_net 1 2 (m0 := m1) (dbg := true) (fs := cexPhantom) (by decide) (by decide +kernel)

end Openraft.Props
