import Verif.Cluster.Read
import Verif.Cluster.Elect
import Verif.Cluster.Cex
import Verif.Props.QuorumProps

/-!
# Safety of the cluster: C01, C02, C03, C04, C06, C25, C27, C28, C29, C41

`m0` is the membership given to `initialize`, `R` the restrictions of the executions; `Rules.none` is the
code as it is. The theorems that need restrictions are `_partial`; for each of them the statement without
restrictions is refuted by a concrete execution, and it is shown that none of the five restrictions of
`Rules.Safe` can be dropped.
-/

set_option autoImplicit false

namespace Openraft.Props
open Openraft Openraft.Cluster

variable {m0 : Membership} {R : Rules}

/-- No restriction: the code as it is. -/
def Rules.none : Rules := ⟨false, false, false, false, false, false⟩

/-! ## C01 -/

/-- Two leaders with the same leader id, at the same time or one later, are on the same node. Holds for
all executions. -/
theorem C01_one_node {s s' : State} (h : Reachable m0 R s) (hs : Steps m0 R s s') {n n' : NodeId}
    {ld ld' : Leader} (hl : (s.nodes n).leader = some ld) (hl' : (s'.nodes n').leader = some ld')
    (he : ld.lid = ld'.lid) : n = n' := by
  have h1 := ((reach_einv h).node n).lead ld hl
  have h2 := ((reach_einv (h.steps hs)).node n').lead ld' hl'
  rw [← h1.2, he, h2.2]

theorem quorum_spec {configs : List (List NodeId)} {S : List NodeId} (hS : S.Nodup)
    (h : isQuorum configs S = true) : Spec.JointQuorum (configs.map List.toFinset) S.toFinset := by
  rw [isQuorum_iff] at h
  intro c hc
  obtain ⟨c', hc', rfl⟩ := List.mem_map.1 hc
  have h1 := h c' hc'
  rw [countIn_eq_card hS] at h1
  exact lt_of_le_of_lt (List.toFinset_card_le c') h1

/-- A leader was granted its vote by a quorum of the membership in the log it presented; each of these
nodes stored that vote and never goes back behind it. Holds for all executions. -/
theorem C01_granted_by_quorum {s : State} (h : Reachable m0 R s) {n : NodeId} {ld : Leader}
    (hl : (s.nodes n).leader = some ld) :
    ∃ (l : Log) (S : List NodeId), Msg.voteReq ld.lid (lastId l) ∈ s.msgs ∧
      Spec.JointQuorum ((effMembership l).configs.map List.toFinset) S.toFinset ∧
      ∀ q ∈ S, Msg.grant q ld.lid ∈ s.msgs ∧ (⟨ld.lid, false⟩ : Vote) ≤ (s.nodes q).vote := by
  have hE := reach_einv h
  obtain ⟨h1, _⟩ := (hE.node n).lead ld hl
  have := (hE.node n).vote (by rw [h1])
  rw [h1] at this
  obtain ⟨l, S, h2, h3, h4, h5⟩ := this
  exact ⟨l, S, h2, quorum_spec h3 h4, fun q hq => ⟨h5 q hq, (hE.node q).grants _ (h5 q hq)⟩⟩

/-- After `normal` and `normal2` node 3 leads with id `⟨2, 3⟩`; at the end of `normal` it was node 1 with
`⟨1, 1⟩`. -/
example : ∃ s s' ld ld', Reachable m3 Rules.none s ∧ Steps m3 Rules.none s s' ∧
    (s.nodes 1).leader = some ld ∧ ld.lid = ⟨1, 1⟩ ∧ (s'.nodes 3).leader = some ld' ∧ ld'.lid = ⟨2, 3⟩ := by
  obtain ⟨s, s', h1, h2, h3, h4⟩ := witness2 (m0 := m3) (R := Rules.none) (fs := normal) (fs' := normal2)
    (P := fun s => InOffice s 1 ⟨1, 1⟩) (P' := fun s => InOffice s 3 ⟨2, 3⟩) (by decide +kernel)
  cases hl : (s.nodes 1).leader with
  | none => simp [InOffice, hl] at h3
  | some ld =>
    cases hl' : (s'.nodes 3).leader with
    | none => simp [InOffice, hl'] at h4
    | some ld' =>
      simp only [InOffice, hl, hl', beq_iff_eq] at h3 h4
      exact ⟨s, s', ld, ld', h1, h2, hl, h3, hl', h4⟩

/-- Missing for C01 in full: without the restrictions the entries of one leader id need not form one
sequence, see `C27_false`. -/
theorem C01_one_sequence_partial (hR : R.Safe) (hm0 : m0.configs ≠ []) {s s' : State} (h : Reachable m0 R s)
    (hs : Steps m0 R s s') {n n' i : Nat} {e e' : Entry} (he : (s.nodes n).mem[i]? = some e)
    (he' : (s'.nodes n').mem[i]? = some e') (hid : e.lid = e'.lid) :
    (s.nodes n).mem.take (i + 1) = (s'.nodes n').mem.take (i + 1) := by
  obtain ⟨g, g', _, hle, hi, hi'⟩ := two_inv hR hm0 h hs
  have hg : Good g' (s.nodes n).mem := fun j x hx => ((hi.node n).good j x hx).trans (hle.ll _)
  exact GInv.matching hg (hi'.node n').good he he' hid

/-! ## C02 -/

/-- C02 for executions restricted by `R`. -/
def C02_statement (R : Rules) : Prop :=
  ∀ (m0 : Membership) (s : State), m0.configs ≠ [] → Reachable m0 R s →
    ∀ (n n' i : Nat) (e e' : Entry), (s.nodes n).mem[i]? = some e → (s.nodes n').mem[i]? = some e' →
      e.lid = e'.lid → ∀ j ≤ i, (s.nodes n).mem[j]? = (s.nodes n').mem[j]?

/-- Log matching. Missing for C02: executions that the five restrictions of `Rules.Safe` exclude
(`C02_false`). -/
theorem C02_log_matching_partial (hR : R.Safe) : C02_statement R := by
  intro m0 s hm0 h n n' i e e' he he' hid j hj
  have := C01_one_sequence_partial hR hm0 h .refl he he' hid
  rw [← get_take (a := (s.nodes n).mem) (n := i + 1) (by omega), this, get_take (by omega)]

/-- nodes `1` and `3` agree on the log id at index 3 but not on the entry at index 2 -/
def mismatch (s : State) : Bool :=
  (idAt (s.nodes 1).mem 3).isSome && idAt (s.nodes 1).mem 3 == idAt (s.nodes 3).mem 3 &&
    (s.nodes 1).mem[2]? != (s.nodes 3).mem[2]?

theorem not_C02 {s : State} (hm0 : m0.configs ≠ []) (h : Reachable m0 R s) (hm : mismatch s = true) :
    ¬ C02_statement R := by
  intro hC
  simp only [mismatch, Bool.and_eq_true, beq_iff_eq, bne_iff_ne, ne_eq] at hm
  obtain ⟨⟨h1, h2⟩, h3⟩ := hm
  cases hx : (s.nodes 1).mem[3]? with
  | none => simp [idAt, hx] at h1
  | some e =>
    cases hy : (s.nodes 3).mem[3]? with
    | none => simp [idAt, hx, hy] at h2
    | some e' =>
      simp only [idAt, hx, hy, Option.map_some, Option.some.injEq, LogId.mk.injEq, and_true] at h2
      exact h3 (hC m0 s hm0 h 1 3 3 e e' hx hy h2 2 (by omega))

/-- C02 is false for the code: a replication task of a leader that stepped down sends entries of the next
leader after entries of its own. -/
theorem C02_false : ¬ C02_statement Rules.none := by
  obtain ⟨s, h1, h2⟩ := witness (m0 := m5) (R := Rules.none) (fs := cexFence0 ++ cexFence1) (P := mismatch)
    (by decide +kernel)
  exact not_C02 (by decide) h1 h2

/-- The other restrictions do not help. -/
theorem C02_needs_fenceTasks : ¬ C02_statement { Rules.all with fenceTasks := false } := by
  obtain ⟨s, h1, h2⟩ := witness (m0 := m5) (R := { Rules.all with fenceTasks := false })
    (fs := cexFence0 ++ cexFence1) (P := mismatch) (by decide +kernel)
  exact not_C02 (by decide) h1 h2

/-- In a restricted execution nodes 2 and 3 both have the log id `⟨⟨2, 3⟩, 4⟩`. -/
example : ∃ s, Reachable m3 Rules.all s ∧ idAt (s.nodes 2).mem 4 = some ⟨⟨2, 3⟩, 4⟩ ∧
    idAt (s.nodes 3).mem 4 = some ⟨⟨2, 3⟩, 4⟩ := by
  obtain ⟨s, h1, h2⟩ := witness (m0 := m3) (R := Rules.all) (fs := normal ++ normal2)
    (P := fun s => decide (idAt (s.nodes 2).mem 4 = some ⟨⟨2, 3⟩, 4⟩ ∧ idAt (s.nodes 3).mem 4 = some ⟨⟨2, 3⟩, 4⟩))
    (by decide +kernel)
  exact ⟨s, h1, by simpa using h2⟩

/-! ## C03, C29 -/

/-- C03 for executions restricted by `R`: an entry that a leader knows as committed is in the log of every
leader with a greater id, earlier, now or later. -/
def C03_statement (R : Rules) : Prop :=
  ∀ (m0 : Membership) (s s' : State), m0.configs ≠ [] → Reachable m0 R s → Reachable m0 R s' →
    (Steps m0 R s s' ∨ Steps m0 R s' s) →
    ∀ (n n' : NodeId) (ld ld' : Leader), (s.nodes n).leader = some ld → (s'.nodes n').leader = some ld' →
      ld.lid < ld'.lid → ∀ i < (s.nodes n).committed, (s'.nodes n').mem[i]? = (s.nodes n).mem[i]?

theorem CPre.cl (hm0 : m0.configs ≠ []) {g : Ghost} (h : GInv m0 g) {L L' : LeaderId} {l l' : Log}
    {S : List NodeId} (hc : CPre g L l) (hlt : L < L') (hS : g.el L' = some S) (hl : g.cl L' = some l') :
    l <+: l' := by
  rcases hc with rfl | ⟨r, hr, hle, hp⟩
  · exact List.nil_prefix
  · exact hp.trans (h.leaderComplete hm0 L' r hr S l' hS hl (lt_of_le_of_lt hle hlt))

/-- Leader completeness. Missing for C03 (and for C29): executions that the five restrictions exclude
(`C03_false`). -/
theorem C03_leader_completeness_partial (hR : R.Safe) : C03_statement R := by
  intro m0 s s' hm0 h h' hss n n' ld ld' hl hl' hlt i hi
  suffices hp : (s.nodes n).mem.take (s.nodes n).committed <+: (s'.nodes n').mem by
    have hlen : i < (s.nodes n).mem.length := by
      rcases hss with hs | hs
      · obtain ⟨g, _, _, _, hg, _⟩ := two_inv hR hm0 h hs
        exact lt_of_lt_of_le hi (hg.node n).commLe
      · obtain ⟨g, _, _, _, _, hg⟩ := two_inv hR hm0 h' hs
        exact lt_of_lt_of_le hi (hg.node n).commLe
    rw [get_of_pre hp (by rw [List.length_take]; omega), get_take hi]
  rcases hss with hs | hs
  · obtain ⟨g, g', _, hle, hg, hg'⟩ := two_inv hR hm0 h hs
    have hL := (hg.node n).lead ld hl
    have hL' := (hg'.node n').lead ld' hl'
    obtain ⟨S, hS⟩ := hL'.el
    obtain ⟨l, hcl, hclp, _⟩ := hg'.ghost.elCl _ _ hS
    have hc : CPre g' ld.lid ((s.nodes n).mem.take (s.nodes n).committed) := by
      have := (hg.node n).comm
      rw [hL.vote] at this
      rcases this with h0 | ⟨r, hr, h1, h2⟩
      · exact Or.inl h0
      · refine Or.inr ⟨r, hle.commits r hr, h1, ?_⟩
        have hlen := (hg.ghost.commit r hr).2.2
        have : (g.ll r.L).take r.m = (g'.ll r.L).take r.m := (take_eq_of_pre (hle.ll r.L) (by omega)).symm
        rw [← this]; exact h2
    have := (CPre.cl hm0 hg'.ghost hc hlt hS hcl).trans hclp
    rw [hL'.ll] at this; exact this
  · obtain ⟨g', g, _, hle, hg', hg⟩ := two_inv hR hm0 h' hs
    have hL := (hg.node n).lead ld hl
    have hL' := (hg'.node n').lead ld' hl'
    obtain ⟨S, hS⟩ := hL'.el
    obtain ⟨l, hcl, hclp, _⟩ := hg'.ghost.elCl _ _ hS
    have hc := (hg.node n).comm
    rw [hL.vote] at hc
    have := (CPre.cl hm0 hg.ghost hc hlt (hle.el _ _ hS) (hle.cl _ _ hcl)).trans hclp
    rw [hL'.ll] at this; exact this

/-- Both nodes lead, `n` with a smaller id has committed index `i`, `n'` has another entry there. -/
def lost (n n' i : Nat) (lid lid' : LeaderId) (s : State) : Bool :=
  InOffice s n lid && InOffice s n' lid' && decide (lid < lid') && decide (i < (s.nodes n).committed) &&
    (s.nodes n').mem[i]? != (s.nodes n).mem[i]?

theorem inOffice_spec {s : State} {n : NodeId} {lid : LeaderId} (h : InOffice s n lid = true) :
    ∃ ld, (s.nodes n).leader = some ld ∧ ld.lid = lid := by
  rw [InOffice] at h
  split at h
  · rename_i ld hl; exact ⟨ld, hl, by simpa using h⟩
  · cases h

theorem not_C03 {s : State} {n n' i : Nat} {lid lid' : LeaderId} (hm0 : m0.configs ≠ [])
    (h : Reachable m0 R s) (hm : lost n n' i lid lid' s = true) : ¬ C03_statement R := by
  intro hC
  simp only [lost, Bool.and_eq_true, decide_eq_true_eq, bne_iff_ne, ne_eq] at hm
  obtain ⟨⟨⟨⟨h1, h2⟩, h3⟩, h4⟩, h5⟩ := hm
  obtain ⟨ld, hl, rfl⟩ := inOffice_spec h1
  obtain ⟨ld', hl', rfl⟩ := inOffice_spec h2
  exact h5 (hC m0 s s hm0 h h (Or.inl .refl) n n' ld ld' hl hl' h3 i h4)

/-- C03 (and C29) is false for the code: two leaders in sequence propose memberships that do not
intersect, because a leader may propose one before it committed an entry of its own. -/
theorem C29_false : ¬ C03_statement Rules.none := by
  obtain ⟨s, h1, h2⟩ := witness (m0 := m134) (R := Rules.none) (fs := cexGate)
    (P := lost 2 1 3 ⟨2, 2⟩ ⟨3, 1⟩) (by decide +kernel)
  exact not_C03 (by decide) h1 h2

theorem C29_needs_ownTermGate : ¬ C03_statement { Rules.all with ownTermGate := false } := by
  obtain ⟨s, h1, h2⟩ := witness (m0 := m134) (R := { Rules.all with ownTermGate := false }) (fs := cexGate)
    (P := lost 2 1 3 ⟨2, 2⟩ ⟨3, 1⟩) (by decide +kernel)
  exact not_C03 (by decide) h1 h2

/-- The wrong quorum value of `VecProgress` (C12) breaks it too. -/
theorem C03_false : ¬ C03_statement { Rules.all with exactQuorum := false } := by
  obtain ⟨s, h1, h2⟩ := witness (m0 := m5) (R := { Rules.all with exactQuorum := false }) (fs := cexQuorum)
    (P := lost 1 2 5 ⟨1, 1⟩ ⟨2, 2⟩) (by decide +kernel)
  exact not_C03 (by decide) h1 h2

/-- C41 is false for the code: a crash between the truncation and the installation of a snapshot lets a node
forget a committed membership. -/
theorem C41_false : ¬ C03_statement { Rules.all with atomicSnapshot := false } := by
  obtain ⟨s, h1, h2⟩ := witness (m0 := m123) (R := { Rules.all with atomicSnapshot := false })
    (fs := cexSnap0 ++ cexSnap1) (P := lost 4 3 2 ⟨2, 4⟩ ⟨3, 3⟩) (by decide +kernel)
  exact not_C03 (by decide) h1 h2

/-- In a restricted execution with membership changes leader 1 committed four entries and 2 is elected
later under another config. -/
example : ∃ s, Reachable m134 Rules.all s ∧ InOffice s 1 ⟨1, 1⟩ = true ∧ (s.nodes 1).committed = 4 ∧
    InOffice s 2 ⟨2, 2⟩ = true ∧ (effMembership (s.nodes 2).mem).configs = [[2, 3, 4]] := by
  obtain ⟨s, h1, h2⟩ := witness (m0 := m134) (R := Rules.all) (fs := normalChange)
    (P := fun s => decide (InOffice s 1 ⟨1, 1⟩ = true ∧ (s.nodes 1).committed = 4 ∧
      InOffice s 2 ⟨2, 2⟩ = true ∧ (effMembership (s.nodes 2).mem).configs = [[2, 3, 4]])) (by decide +kernel)
  exact ⟨s, h1, by simpa using h2⟩

/-! ## C04 -/

/-- C04 for executions restricted by `R`. `hist` contains every content a state machine ever had. -/
def C04_statement (R : Rules) : Prop :=
  ∀ (m0 : Membership) (s : State), m0.configs ≠ [] → Reachable m0 R s →
    ∀ (n n' : NodeId) (l l' : Log), (n, l) ∈ s.hist → (n', l') ∈ s.hist →
      ∀ (i : Nat) (e e' : Entry), l[i]? = some e → l'[i]? = some e' → e = e'

/-- State machine safety. Missing for C04: executions that the five restrictions exclude. -/
theorem C04_state_machine_safety_partial (hR : R.Safe) : C04_statement R := by
  intro m0 s hm0 h n n' l l' hl hl' i e e' he he'
  obtain ⟨g, _, hi⟩ := reach_inv hR hm0 h
  obtain ⟨L, hc⟩ := hi.hist _ hl
  obtain ⟨L', hc'⟩ := hi.hist _ hl'
  rcases hc.total hm0 hi.ghost hc' with hp | hp
  · have := get_of_pre_some hp he
    rw [he'] at this; exact (Option.some.inj this).symm
  · have := get_of_pre_some hp he'
    rw [he] at this; exact Option.some.inj this

theorem not_C04 {s : State} (hm0 : m0.configs ≠ []) (h : Reachable m0 R s) (hm : clash s = true) :
    ¬ C04_statement R := by
  intro hC
  obtain ⟨a, ha, b, hb, i, x, y, hx, hy, hne⟩ := clash_spec hm
  exact hne (hC m0 s hm0 h a.1 b.1 a.2 b.2 ha hb i x y hx hy)

theorem C04_false : ¬ C04_statement Rules.none := by
  obtain ⟨s, h1, h2⟩ := witness (m0 := m3) (R := Rules.none) (fs := cexResume) (P := clash) (by decide +kernel)
  exact not_C04 (by decide) h1 h2

/-- None of the restrictions can be dropped. -/
theorem C04_needs_exactQuorum : ¬ C04_statement { Rules.all with exactQuorum := false } := by
  obtain ⟨s, h1, h2⟩ := witness (m0 := m5) (R := { Rules.all with exactQuorum := false }) (fs := cexQuorum)
    (P := clash) (by decide +kernel)
  exact not_C04 (by decide) h1 h2

theorem C04_needs_fenceTasks : ¬ C04_statement { Rules.all with fenceTasks := false } := by
  obtain ⟨s, h1, h2⟩ := witness (m0 := m5) (R := { Rules.all with fenceTasks := false })
    (fs := cexFence0 ++ cexFence1 ++ cexFence2) (P := clash) (by decide +kernel)
  exact not_C04 (by decide) h1 h2

theorem C04_needs_ownTermGate : ¬ C04_statement { Rules.all with ownTermGate := false } := by
  obtain ⟨s, h1, h2⟩ := witness (m0 := m134) (R := { Rules.all with ownTermGate := false }) (fs := cexGate)
    (P := clash) (by decide +kernel)
  exact not_C04 (by decide) h1 h2

theorem C04_needs_losslessResume :
    ¬ C04_statement { Rules.all with losslessResume := false, keepCommitted := false } := by
  obtain ⟨s, h1, h2⟩ := witness (m0 := m3)
    (R := { Rules.all with losslessResume := false, keepCommitted := false }) (fs := cexResume)
    (P := clash) (by decide +kernel)
  exact not_C04 (by decide) h1 h2

theorem C04_needs_atomicSnapshot : ¬ C04_statement { Rules.all with atomicSnapshot := false } := by
  obtain ⟨s, h1, h2⟩ := witness (m0 := m123) (R := { Rules.all with atomicSnapshot := false })
    (fs := cexSnap0 ++ cexSnap1) (P := clash) (by decide +kernel)
  exact not_C04 (by decide) h1 h2

/-- In a restricted execution nodes 1 and 2 applied three entries each, the last one with payload 7. -/
example : ∃ s l l', Reachable m3 Rules.all s ∧ (1, l) ∈ s.hist ∧ (2, l') ∈ s.hist ∧
    l[2]? = some (⟨⟨1, 1⟩, .normal 7⟩ : Entry) ∧ l'[2]? = some (⟨⟨1, 1⟩, .normal 7⟩ : Entry) := by
  obtain ⟨s, h1, h2⟩ := witness (m0 := m3) (R := Rules.all) (fs := normal)
    (P := fun s => s.hist.any fun a => s.hist.any fun b => decide (a.1 = 1 ∧ b.1 = 2 ∧
      a.2[2]? = some (⟨⟨1, 1⟩, .normal 7⟩ : Entry) ∧ b.2[2]? = some (⟨⟨1, 1⟩, .normal 7⟩ : Entry))) (by decide +kernel)
  obtain ⟨a, ha, h2⟩ := List.any_eq_true.1 h2
  obtain ⟨b, hb, h2⟩ := List.any_eq_true.1 h2
  simp only [decide_eq_true_eq] at h2
  obtain ⟨h3, h4, h5, h6⟩ := h2
  obtain ⟨a1, a2⟩ := a
  obtain ⟨b1, b2⟩ := b
  simp only at h3 h4
  subst h3; subst h4
  exact ⟨s, a2, b2, h1, ha, hb, h5, h6⟩

/-! ## C06 -/

/-- The vote of a node never decreases, over any number of steps of any kind, crashes included. (The vote of
the model is the durable one; `Verif/Engine` relates it to the vote in memory.) -/
theorem C06_votes_grow {s s' : State} (h : Reachable m0 R s) (hs : Steps m0 R s s') (n : NodeId) :
    (s.nodes n).vote ≤ (s'.nodes n).vote := steps_vote h hs n

/-- Node 2 moves from the vote of leader 1 to the vote of leader 3. -/
example : ∃ s s', Reachable m3 Rules.none s ∧ Steps m3 Rules.none s s' ∧
    (s.nodes 2).vote = ⟨⟨1, 1⟩, true⟩ ∧ (s'.nodes 2).vote = ⟨⟨2, 3⟩, true⟩ := by
  obtain ⟨s, s', h1, h2, h3, h4⟩ := witness2 (m0 := m3) (R := Rules.none) (fs := normal) (fs' := normal2)
    (P := fun s => decide ((s.nodes 2).vote = ⟨⟨1, 1⟩, true⟩))
    (P' := fun s => decide ((s.nodes 2).vote = ⟨⟨2, 3⟩, true⟩)) (by decide +kernel)
  exact ⟨s, s', h1, h2, by simpa using h3, by simpa using h4⟩

/-! ## C27 -/

/-- C27 for executions restricted by `R`: a log id never stands for two entries, on any nodes, now or
later. -/
def C27_statement (R : Rules) : Prop :=
  ∀ (m0 : Membership) (s s' : State), m0.configs ≠ [] → Reachable m0 R s → Steps m0 R s s' →
    ∀ (n n' i : Nat) (e e' : Entry), (s.nodes n).mem[i]? = some e → (s'.nodes n').mem[i]? = some e' →
      e.lid = e'.lid → e = e'

/-- Missing for C27: executions that the five restrictions exclude (`C27_false`). -/
theorem C27_log_id_unique_partial (hR : R.Safe) : C27_statement R := by
  intro m0 s s' hm0 h hs n n' i e e' he he' hid
  have := C01_one_sequence_partial hR hm0 h hs he he' hid
  have h1 : ((s.nodes n).mem.take (i + 1))[i]? = some e := by rw [get_take (by omega)]; exact he
  rw [this, get_take (by omega), he'] at h1
  exact (Option.some.inj h1).symm

theorem C27_false :
    ¬ C27_statement { Rules.all with losslessResume := false, keepCommitted := false } := by
  obtain ⟨s, h1, h2⟩ := witness (m0 := m3)
    (R := { Rules.all with losslessResume := false, keepCommitted := false }) (fs := cexResume)
    (P := fun s => decide ((s.nodes 1).mem[2]? = some (⟨⟨1, 1⟩, .normal 8⟩ : Entry) ∧
      (s.nodes 2).mem[2]? = some (⟨⟨1, 1⟩, .normal 7⟩ : Entry))) (by decide +kernel)
  simp only [decide_eq_true_eq] at h2
  intro hC
  have := hC m3 s s (by decide) h1 .refl 1 2 2 _ _ h2.1 h2.2 rfl
  exact absurd this (by decide)

/-! ## C28 -/

/-- C28 for executions restricted by `R`: a request in the name of a leader in office carries entries of its
log, and its `prev_log_id` is in that log. -/
def C28_statement (R : Rules) : Prop :=
  ∀ (m0 : Membership) (s : State), m0.configs ≠ [] → Reachable m0 R s →
    ∀ (a : App), Msg.app a ∈ s.msgs → ∀ (s0 : State), Reachable m0 R s0 → (Steps m0 R s0 s ∨ Steps m0 R s s0) →
    ∀ (n : NodeId) (ld : Leader), (s0.nodes n).leader = some ld → ld.lid = a.lid →
      (0 < a.prev → ∀ e, (s0.nodes n).mem[a.prev - 1]? = some e → e.lid = a.prevLid) ∧
      ∀ i e e', a.entries[i]? = some e → (s0.nodes n).mem[a.prev + i]? = some e' → e = e'

theorem C28_own_entries_partial (hR : R.Safe) : C28_statement R := by
  intro m0 s hm0 h a ha s0 h0 hss n ld hl hlid
  obtain ⟨gs, g0, gm, hm, hn, h1, h2⟩ : ∃ gs g0 gm, Inv m0 s gs ∧ Inv m0 s0 g0 ∧ GhostLe gs gm ∧ GhostLe g0 gm := by
    rcases hss with hs | hs
    · obtain ⟨g, g', _, hle, hg, hg'⟩ := two_inv hR hm0 h0 hs
      exact ⟨g', g, g', hg', hg, GhostLe.refl _, hle⟩
    · obtain ⟨g, g', _, hle, hg, hg'⟩ := two_inv hR hm0 h hs
      exact ⟨g, g', g', hg, hg', hle, GhostLe.refl _⟩
  have hL := (hn.node n).lead ld hl
  have hmem : (s0.nodes n).mem <+: gm.ll a.lid := by rw [← hL.ll, hlid]; exact h2.ll _
  obtain ⟨_, hprev, hent, hpl, _⟩ := hm.msg _ ha
  have hent' := hent.trans (h1.ll a.lid)
  refine ⟨fun hpos e he => ?_, fun i e e' he he' => ?_⟩
  · obtain ⟨e0, he0, hl0⟩ := hpl hpos
    have h3 := get_of_pre_some (h1.ll a.lid) he0
    have h4 := get_of_pre_some hmem he
    rw [h3] at h4
    rw [← Option.some.inj h4]; exact hl0
  · have h3 : ((gs.ll a.lid).take a.prev ++ a.entries)[a.prev + i]? = some e := by
      rw [List.getElem?_append_right (by rw [List.length_take]; omega), List.length_take, Nat.min_eq_left hprev]
      simpa using he
    have h4 := get_of_pre_some hent' h3
    have h5 := get_of_pre_some hmem he'
    rw [h4] at h5
    exact Option.some.inj h5

/-- C28 is false for the code: a task of leader `⟨1, 1⟩` sends the entry that leader `⟨2, 2⟩` created. -/
theorem C28_false : ¬ C28_statement { Rules.all with fenceTasks := false } := by
  obtain ⟨s, s', h1, h2, h3, h4⟩ := witness2 (m0 := m5) (R := { Rules.all with fenceTasks := false })
    (fs := cexFence0.take 7) (fs' := cexFence0.drop 7 ++ cexFence1)
    (P := fun s => InOffice s 1 ⟨1, 1⟩ && decide ((s.nodes 1).mem[3]? = some (⟨⟨1, 1⟩, .normal 9⟩ : Entry)))
    (P' := fun s => decide (Msg.app ⟨⟨1, 1⟩, 3, ⟨1, 1⟩, [⟨⟨2, 2⟩, .normal 22⟩], 0⟩ ∈ s.msgs)) (by decide +kernel)
  simp only [Bool.and_eq_true, decide_eq_true_eq] at h3 h4
  obtain ⟨ld, hl, hlid⟩ := inOffice_spec h3.1
  intro hC
  have := (hC m5 s' (by decide) (h1.steps h2) _ h4 s h1 (Or.inl h2) 1 ld hl hlid).2 0 _ _ rfl h3.2
  exact absurd this (by decide)

/-- Requests with entries of the leader in office do occur. -/
example : ∃ s a, Reachable m3 Rules.all s ∧ Msg.app a ∈ s.msgs ∧ InOffice s 3 a.lid = true ∧
    a.entries.length = 5 := by
  obtain ⟨s, h1, h2⟩ := witness (m0 := m3) (R := Rules.all) (fs := normal ++ normal2)
    (P := fun s => s.msgs.any fun m => match m with
      | .app a => InOffice s 3 a.lid && decide (a.entries.length = 5)
      | _ => false) (by decide +kernel)
  obtain ⟨m, hm, h2⟩ := List.any_eq_true.1 h2
  split at h2
  · rename_i a
    simp only [Bool.and_eq_true, decide_eq_true_eq] at h2
    exact ⟨s, a, h1, hm, h2⟩
  · cases h2

/-! ## C25 -/

/-- position of the first own entry of leader `lid`, as a number of entries: `Leader::noop_log_id`,
`proposer/leader.rs:81-134` -/
def noopPos (l : Log) (lid : LeaderId) : Nat := l.findIdx (fun e => e.lid = lid) + 1

/-- `get_read_log_id`, `leader_handler/mod.rs:112-116`: the greater one of the blank entry of the leader and
the committed position -/
def readPos (nd : Node) (ld : Leader) : Nat := max (noopPos nd.mem ld.lid) nd.committed

/-- `handle_check_is_leader_request` (`core/raft_core.rs:279-430`) of leader `n` called in state `s1` ends
with `Ok`: every node of a quorum `G` of the effective membership at the call is the leader itself or answered
a request later without a greater vote. -/
def ReadOk (m0 : Membership) (R : Rules) (s1 : State) (n : NodeId) (ld : Leader) (G : List NodeId) : Prop :=
  (s1.nodes n).leader = some ld ∧ G.Nodup ∧ isQuorum (effMembership (s1.nodes n).mem).configs G = true ∧
    ∀ q ∈ G, q = n ∨ ∃ sq, Steps m0 R s1 sq ∧ (sq.nodes q).vote ≤ ⟨ld.lid, true⟩

/-- C25 for executions restricted by `R`: whatever any state machine had applied before the call (in
particular every write that was answered) is in the log of the answering node up to the read position. -/
def C25_statement (R : Rules) : Prop :=
  ∀ (m0 : Membership) (s0 s1 : State), m0.configs ≠ [] → Reachable m0 R s0 → Steps m0 R s0 s1 →
    ∀ (n : NodeId) (ld : Leader) (G : List NodeId), ReadOk m0 R s1 n ld G →
      ∀ (m : NodeId) (l : Log), (m, l) ∈ s0.hist → l <+: (s1.nodes n).mem.take (readPos (s1.nodes n) ld)

/-- Missing for C25: executions that the restrictions exclude (`C25_false`), and calls of `elect` on a
leader, which this model does not have. -/
theorem C25_read_sees_writes_partial (hR : R.Safe) (hk : R.keepCommitted = true) : C25_statement R := by
  intro m0 s0 s1 hm0 h0 hs n ld G ⟨hl, hGn, hGq, hG⟩ m l hml
  obtain ⟨g0, g1, hkeep, hle, hi0, hi1⟩ := two_inv hR hm0 h0 hs
  have hkeep1 : g1.keep = true := by rw [hle.keep, hkeep, hk]
  have hL := (hi1.node n).lead ld hl
  obtain ⟨S, hS⟩ := hL.el
  -- no member of `G` granted a later leader before the call
  have hno : ∀ q ∈ G, ∀ gr ∈ g1.grants, gr.q = q → gr.L ≤ ld.lid := by
    intro q hq gr hgr hgq
    rcases hG q hq with rfl | ⟨sq, hsq, hv⟩
    · have := (hi1.node q).grants gr hgr hgq
      rw [hL.vote] at this
      exact vote_false_le.1 this
    · obtain ⟨gq, hleq, hiq⟩ := steps_inv hR hm0 hi1 (by intro _; exact hk) hsq
      have := le_trans ((hiq.node q).grants gr (hleq.grants gr hgr) hgq) hv
      exact vote_false_le.1 this
  have hnew := hi1.ghost.noNewer hm0 hS (by rw [cfgs, hL.ll]; exact hGq) hGn hno
  obtain ⟨L, hc⟩ := hi0.hist _ hml
  rcases hc with h | ⟨r, hr, _, hp⟩
  · simp only at h; rw [h]; exact List.nil_prefix
  simp only at hp
  obtain ⟨⟨Sr, hSr⟩, hrpos, hrt, hrl, _⟩ := hi0.ghost.commit r hr
  have hr1 := hle.commits r hr
  have heq : (g0.ll r.L).take r.m = (g1.ll r.L).take r.m := (take_eq_of_pre (hle.ll r.L) (by omega)).symm
  rw [heq] at hp
  refine hp.trans ?_
  rcases lt_or_eq_of_le (hnew r.L Sr (hle.el _ _ hSr)) with hlt | heqL
  · -- committed by an earlier leader: before the blank entry
    obtain ⟨cl, hcl, hclp, hclh, _, _, _, hown, _⟩ := hi1.ghost.elCl _ _ hS
    have hpre := hi1.ghost.leaderComplete hm0 ld.lid r hr1 S cl hS hcl hlt
    have hlen : cl.length ≤ noopPos (s1.nodes n).mem ld.lid := by
      rw [noopPos]
      by_contra hcon
      have hx : (s1.nodes n).mem.findIdx (fun e => e.lid = ld.lid) < (s1.nodes n).mem.length := by
        have := hclp.length_le
        rw [hL.ll] at this; omega
      have h1 := List.findIdx_getElem (w := hx)
      have h2 : (g1.ll ld.lid)[(s1.nodes n).mem.findIdx (fun e => e.lid = ld.lid)]? =
          some ((s1.nodes n).mem[(s1.nodes n).mem.findIdx (fun e => e.lid = ld.lid)]) := by
        rw [hL.ll]; exact List.getElem?_eq_getElem hx
      rw [get_of_pre hclp (by omega)] at h2
      have := hi1.ghost.clLt _ _ hcl _ (List.mem_of_getElem? h2)
      rw [of_decide_eq_true h1] at this
      exact absurd this (lt_irrefl _)
    have := hpre.trans hclp
    rw [hL.ll] at this
    have hl2 := hpre.length_le
    exact pre_take_of_le this (by rw [readPos]; omega)
  · -- committed by this leader: it knows
    have := hL.own hkeep1 r hr1 heqL
    rw [heqL, hL.ll]
    exact take_pre_take (by rw [readPos]; omega)

/-- C25 is false for the code: after a restart the leader's read position is behind a write that it had
answered. -/
theorem C25_false : ¬ C25_statement { Rules.all with keepCommitted := false } := by
  obtain ⟨s, s', h1, h2, h3, h4⟩ := witness2 (m0 := m3) (R := { Rules.all with keepCommitted := false })
    (fs := cexRead0) (fs' := cexRead1) (P := fun s => s.hist.any fun a => decide (a.2.length = 3))
    (P' := fun s => decide ((s.nodes 1).leader.any (fun ld => readPos (s.nodes 1) ld == 2) = true ∧
      isQuorum (effMembership (s.nodes 1).mem).configs [1, 2] = true ∧
      (s.nodes 2).vote ≤ ⟨⟨1, 1⟩, true⟩ ∧ InOffice s 1 ⟨1, 1⟩ = true)) (by decide +kernel)
  obtain ⟨a, ha, h3⟩ := List.any_eq_true.1 h3
  simp only [decide_eq_true_eq] at h3 h4
  obtain ⟨h4, h5, h6, h7⟩ := h4
  obtain ⟨ld, hl, hlid⟩ := inOffice_spec h7
  intro hC
  have := hC m3 s s' (by decide) h1 h2 1 ld [1, 2] ⟨hl, by decide, h5, by
    intro q hq
    simp only [List.mem_cons, List.not_mem_nil, or_false] at hq
    rcases hq with rfl | rfl
    · exact Or.inl rfl
    · exact Or.inr ⟨s', .refl, by rw [hlid]; exact h6⟩⟩ a.1 a.2 ha
  have hlen := this.length_le
  rw [hl] at h4
  simp only [Option.any_some, beq_iff_eq] at h4
  rw [h4, h3, List.length_take] at hlen
  omega

/-- A read on leader 3 that nodes 2 and 3 confirm, after other nodes applied entries. -/
example : ∃ s0 s1 ld, Reachable m3 Rules.all s0 ∧ Steps m3 Rules.all s0 s1 ∧
    ReadOk m3 Rules.all s1 3 ld [2, 3] ∧ (∃ a ∈ s0.hist, a.1 = 1 ∧ a.2.length = 3) := by
  obtain ⟨s, s', h1, h2, h3, h4⟩ := witness2 (m0 := m3) (R := Rules.all) (fs := normal)
    (fs' := [electBy 3 [2]]) (P := fun s => s.hist.any fun a => decide (a.1 = 1 ∧ a.2.length = 3))
    (P' := fun s => decide (isQuorum (effMembership (s.nodes 3).mem).configs [2, 3] = true ∧
      (s.nodes 2).vote ≤ ⟨⟨2, 3⟩, true⟩ ∧ InOffice s 3 ⟨2, 3⟩ = true)) (by decide +kernel)
  obtain ⟨a, ha, h3⟩ := List.any_eq_true.1 h3
  simp only [decide_eq_true_eq] at h3 h4
  obtain ⟨ld, hl, hlid⟩ := inOffice_spec h4.2.2
  refine ⟨s, s', ld, h1, h2, ⟨hl, by decide, h4.1, ?_⟩, a, ha, h3⟩
  intro q hq
  simp only [List.mem_cons, List.not_mem_nil, or_false] at hq
  rcases hq with rfl | rfl
  · exact Or.inr ⟨s', .refl, by rw [hlid]; exact h4.2.1⟩
  · exact Or.inl rfl

end Openraft.Props
