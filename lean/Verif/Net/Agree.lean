import Verif.Net.Node7

/-!
# The cluster agrees with a history

`CI`: there is a history (`Verif/Cluster/Ghost.lean`) that satisfies `GInv`, and every node, every message and every
record of the cluster agrees with it.
-/

set_option autoImplicit false
set_option linter.unusedSectionVars false

namespace Openraft.Net
open Openraft.Repl (Panic dassert Inflight)
open Openraft.Engine Openraft.Cluster
open Openraft.Runtime (Fl RInv Covered Note SmOk LeI DiskOp opOf vote_runs_same out_bind out_pure lift_ok exec_frame submit_ok note_of_op)
open Openraft.VecProgress (AllP BI)

variable {m0 : Membership} [hne : Fact (m0.configs ≠ [])] {g g' : Ghost} {dv dv' : NodeId → Vote} {q : NodeId} {g0 : Gh} {p : Nat} {dbg : Bool} {now : Nat}
variable {a0 : IOId} {s0 c0 : Option LogId} {P S : List Cmd} {n n' n1 : Runtime.Node}

/-- the cluster agrees with the history `g` -/
structure CI (m0 : Membership) (N : Net) (g : Ghost) : Prop where
  gi : GInv m0 g
  node : ∀ q, ∃ g0 a0 s0 c0 P S, NI g (fun i => (N.nodes i).disk.vote) q g0 a0 s0 c0 P S (N.nodes q)
  pos : ∀ q, NP g (N.nodes q)
  pkts : ∀ k ∈ N.pkts, PI g (fun i => (N.nodes i).disk.vote) k
  hist : ∀ x ∈ N.hist, HistOk g x.2

theorem CI.init (m0 : Membership) [Fact (m0.configs ≠ [])] (s : Start) : CI m0 (Net.init s) (Ghost.init m0 false) :=
  ⟨(init_inv m0 false).ghost, fun q => ⟨_, _, _, _, _, _, NI.fresh (s.ids q) rfl fun _ => rfl⟩, fun q => .fresh, fun k hk => (by cases hk), fun x hx => (by cases hx)⟩

/-- a node is in another state -/
theorem CI.put {N : Net} (h : CI m0 N g) {ps : List Pkt} (h1 : GInv m0 g') (h2 : GhostStep q g g')
    (h3 : ∀ i, (fun i => (N.nodes i).disk.vote) i ≤ dv' i) (h4 : ∀ i, i ≠ q → dv' i = (fun i => (N.nodes i).disk.vote) i)
    (h5 : NI g' dv' q g0 a0 s0 c0 P S n') (hp : NP g' n') (h6 : ∀ k ∈ ps, PI g' dv' k) : CI m0 (N.put q n' ps) g' := by
  have hdv : (fun i => ((N.put q n' ps).nodes i).disk.vote) = dv' := by
    funext i
    simp only [Net.put]
    split
    · next hi => subst hi; exact h5.dvq.symm
    · next hi => exact (h4 i hi).symm
  refine ⟨h1, ?_, ?_, ?_, ?_⟩
  · intro i
    rw [hdv]
    by_cases hi : i = q
    · subst hi
      refine ⟨g0, a0, s0, c0, P, S, ?_⟩
      simp only [Net.put, if_true]; exact h5
    · obtain ⟨g0, a0, s0, c0, P, S, hk⟩ := h.node i
      refine ⟨g0, a0, s0, c0, P, S, ?_⟩
      simp only [Net.put, hi, if_false]
      exact hk.other h.gi h2 hi h3 (h4 i hi)
  · intro i
    by_cases hi : i = q
    · subst hi
      simp only [Net.put, if_true]; exact hp
    · simp only [Net.put, hi, if_false]
      exact (h.pos i).mono h2.toGhostLe (le_refl _) rfl rfl (fun f l hm => Or.inl hm) fun m f hm => Or.inl hm
  · rw [hdv]
    intro k hk
    rcases List.mem_append.1 hk with hk | hk
    · exact h6 k hk
    · exact (h.pkts k hk).mono h.gi h2.toGhostLe h3
  · intro x hx
    rcases List.mem_append.1 hx with hx | hx
    · obtain ⟨e, he, rfl⟩ := List.mem_map.1 hx
      exact h5.x.hist e he
    · exact (h.hist x hx).mono h2.toGhostLe

/-- what is newly committed by a step is of the leader of the vote of some node, and is not beyond its committed position -/
def Made (N' : Net) (g g' : Ghost) : Prop :=
  ∀ r ∈ g'.commits, r ∈ g.commits ∨ ∃ q, r.L.node = q ∧ r.L = (N'.nodes q).eng.st.vote.data.leaderId ∧ r.m ≤ nextIndex (N'.nodes q).eng.st.committed

theorem GStep.madeN {N : Net} {ps : List Pkt} (h : GStep q n'.eng g g') : Made (N.put q n' ps) g g' := by
  intro r hr
  by_cases hq : r.L.node = q
  · rcases h.made r hr with h1 | h1
    · exact Or.inl h1
    · refine Or.inr ⟨q, hq, ?_⟩
      simp only [Net.put, if_true]; exact h1
  · exact Or.inl (h.commits_eq r hr hq)

theorem CI.step_made (hm0 : m0.configs ≠ []) {N N' : Net} (h : CI m0 N g) (hs : Step m0 dbg N N') :
    ∃ g', CI m0 N' g' ∧ GhostLe g g' ∧ Made N' g g' := by
  cases hs with
  | node q ev n' ha hr hex =>
    obtain ⟨g0, a0, s0, c0, P, S, hn⟩ := h.node q
    obtain ⟨g', dv', P', S', h1, h2, h3, h4, h5, h6⟩ := hn.step hm0 h.gi (h.pos q) h.pkts ha hr hex
    have hvle : (N.nodes q).disk.vote ≤ n'.disk.vote := by
      have := h3 q
      rw [h5.dvq] at this
      exact this
    exact ⟨g', h.put h1 h2.toGhostStep h3 h4 h5 (hn.np_step hm0 h.gi h2.toGhostLe (h.pos q) hvle hr) h6, h2.toGhostLe, h2.madeN⟩
  | send q l prev lc k hl hv hpm hk hlc =>
    obtain ⟨g0, a0, s0, c0, P, S, hn⟩ := h.node q
    refine ⟨g, ⟨h.gi, h.node, h.pos, ?_, h.hist⟩, .refl g, fun r hr => Or.inl hr⟩
    intro x hx
    rcases List.mem_cons.1 hx with rfl | hx
    · exact hn.sends h.gi hl hv hpm hk fun x hx => h.pkts _ (hlc x hx)
    · exact h.pkts x hx
  | sendSnap q l hl hv hs =>
    obtain ⟨g0, a0, s0, c0, P, S, hn⟩ := h.node q
    refine ⟨g, ⟨h.gi, h.node, h.pos, ?_, h.hist⟩, .refl g, fun r hr => Or.inl hr⟩
    intro x hx
    rcases List.mem_cons.1 hx with rfl | hx
    · exact hn.sendsSnap h.gi (h.pos q) hl hv hs
    · exact h.pkts x hx
  | check q l t prev hl hv hp =>
    obtain ⟨g0, a0, s0, c0, P, S, hn⟩ := h.node q
    refine ⟨g, ⟨h.gi, h.node, h.pos, ?_, h.hist⟩, .refl g, fun r hr => Or.inl hr⟩
    intro x hx
    rcases List.mem_cons.1 hx with rfl | hx
    · exact hn.sendsCheck h.gi hl hv hp
    · exact h.pkts x hx
  | crash q k now n' hf hll hr =>
    obtain ⟨g0, a0, s0, c0, P, S, hn⟩ := h.node q
    obtain ⟨g', g0', a0', s0', c0', h1, h2, h3, h4, h5⟩ := hn.restart hm0 h.gi (h.pos q) hf hr hll
    exact ⟨g', h.put h1 h2.toGhostStep (fun i => le_refl _) (fun i _ => rfl) h3 h4 (by simp), h2.toGhostLe, h2.madeN⟩

theorem CI.step (hm0 : m0.configs ≠ []) {N N' : Net} (h : CI m0 N g) (hs : Step m0 dbg N N') : ∃ g', CI m0 N' g' ∧ GhostLe g g' := by
  obtain ⟨g', h1, h2, _⟩ := h.step_made hm0 hs
  exact ⟨g', h1, h2⟩

theorem CI.steps (hm0 : m0.configs ≠ []) {N N' : Net} (h : CI m0 N g) (hs : Steps m0 dbg N N') : ∃ g', CI m0 N' g' ∧ GhostLe g g' := by
  induction hs with
  | refl => exact ⟨g, h, .refl g⟩
  | step _ h2 ih =>
    obtain ⟨g1, h3, h4⟩ := ih
    obtain ⟨g2, h5, h6⟩ := h3.step hm0 h2
    exact ⟨g2, h5, h4.trans h6⟩

omit hne in
/-- **Every cluster agrees with a history.** -/
theorem reach_ci (hm0 : m0.configs ≠ []) {N : Net} (h : Reach m0 dbg N) : ∃ g, CI m0 N g := by
  have : Fact (m0.configs ≠ []) := ⟨hm0⟩
  obtain ⟨s, hs⟩ := h
  obtain ⟨g, h1, _⟩ := (CI.init m0 s).steps hm0 hs
  exact ⟨g, h1⟩

end Openraft.Net
