import Verif.Pure.Track

/-!
# Memberships whose node ids are sets

A `Membership` holds `BTreeSet`s and a `BTreeMap`; the model has sorted lists for them. `WfM` says that they are sorted, and
a membership change keeps it.
-/

set_option autoImplicit false

namespace Openraft

/-- the configs are sorted sets of ids, the nodes a sorted map -/
structure WfM (m : Membership) : Prop where
  configs : ∀ c ∈ m.configs, BSet.Sorted c
  nodes : BMap.Sorted m.nodes

/-- the arguments of a change are sorted sets and maps -/
def ChangeMembers.Wf : ChangeMembers → Prop
  | .addVoterIds ids => BSet.Sorted ids
  | .addVoters ns => BMap.Sorted ns
  | .removeVoters ids => BSet.Sorted ids
  | .replaceAllVoters ids => BSet.Sorted ids
  | .addNodes ns => BMap.Sorted ns
  | .setNodes ns => BMap.Sorted ns
  | .removeNodes ids => BSet.Sorted ids
  | .replaceAllNodes ns => BMap.Sorted ns

theorem WfM.sets {m : Membership} (h : WfM m) : VecProgress.SetsOk m.configs m.learnerIds := by
  refine ⟨fun c hc => BSet.nodup_of_sorted (h.configs c hc), ?_, ?_⟩
  · exact (BSet.nodup_of_sorted h.nodes).filter _
  · intro x hx
    unfold Membership.learnerIds at hx
    have := (List.mem_filter.1 hx).2
    intro hv
    rw [(Membership.isVoter_iff (m := m)).2 hv] at this
    cases this

namespace Membership

theorem sorted_removes {ids : List Nat} {n : List (NodeId × Nat)} (h : BMap.Sorted n) : BMap.Sorted (ids.foldl BMap.remove n) := by
  induction ids generalizing n with
  | nil => exact h
  | cons a ids ih => exact ih (BMap.sorted_remove h)

theorem sorted_inserts {ns : List (NodeId × Nat)} {n : List (NodeId × Nat)} (h : BMap.Sorted n) :
    BMap.Sorted (ns.foldl (fun r kv => BMap.insert kv.1 kv.2 r) n) := by
  induction ns generalizing n with
  | nil => exact h
  | cons a ns ih => exact ih (BMap.sorted_insert h)

theorem sorted_extend {ns : List (NodeId × Nat)} {n : List (NodeId × Nat)} (h : BMap.Sorted n) : BMap.Sorted (extendNodes n ns) := by
  unfold extendNodes
  induction ns generalizing n with
  | nil => exact h
  | cons a ns ih =>
    rw [List.foldl_cons]
    split
    · exact ih h
    · exact ih (BMap.sorted_insert h)

theorem wf_nextCoherent {m : Membership} (h : WfM m) {goal : List NodeId} (hg : BSet.Sorted goal) (retain : Bool) :
    WfM (m.nextCoherent goal retain) := by
  constructor
  · intro c hc
    simp only [nextCoherent, findCoherent] at hc
    split at hc
    · rw [List.mem_singleton] at hc; rw [hc]; exact hg
    · split at hc
      · next l hl =>
        rcases List.mem_cons.1 hc with rfl | hc
        · exact h.configs _ (List.mem_of_getLast? hl)
        · rw [List.mem_singleton] at hc; rw [hc]; exact hg
      · rw [List.mem_singleton] at hc; rw [hc]; exact hg
  · simp only [nextCoherent]
    split
    · exact h.nodes
    · exact sorted_removes h.nodes

theorem wf_last {m : Membership} (h : WfM m) : BSet.Sorted (m.configs.getLast?.getD []) := by
  cases hl : m.configs.getLast? with
  | none => exact List.Pairwise.nil
  | some l => exact h.configs _ (List.mem_of_getLast? hl)

theorem wf_change {m m' : Membership} (h : WfM m) {c : ChangeMembers} (hc : c.Wf) {retain : Bool}
    (hr : m.change c retain = .ok m') : WfM m' := by
  obtain ⟨rfl, _⟩ := change_ok hr
  have hl := wf_last h
  cases c <;> simp only [changeRaw]
  case addVoterIds => exact wf_nextCoherent h (BSet.sorted_union hl) _
  case addVoters => exact wf_nextCoherent (m := { m with nodes := extendNodes m.nodes _ }) ⟨h.configs, sorted_extend h.nodes⟩ (BSet.sorted_union hl) _
  case removeVoters => exact wf_nextCoherent h (BSet.sorted_diff hl) _
  case replaceAllVoters => exact wf_nextCoherent h hc _
  case addNodes => exact ⟨h.configs, sorted_extend h.nodes⟩
  case setNodes => exact ⟨h.configs, sorted_inserts h.nodes⟩
  case removeNodes => exact ⟨h.configs, sorted_removes h.nodes⟩
  case replaceAllNodes => exact ⟨h.configs, hc⟩

end Membership
end Openraft
