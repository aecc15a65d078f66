import Verif.Base.Ids
import Mathlib.Data.List.Perm.Subperm

/-!
# Quorum sets

Model of `quorum/quorum_set_impl.rs`, `quorum/joint.rs`, `quorum/coherent_impl.rs`.
A voter config is a `BTreeSet<NodeId>` (or the sorted `Vec` made of it by
`Membership::to_quorum_set`, `membership/membership.rs:333-339`): a duplicate-free list here.
-/

set_option autoImplicit false

namespace Openraft

/-- Loop of `is_quorum`, `quorum/quorum_set_impl.rs:11-23` (and 36-48 for `Vec`). -/
def majorityLoop (cfg : List NodeId) : Nat → List NodeId → Bool
  | _, [] => false
  | count, id :: ids =>
    if cfg.contains id then
      if count + 2 > cfg.length then true else majorityLoop cfg (count + 2) ids
    else majorityLoop cfg count ids

/-- `BTreeSet::is_quorum` / `Vec::is_quorum`, `quorum/quorum_set_impl.rs:11-23`, `36-48`. -/
def isMajority (cfg ids : List NodeId) : Bool := majorityLoop cfg 0 ids

/-- `Joint::is_quorum`, `quorum/joint.rs:82-97`: a quorum in every child config. -/
def isQuorum (configs : List (List NodeId)) (ids : List NodeId) : Bool :=
  configs.all fun c => isMajority c ids

/-- `Joint::is_coherent_with(&QS)`, `quorum/coherent_impl.rs:46-59`. -/
def isCoherentWith (configs : List (List NodeId)) (other : List NodeId) : Bool :=
  configs.any fun a => a == other

/-- `Joint::find_coherent`, `quorum/coherent_impl.rs:68-79`. -/
def findCoherent (configs : List (List NodeId)) (other : List NodeId) : List (List NodeId) :=
  if isCoherentWith configs other then [other]
  else match configs.getLast? with
    | some last => [last, other]
    | none => [other]

/-- Number of elements of `ids` that are voters of `cfg`. -/
def countIn (cfg ids : List NodeId) : Nat := (ids.filter fun x => cfg.contains x).length

theorem majorityLoop_eq (cfg : List NodeId) (ids : List NodeId) (n : Nat) (h : n ≤ cfg.length) :
    majorityLoop cfg n ids = decide (n + 2 * countIn cfg ids > cfg.length) := by
  induction ids generalizing n with
  | nil => simp [majorityLoop, countIn]; omega
  | cons a ids ih =>
    by_cases ha : cfg.contains a = true
    · by_cases hn : n + 2 > cfg.length
      · have : countIn cfg (a :: ids) ≥ 1 := by simp [countIn, List.filter_cons]; simp at ha; simp [ha]
        simp [majorityLoop, hn]; simp at ha; simp [ha]; omega
      · rw [majorityLoop, if_pos ha, if_neg hn, ih (n + 2) (by omega)]
        have : countIn cfg (a :: ids) = countIn cfg ids + 1 := by
          simp [countIn, List.filter_cons]; simp at ha; simp [ha]
        rw [this]; congr 1; apply propext; omega
    · rw [majorityLoop, if_neg ha, ih n h]
      have : countIn cfg (a :: ids) = countIn cfg ids := by
        simp [countIn, List.filter_cons]; simp at ha; simp [ha]
      rw [this]

/-- `is_quorum` of one config is "more than half of the config's size". -/
theorem isMajority_iff (cfg ids : List NodeId) :
    isMajority cfg ids = true ↔ cfg.length < 2 * countIn cfg ids := by
  rw [isMajority, majorityLoop_eq cfg ids 0 (Nat.zero_le _)]; simp

theorem isQuorum_iff (configs : List (List NodeId)) (ids : List NodeId) :
    isQuorum configs ids = true ↔ ∀ c ∈ configs, c.length < 2 * countIn c ids := by
  simp [isQuorum, List.all_eq_true, isMajority_iff]

theorem countIn_le {cfg ids : List NodeId} (hi : ids.Nodup) : countIn cfg ids ≤ cfg.length := by
  apply List.Subperm.length_le
  apply List.subperm_of_subset (hi.filter _)
  intro x hx; simpa using (List.mem_filter.1 hx).2

theorem majority_inter {cfg a b : List NodeId} (ha : a.Nodup) (hb : b.Nodup)
    (qa : isMajority cfg a = true) (qb : isMajority cfg b = true) : ∃ x, x ∈ a ∧ x ∈ b ∧ x ∈ cfg := by
  by_contra hno
  rw [isMajority_iff] at qa qb
  have hdis : ((a.filter fun x => cfg.contains x) ++ (b.filter fun x => cfg.contains x)).Nodup := by
    rw [List.nodup_append]
    refine ⟨ha.filter _, hb.filter _, ?_⟩
    intro x hx y hy hxy
    subst hxy
    apply hno
    rw [List.mem_filter] at hx hy
    exact ⟨x, hx.1, hy.1, by simpa using hx.2⟩
  have hle : ((a.filter fun x => cfg.contains x) ++ (b.filter fun x => cfg.contains x)).length ≤ cfg.length := by
    apply List.Subperm.length_le
    apply List.subperm_of_subset hdis
    intro x hx
    rw [List.mem_append] at hx
    rcases hx with hx | hx <;> simpa using (List.mem_filter.1 hx).2
  rw [List.length_append] at hle
  unfold countIn at qa qb
  omega

/-- Adding nodes keeps the majority. -/
theorem majority_mono {cfg a b : List NodeId} (ha : a.Nodup) (hsub : ∀ x ∈ a, x ∈ b)
    (qa : isMajority cfg a = true) : isMajority cfg b = true := by
  rw [isMajority_iff] at *
  have : countIn cfg a ≤ countIn cfg b := by
    apply List.Subperm.length_le
    apply List.subperm_of_subset (ha.filter _)
    intro x hx
    rw [List.mem_filter] at *
    exact ⟨hsub x hx.1, hx.2⟩
  omega

theorem joint_inter {c1 c2 : List (List NodeId)} {a b : List NodeId} (ha : a.Nodup) (hb : b.Nodup)
    {c : List NodeId} (h1 : c ∈ c1) (h2 : c ∈ c2)
    (qa : isQuorum c1 a = true) (qb : isQuorum c2 b = true) : ∃ x, x ∈ a ∧ x ∈ b ∧ x ∈ c := by
  simp only [isQuorum, List.all_eq_true] at qa qb
  exact majority_inter ha hb (qa c h1) (qb c h2)

end Openraft
