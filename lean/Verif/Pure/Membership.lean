import Verif.Base.BTree
import Verif.Pure.Quorum

/-!
# Membership and membership change requests

Model of `membership/membership.rs` and `change_members.rs`. A `Node` (the application's node
record) is a natural number.
-/

set_option autoImplicit false

namespace Openraft

/-- `Membership`, `membership/membership.rs:27-45`: joint voter configs and node records. -/
structure Membership where
  configs : List (List NodeId)
  nodes : List (NodeId × Nat)
deriving DecidableEq, Repr, Inhabited

/-- `ChangeMembers`, `change_members.rs:11-58`. -/
inductive ChangeMembers where
  | addVoterIds (ids : List NodeId)
  | addVoters (nodes : List (NodeId × Nat))
  | removeVoters (ids : List NodeId)
  | replaceAllVoters (ids : List NodeId)
  | addNodes (nodes : List (NodeId × Nat))
  | setNodes (nodes : List (NodeId × Nat))
  | removeNodes (ids : List NodeId)
  | replaceAllNodes (nodes : List (NodeId × Nat))
deriving DecidableEq, Repr

/-- `ChangeMembershipError` values that `change` can return, `membership/membership.rs:200-228`. -/
inductive ChangeError where
  | emptyMembership
  | learnerNotFound (id : NodeId)
deriving DecidableEq, Repr

namespace Membership

/-- `Joint::ids()`, `quorum/joint.rs:59-66`: the set of all voters. -/
def jointIds (configs : List (List NodeId)) : List NodeId :=
  configs.foldl BSet.union []

/-- `voter_ids`, `membership/membership.rs:141-143` -/
def voterIds (m : Membership) : List NodeId := jointIds m.configs

/-- `is_voter`, `membership/membership.rs:160-167` -/
def isVoter (m : Membership) (id : NodeId) : Bool := m.configs.any fun c => c.contains id

/-- `contains`, `membership/membership.rs:155-157` -/
def contains (m : Membership) (id : NodeId) : Bool := BMap.containsKey m.nodes id

/-- `learner_ids`, `membership/membership.rs:146-148` -/
def learnerIds (m : Membership) : List NodeId := (BMap.keys m.nodes).filter fun x => !m.isVoter x

/-- `extend_nodes`, `membership/membership.rs:181-195`: existing records are kept. -/
def extendNodes (old new : List (NodeId × Nat)) : List (NodeId × Nat) :=
  new.foldl (fun res kv => if BMap.containsKey res kv.1 then res else BMap.insert kv.1 kv.2 res) old

/-- `ensure_non_empty_config`, `membership/membership.rs:207-215` -/
def ensureNonEmptyConfig (m : Membership) : Except ChangeError Unit :=
  if m.configs.any fun c => c.isEmpty then .error .emptyMembership else .ok ()

/-- `ensure_voter_nodes`, `membership/membership.rs:220-228`: the first voter without a record. -/
def ensureVoterNodes (m : Membership) : Except ChangeError Unit :=
  match (voterIds m).find? fun v => !BMap.containsKey m.nodes v with
  | some v => .error (.learnerNotFound v)
  | none => .ok ()

/-- `ensure_valid`, `membership/membership.rs:200-204` -/
def ensureValid (m : Membership) : Except ChangeError Unit :=
  match ensureNonEmptyConfig m with
  | .error e => .error e
  | .ok _ => ensureVoterNodes m

/-- `next_coherent`, `membership/membership.rs:254-269` -/
def nextCoherent (m : Membership) (goal : List NodeId) (retain : Bool) : Membership :=
  let config := findCoherent m.configs goal
  let nodes :=
    if retain then m.nodes
    else (BSet.diff (jointIds m.configs) (jointIds config)).foldl BMap.remove m.nodes
  ⟨config, nodes⟩

/-- The `match change` of `change`, `membership/membership.rs:280-321`, before validation. -/
def changeRaw (m : Membership) (change : ChangeMembers) (retain : Bool) : Membership :=
  let last := m.configs.getLast?.getD []
  match change with
  | .addVoterIds ids => m.nextCoherent (BSet.union last ids) retain
  | .addVoters ns =>
    { m with nodes := extendNodes m.nodes ns }.nextCoherent (BSet.union last (BMap.keys ns)) retain
  | .removeVoters ids => m.nextCoherent (BSet.diff last ids) retain
  | .replaceAllVoters ids => m.nextCoherent ids retain
  | .addNodes ns => { m with nodes := extendNodes m.nodes ns }
  | .setNodes ns => { m with nodes := ns.foldl (fun r kv => BMap.insert kv.1 kv.2 r) m.nodes }
  | .removeNodes ids => { m with nodes := ids.foldl BMap.remove m.nodes }
  | .replaceAllNodes ns => { m with nodes := ns }

/-- `change`, `membership/membership.rs:277-330`. `AddNodes` uses `entry().or_insert()`
(lines 300-303), which keeps existing records exactly as `extend_nodes` does. -/
def change (m : Membership) (change : ChangeMembers) (retain : Bool) : Except ChangeError Membership :=
  let m' := changeRaw m change retain
  match ensureValid m' with
  | .error e => .error e
  | .ok _ => .ok m'

/-! ## Helper lemmas -/

theorem mem_jointIds_aux {configs : List (List NodeId)} {acc : List Nat} {x : NodeId} :
    x ∈ configs.foldl BSet.union acc ↔ x ∈ acc ∨ ∃ c ∈ configs, x ∈ c := by
  induction configs generalizing acc with
  | nil => simp
  | cons c cs ih => simp only [List.foldl_cons, ih, BSet.mem_union, List.mem_cons]; constructor
                    · rintro ((h | h) | ⟨d, hd, hx⟩)
                      · exact Or.inl h
                      · exact Or.inr ⟨c, Or.inl rfl, h⟩
                      · exact Or.inr ⟨d, Or.inr hd, hx⟩
                    · rintro (h | ⟨d, rfl | hd, hx⟩)
                      · exact Or.inl (Or.inl h)
                      · exact Or.inl (Or.inr hx)
                      · exact Or.inr ⟨d, hd, hx⟩

theorem mem_jointIds {configs : List (List NodeId)} {x : NodeId} :
    x ∈ jointIds configs ↔ ∃ c ∈ configs, x ∈ c := by
  simp [jointIds, mem_jointIds_aux]

theorem jointIds_nodup (configs : List (List NodeId)) : (jointIds configs).Nodup := by
  have gen : ∀ acc, BSet.Sorted acc → BSet.Sorted (configs.foldl BSet.union acc) := by
    induction configs with
    | nil => intro acc h; exact h
    | cons c cs ih => intro acc h; exact ih _ (BSet.sorted_union h)
  exact BSet.nodup_of_sorted (gen [] List.Pairwise.nil)

theorem isVoter_iff {m : Membership} {x : NodeId} : m.isVoter x = true ↔ ∃ c ∈ m.configs, x ∈ c := by
  simp [isVoter, List.any_eq_true]

/-- What `ensure_valid` accepts. -/
theorem ensureValid_ok {m : Membership} : ensureValid m = .ok () ↔
    (∀ c ∈ m.configs, c ≠ []) ∧ ∀ c ∈ m.configs, ∀ x ∈ c, x ∈ BMap.keys m.nodes := by
  unfold ensureValid ensureNonEmptyConfig ensureVoterNodes
  by_cases h : m.configs.any (fun c => c.isEmpty) = true
  · rw [if_pos h]
    simp only [reduceCtorEq, false_iff]
    rintro ⟨h1, _⟩
    obtain ⟨c, hc, he⟩ := List.any_eq_true.1 h
    exact h1 c hc (by simpa using he)
  · rw [if_neg h]
    have h1 : ∀ c ∈ m.configs, c ≠ [] := by
      intro c hc he
      exact h (List.any_eq_true.2 ⟨c, hc, by simp [he]⟩)
    cases hf : (voterIds m).find? fun v => !BMap.containsKey m.nodes v with
    | some v =>
      simp only [reduceCtorEq, false_iff]
      intro hall
      have hv := List.find?_some hf
      have hm := List.mem_of_find?_eq_some hf
      obtain ⟨c, hc, hx⟩ := mem_jointIds.1 hm
      have := BMap.containsKey_iff.2 (hall.2 c hc v hx)
      simp [this] at hv
    | none =>
      simp only [true_iff]
      refine ⟨h1, ?_⟩
      intro c hc x hx
      have := List.find?_eq_none.1 hf x (mem_jointIds.2 ⟨c, hc, hx⟩)
      simp at this
      exact BMap.containsKey_iff.1 this

theorem change_ok {m m' : Membership} {ch : ChangeMembers} {retain : Bool}
    (h : m.change ch retain = .ok m') : m' = changeRaw m ch retain ∧ ensureValid m' = .ok () := by
  unfold change at h
  simp only at h
  split at h
  · cases h
  · rename_i u hu
    cases h
    exact ⟨rfl, hu⟩

theorem findCoherent_shares {configs : List (List NodeId)} (hne : configs ≠ []) (goal : List NodeId) :
    ∃ c, c ∈ configs ∧ c ∈ findCoherent configs goal := by
  unfold findCoherent
  split
  · rename_i h
    obtain ⟨a, ha, he⟩ := List.any_eq_true.1 h
    have : a = goal := by simpa using he
    exact ⟨a, ha, by simp [this]⟩
  · cases hl : configs.getLast? with
    | none => rw [List.getLast?_eq_none_iff] at hl; exact absurd hl hne
    | some l => exact ⟨l, List.mem_of_getLast? hl, by simp⟩

theorem changeRaw_shares {m : Membership} (hne : m.configs ≠ []) (ch : ChangeMembers) (retain : Bool) :
    ∃ c, c ∈ m.configs ∧ c ∈ (changeRaw m ch retain).configs := by
  have hself : ∃ c, c ∈ m.configs ∧ c ∈ m.configs := by
    cases hc : m.configs with
    | nil => exact absurd hc hne
    | cons a l => exact ⟨a, by simp, by simp⟩
  cases ch <;> simp only [changeRaw, nextCoherent]
  case addNodes => exact hself
  case setNodes => exact hself
  case removeNodes => exact hself
  case replaceAllNodes => exact hself
  all_goals exact findCoherent_shares hne _

theorem foldl_remove_keys {ids : List Nat} {n : List (NodeId × Nat)} {x : NodeId} :
    x ∈ BMap.keys (ids.foldl BMap.remove n) ↔ x ∈ BMap.keys n ∧ x ∉ ids := by
  induction ids generalizing n with
  | nil => simp
  | cons a ids ih => simp only [List.foldl_cons, ih, BMap.mem_keys_remove, List.mem_cons]; tauto

theorem foldl_remove_get {ids : List Nat} {n : List (NodeId × Nat)} {x : NodeId} (h : x ∉ ids) :
    BMap.get (ids.foldl BMap.remove n) x = BMap.get n x := by
  induction ids generalizing n with
  | nil => rfl
  | cons a ids ih =>
    simp only [List.mem_cons, not_or] at h
    rw [List.foldl_cons, ih h.2, BMap.get_remove_ne h.1]

theorem extendNodes_keys {old new : List (NodeId × Nat)} {x : NodeId} :
    x ∈ BMap.keys (extendNodes old new) ↔ x ∈ BMap.keys old ∨ x ∈ BMap.keys new := by
  unfold extendNodes
  induction new generalizing old with
  | nil => simp [BMap.keys]
  | cons kv new ih =>
    rw [List.foldl_cons, ih]
    have : BMap.keys (kv :: new) = kv.1 :: BMap.keys new := rfl
    rw [this, List.mem_cons]
    split
    · rename_i h
      have := BMap.containsKey_iff.1 h
      constructor
      · tauto
      · rintro (h | rfl | h) <;> tauto
    · rw [BMap.mem_keys_insert]; tauto

theorem extendNodes_get {old new : List (NodeId × Nat)} {x : NodeId} (h : x ∈ BMap.keys old) :
    BMap.get (extendNodes old new) x = BMap.get old x := by
  unfold extendNodes
  induction new generalizing old with
  | nil => rfl
  | cons kv new ih =>
    rw [List.foldl_cons]
    split
    · exact ih h
    · rename_i hc
      rw [ih (BMap.mem_keys_insert.2 (Or.inr h)), BMap.get_insert_ne]
      rintro rfl
      exact hc (BMap.containsKey_iff.2 h)

end Membership
end Openraft
