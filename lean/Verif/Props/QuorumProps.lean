import Verif.Pure.Membership
import Verif.Spec.Quorum

/-!
# C08 – C11: quorums and membership changes
-/

set_option autoImplicit false

namespace Openraft.Props
open Openraft Openraft.Membership

/-! ## C08 -/

theorem countIn_eq_card {c ids : List NodeId} (hi : ids.Nodup) :
    countIn c ids = (c.toFinset ∩ ids.toFinset).card := by
  have h : c.toFinset ∩ ids.toFinset = (ids.filter fun x => c.contains x).toFinset := by
    ext x; simp [List.mem_filter]; tauto
  rw [h, List.toFinset_card_of_nodup (hi.filter _)]; rfl

/-- The code's `is_quorum` decides the joint-quorum specification. -/
theorem C08_isQuorum_spec {configs : List (List NodeId)} {ids : List NodeId}
    (hc : ∀ c ∈ configs, c.Nodup) (hi : ids.Nodup) :
    isQuorum configs ids = true ↔
      Spec.JointQuorum (configs.map List.toFinset) ids.toFinset := by
  rw [isQuorum_iff]
  unfold Spec.JointQuorum Spec.Majority
  simp only [List.mem_map, forall_exists_index, and_imp, forall_apply_eq_imp_iff₂]
  constructor
  · intro h c hcm
    rw [List.toFinset_card_of_nodup (hc c hcm), ← countIn_eq_card hi]; exact h c hcm
  · intro h c hcm
    have := h c hcm
    rw [List.toFinset_card_of_nodup (hc c hcm), ← countIn_eq_card hi] at this; exact this

/-- Any two quorums of one non-empty joint membership intersect. -/
theorem C08_quorums_intersect {configs : List (List NodeId)} {a b : List NodeId}
    (hne : configs ≠ []) (ha : a.Nodup) (hb : b.Nodup)
    (qa : isQuorum configs a = true) (qb : isQuorum configs b = true) :
    ∃ x, x ∈ a ∧ x ∈ b ∧ ∃ c ∈ configs, x ∈ c := by
  cases configs with
  | nil => exact absurd rfl hne
  | cons c cs =>
    obtain ⟨x, h1, h2, h3⟩ := joint_inter ha hb (c := c) (by simp) (by simp) qa qb
    exact ⟨x, h1, h2, c, by simp, h3⟩

/-- A superset of a quorum is a quorum. -/
theorem C08_superset {configs : List (List NodeId)} {a b : List NodeId} (ha : a.Nodup)
    (hsub : ∀ x ∈ a, x ∈ b) (qa : isQuorum configs a = true) : isQuorum configs b = true := by
  simp only [isQuorum, List.all_eq_true] at *
  exact fun c hc => majority_mono ha hsub (qa c hc)

/-- All voters together are a quorum; nobody is not (for configs without an empty voter set). -/
theorem C08_all_voters {configs : List (List NodeId)} (hn : ∀ c ∈ configs, c.Nodup)
    (hne : ∀ c ∈ configs, c ≠ []) : isQuorum configs (jointIds configs) = true ∧
      (configs ≠ [] → isQuorum configs [] = false) := by
  constructor
  · rw [isQuorum_iff]
    intro c hc
    have hsub : c.length ≤ countIn c (jointIds configs) := by
      apply List.Subperm.length_le
      apply List.subperm_of_subset (hn c hc)
      intro x hx
      rw [List.mem_filter]
      exact ⟨mem_jointIds.2 ⟨c, hc, hx⟩, by simpa using hx⟩
    have : c.length ≠ 0 := fun h => hne c hc (List.length_eq_zero_iff.1 h)
    omega
  · intro h
    cases configs with
    | nil => exact absurd rfl h
    | cons c cs => simp [isQuorum, isMajority, majorityLoop]

/-- A joint of {1,2,3} and {3,4,5}: {1,3,4} is a quorum, {1,2,3} is not. -/
example : isQuorum [[1,2,3],[3,4,5]] [1,3,4] = true ∧ isQuorum [[1,2,3],[3,4,5]] [2,3,5] = true ∧
    isQuorum [[1,2,3],[3,4,5]] [1,2,3] = false := by decide

/-! ## C09 -/

/-- A membership accepted by `change` keeps every old quorum intersecting every new quorum. -/
theorem C09_change_intersects {m m' : Membership} {ch : ChangeMembers} {retain : Bool}
    (hne : m.configs ≠ []) (h : m.change ch retain = .ok m')
    {a b : List NodeId} (ha : a.Nodup) (hb : b.Nodup)
    (qa : isQuorum m.configs a = true) (qb : isQuorum m'.configs b = true) :
    ∃ x, x ∈ a ∧ x ∈ b ∧ m.isVoter x = true ∧ m'.isVoter x = true := by
  obtain ⟨rfl, _⟩ := change_ok h
  obtain ⟨c, h1, h2⟩ := changeRaw_shares hne ch retain
  obtain ⟨x, hx1, hx2, hx3⟩ := joint_inter ha hb h1 h2 qa qb
  exact ⟨x, hx1, hx2, isVoter_iff.2 ⟨c, h1, hx3⟩, isVoter_iff.2 ⟨c, h2, hx3⟩⟩

/-- Changing {1,2,3} to {3,4,5} passes through the joint [{1,2,3},{3,4,5}]. -/
example : (Membership.mk [[1,2,3]] [(1,0),(2,0),(3,0),(4,0),(5,0)]).change
      (.replaceAllVoters [3,4,5]) true =
    .ok ⟨[[1,2,3],[3,4,5]], [(1,0),(2,0),(3,0),(4,0),(5,0)]⟩ := by decide

/-! ## C10 -/

/-- What `change` accepts is valid: at least one voter config, none empty, a record for every voter. -/
theorem C10_change_valid {m m' : Membership} {ch : ChangeMembers} {retain : Bool}
    (hne : m.configs ≠ []) (h : m.change ch retain = .ok m') :
    m'.configs ≠ [] ∧ (∀ c ∈ m'.configs, c ≠ []) ∧
      ∀ c ∈ m'.configs, ∀ x ∈ c, (BMap.get m'.nodes x).isSome = true := by
  obtain ⟨hraw, hv⟩ := change_ok h
  obtain ⟨h1, h2⟩ := ensureValid_ok.1 hv
  refine ⟨?_, h1, fun c hc x hx => BMap.get_isSome_iff.2 (h2 c hc x hx)⟩
  obtain ⟨c, _, hc⟩ := changeRaw_shares hne ch retain
  rw [hraw]; intro he; rw [he] at hc; cases hc

/-- Rejection is exact: a request fails only if the result would be invalid. -/
theorem C10_change_rejects {m : Membership} {ch : ChangeMembers} {retain : Bool} {e : ChangeError}
    (h : m.change ch retain = .error e) :
    (∃ c ∈ (changeRaw m ch retain).configs, c = []) ∨
    (∃ c ∈ (changeRaw m ch retain).configs, ∃ x ∈ c,
      (BMap.get (changeRaw m ch retain).nodes x).isSome = false) := by
  by_contra hno
  have hv : ensureValid (changeRaw m ch retain) = .ok () := by
    rw [ensureValid_ok]
    constructor
    · intro c hc he; exact hno (Or.inl ⟨c, hc, he⟩)
    · intro c hc x hx
      by_contra hk
      refine hno (Or.inr ⟨c, hc, x, hx, ?_⟩)
      cases hg : (BMap.get (changeRaw m ch retain).nodes x).isSome with
      | false => rfl
      | true => exact absurd (BMap.get_isSome_iff.1 hg) hk
  unfold Membership.change at h
  simp only [hv] at h
  cases h

/-- The record of a node that is kept is changed only by `SetNodes` and `ReplaceAllNodes`. -/
theorem C10_change_keeps_records {m m' : Membership} {ch : ChangeMembers} {retain : Bool}
    (h : m.change ch retain = .ok m')
    (hset : ∀ ns, ch ≠ .setNodes ns) (hrep : ∀ ns, ch ≠ .replaceAllNodes ns)
    {x : NodeId} {n n' : Nat} (h1 : BMap.get m.nodes x = some n) (h2 : BMap.get m'.nodes x = some n') :
    n = n' := by
  obtain ⟨rfl, _⟩ := change_ok h
  have hk : x ∈ BMap.keys m.nodes := BMap.get_isSome_iff.1 (by simp [h1])
  have hk' : x ∈ BMap.keys (changeRaw m ch retain).nodes := BMap.get_isSome_iff.1 (by simp [h2])
  suffices hs : BMap.get (changeRaw m ch retain).nodes x = BMap.get m.nodes x by
    rw [hs, h1] at h2; exact Option.some.inj h2
  have hnc : ∀ (m0 : Membership) (goal : List NodeId), x ∈ BMap.keys (m0.nextCoherent goal retain).nodes →
      BMap.get (m0.nextCoherent goal retain).nodes x = BMap.get m0.nodes x := by
    intro m0 goal hk0
    unfold nextCoherent at hk0 ⊢
    simp only at hk0 ⊢
    split at hk0
    · rename_i hr; rw [if_pos hr]
    · rename_i hr
      rw [if_neg hr]
      exact foldl_remove_get (foldl_remove_keys.1 hk0).2
  cases ch with
  | addVoterIds ids => exact hnc _ _ hk'
  | addVoters ns =>
    have := hnc _ _ hk'
    simp only [changeRaw]
    rw [this]; exact extendNodes_get hk
  | removeVoters ids => exact hnc _ _ hk'
  | replaceAllVoters ids => exact hnc _ _ hk'
  | addNodes ns => exact extendNodes_get hk
  | setNodes ns => exact absurd rfl (hset ns)
  | removeNodes ids => exact foldl_remove_get (foldl_remove_keys.1 hk').2
  | replaceAllNodes ns => exact absurd rfl (hrep ns)

/-- Removing the record of a voter, or all voters, is rejected; adding a learner keeps the record
of node 1. -/
example : (Membership.mk [[1,2]] [(1,7),(2,8)]).change (.removeNodes [2]) true = .error (.learnerNotFound 2)
    ∧ (Membership.mk [[1,2]] [(1,7),(2,8)]).change (.removeVoters [1,2]) true = .error .emptyMembership
    ∧ (Membership.mk [[1,2]] [(1,7),(2,8)]).change (.addNodes [(1,9),(3,5)]) true
        = .ok ⟨[[1,2]], [(1,7),(2,8),(3,5)]⟩ := by decide

/-- The voters that a request asks for, given the voters of the last config: what `change_members.rs:11-58`
says about each request. -/
def AsksVoter (cur : List NodeId) (x : NodeId) : ChangeMembers → Prop
  | .addVoterIds ids => x ∈ cur ∨ x ∈ ids
  | .addVoters ns => x ∈ cur ∨ ∃ n, (x, n) ∈ ns
  | .removeVoters ids => x ∈ cur ∧ x ∉ ids
  | .replaceAllVoters ids => x ∈ ids
  | _ => x ∈ cur

/-- The last config of the new membership has exactly the voters asked for; a request about nodes
leaves the configs alone. -/
theorem C10_change_voters {m m' : Membership} {ch : ChangeMembers} {retain : Bool}
    (hne : m.configs ≠ []) (h : m.change ch retain = .ok m') :
    ∃ cur new, m.configs.getLast? = some cur ∧ m'.configs.getLast? = some new ∧ ∀ x, x ∈ new ↔ AsksVoter cur x ch := by
  obtain ⟨rfl, _⟩ := change_ok h
  obtain ⟨cur, hcur⟩ : ∃ cur, m.configs.getLast? = some cur := by
    cases hg : m.configs.getLast? with
    | none => exact absurd (List.getLast?_eq_none_iff.1 hg) hne
    | some c => exact ⟨c, rfl⟩
  have hgoal : ∀ (m0 : Membership) (goal : List NodeId), (m0.nextCoherent goal retain).configs.getLast? = some goal := by
    intro m0 goal
    unfold nextCoherent findCoherent
    simp only
    split
    · rfl
    · split <;> rfl
  have hk : ∀ (ns : List (NodeId × Nat)) (x : NodeId), x ∈ BMap.keys ns ↔ ∃ n, (x, n) ∈ ns := by
    intro ns x; simp [BMap.keys]
  refine ⟨cur, ?_⟩
  have hd : m.configs.getLast?.getD [] = cur := by rw [hcur]; rfl
  cases ch with
  | addVoterIds ids => exact ⟨_, hcur, hgoal _ _, fun x => by rw [hd]; exact BSet.mem_union⟩
  | addVoters ns => exact ⟨_, hcur, hgoal _ _, fun x => by rw [hd, BSet.mem_union, hk]; exact Iff.rfl⟩
  | removeVoters ids => exact ⟨_, hcur, hgoal _ _, fun x => by rw [hd]; exact BSet.mem_diff⟩
  | replaceAllVoters ids => exact ⟨_, hcur, hgoal _ _, fun x => Iff.rfl⟩
  | addNodes ns => exact ⟨cur, hcur, hcur, fun x => Iff.rfl⟩
  | setNodes ns => exact ⟨cur, hcur, hcur, fun x => Iff.rfl⟩
  | removeNodes ids => exact ⟨cur, hcur, hcur, fun x => Iff.rfl⟩
  | replaceAllNodes ns => exact ⟨cur, hcur, hcur, fun x => Iff.rfl⟩

/-- The nodes that a request asks for: `cur` has a record now, `gone` is a voter now but not after the
change. -/
def AsksNode (retain cur gone : Prop) (x : NodeId) : ChangeMembers → Prop
  | .addVoters ns => (cur ∨ ∃ n, (x, n) ∈ ns) ∧ (retain ∨ ¬ gone)
  | .addNodes ns => cur ∨ ∃ n, (x, n) ∈ ns
  | .setNodes ns => cur ∨ ∃ n, (x, n) ∈ ns
  | .removeNodes ids => cur ∧ x ∉ ids
  | .replaceAllNodes ns => ∃ n, (x, n) ∈ ns
  | _ => cur ∧ (retain ∨ ¬ gone)

/-- The new membership has a record of exactly the nodes asked for: a voter that is removed stays as a
learner if `retain` is set and is dropped otherwise. -/
theorem C10_change_nodes {m m' : Membership} {ch : ChangeMembers} {retain : Bool}
    (h : m.change ch retain = .ok m') (x : NodeId) :
    (BMap.get m'.nodes x).isSome = true ↔
      AsksNode (retain = true) ((BMap.get m.nodes x).isSome = true) (m.isVoter x = true ∧ m'.isVoter x = false) x ch := by
  obtain ⟨rfl, _⟩ := change_ok h
  have hk : ∀ (ns : List (NodeId × Nat)), x ∈ BMap.keys ns ↔ ∃ n, (x, n) ∈ ns := by intro ns; simp [BMap.keys]
  have hnc : ∀ (m0 : Membership) (goal : List NodeId), m0.configs = m.configs →
      (x ∈ BMap.keys (m0.nextCoherent goal retain).nodes ↔
      x ∈ BMap.keys m0.nodes ∧ (retain = true ∨ ¬ (m.isVoter x = true ∧ (m0.nextCoherent goal retain).isVoter x = false))) := by
    intro m0 goal hm
    have hv : (m0.nextCoherent goal retain).isVoter x = false ↔ x ∉ jointIds (findCoherent m0.configs goal) := by
      rw [mem_jointIds, ← Bool.not_eq_true, isVoter_iff]; exact Iff.rfl
    have hm0 : m.isVoter x = true ↔ x ∈ jointIds m0.configs := by rw [mem_jointIds, isVoter_iff, hm]
    rw [hv, hm0]
    unfold nextCoherent
    simp only
    split
    · next hr => simp [hr]
    · next hr => rw [foldl_remove_keys, BSet.mem_diff]; simp [hr]
  simp only [BMap.get_isSome_iff]
  cases ch with
  | addVoterIds ids => exact hnc _ _ rfl
  | addVoters ns =>
    have := hnc { m with nodes := extendNodes m.nodes ns } (BSet.union (m.configs.getLast?.getD []) (BMap.keys ns)) rfl
    rw [extendNodes_keys, hk ns] at this
    exact this
  | removeVoters ids => exact hnc _ _ rfl
  | replaceAllVoters ids => exact hnc _ _ rfl
  | addNodes ns => simp only [changeRaw, extendNodes_keys, hk ns, AsksNode]
  | setNodes ns =>
    simp only [changeRaw, AsksNode, ← hk ns]
    have : ∀ r : List (NodeId × Nat), x ∈ BMap.keys (ns.foldl (fun r kv => BMap.insert kv.1 kv.2 r) r) ↔
        x ∈ BMap.keys r ∨ x ∈ BMap.keys ns := by
      clear hk hnc
      clear * -
      induction ns with
      | nil => intro r; simp [BMap.keys]
      | cons a ns ih =>
        intro r
        rw [List.foldl_cons, ih, BMap.mem_keys_insert]
        simp only [BMap.keys, List.map_cons, List.mem_cons]
        tauto
    exact this _
  | removeNodes ids => simp only [changeRaw, foldl_remove_keys, AsksNode]
  | replaceAllNodes ns => simp only [changeRaw, hk ns, AsksNode]

/-- Voter 3 is removed from {1,2,3}: the last config is {1,2}; its record goes only with the step that
leaves the joint config. -/
example : (Membership.mk [[1,2,3]] [(1,7),(2,8),(3,9)]).change (.removeVoters [3]) false
      = .ok ⟨[[1,2,3],[1,2]], [(1,7),(2,8),(3,9)]⟩
    ∧ (Membership.mk [[1,2,3],[1,2]] [(1,7),(2,8),(3,9)]).change (.removeVoters [3]) false
      = .ok ⟨[[1,2]], [(1,7),(2,8)]⟩
    ∧ (Membership.mk [[1,2]] [(1,7),(2,8),(3,9)]).change (.addVoterIds [3]) true
      = .ok ⟨[[1,2],[1,2,3]], [(1,7),(2,8),(3,9)]⟩ := by decide

/-! ## C11 -/

/-- Two applications of `ReplaceAllVoters(goal)` reach the uniform config `goal`, from any valid
membership; every later application is the identity on the voter configs. -/
theorem C11_two_steps {m : Membership} {goal : List NodeId} (retain : Bool)
    (hvalid : ensureValid m = .ok ()) (hgoal : goal ≠ [])
    (hnodes : ∀ x ∈ goal, x ∈ BMap.keys m.nodes) :
    ∃ m1 m2 m3, m.change (.replaceAllVoters goal) retain = .ok m1 ∧
      m1.change (.replaceAllVoters goal) retain = .ok m2 ∧ m2.configs = [goal] ∧
      m2.change (.replaceAllVoters goal) retain = .ok m3 ∧ m3 = m2 := by
  -- one step from a membership with records for its voters and the goal
  have step : ∀ m0 : Membership, ensureValid m0 = .ok () → (∀ x ∈ goal, x ∈ BMap.keys m0.nodes) →
      m0.change (.replaceAllVoters goal) retain = .ok (m0.nextCoherent goal retain) ∧
      ensureValid (m0.nextCoherent goal retain) = .ok () ∧
      (∀ x ∈ goal, x ∈ BMap.keys (m0.nextCoherent goal retain).nodes) := by
    intro m0 hv hg
    obtain ⟨hv1, hv2⟩ := ensureValid_ok.1 hv
    have hcfg : ∀ c ∈ findCoherent m0.configs goal, c = goal ∨ c ∈ m0.configs := by
      intro c hc
      unfold findCoherent at hc
      split at hc
      · left; simpa using hc
      · split at hc
        · rename_i l hl
          rcases List.mem_cons.1 hc with rfl | hc
          · exact Or.inr (List.mem_of_getLast? hl)
          · left; simpa using hc
        · left; simpa using hc
    have hgm : goal ∈ findCoherent m0.configs goal := by
      unfold findCoherent
      split
      · simp
      · split <;> simp
    have hkeys : ∀ x, (∃ c ∈ findCoherent m0.configs goal, x ∈ c) → x ∈ BMap.keys m0.nodes →
        x ∈ BMap.keys (m0.nextCoherent goal retain).nodes := by
      intro x hx hk
      unfold nextCoherent
      simp only
      split
      · exact hk
      · rw [foldl_remove_keys]
        refine ⟨hk, ?_⟩
        rw [BSet.mem_diff]
        rintro ⟨_, hn⟩
        exact hn (mem_jointIds.2 hx)
    have hval : ensureValid (m0.nextCoherent goal retain) = .ok () := by
      rw [ensureValid_ok]
      constructor
      · intro c hc
        rcases hcfg c hc with rfl | h
        · exact hgoal
        · exact hv1 c h
      · intro c hc x hx
        apply hkeys x ⟨c, hc, hx⟩
        rcases hcfg c hc with rfl | h
        · exact hg x hx
        · exact hv2 c h x hx
    refine ⟨?_, hval, fun x hx => hkeys x ⟨goal, hgm, hx⟩ (hg x hx)⟩
    unfold Membership.change
    simp only [changeRaw, hval]
  obtain ⟨a1, a2, a3⟩ := step m hvalid hnodes
  obtain ⟨b1, b2, b3⟩ := step _ a2 a3
  obtain ⟨c1, _, _⟩ := step _ b2 b3
  have hco : isCoherentWith (m.nextCoherent goal retain).configs goal = true := by
    unfold nextCoherent findCoherent isCoherentWith
    simp only
    split
    · simp
    · split <;> simp
  have hm2 : ((m.nextCoherent goal retain).nextCoherent goal retain).configs = [goal] := by
    unfold nextCoherent findCoherent
    simp only
    unfold nextCoherent at hco
    simp only at hco
    rw [show isCoherentWith (if isCoherentWith m.configs goal = true then [goal] else _) goal = true from hco]
    simp
  refine ⟨_, _, _, a1, b1, hm2, c1, ?_⟩
  set m2 := (m.nextCoherent goal retain).nextCoherent goal retain with hm2def
  have hfc : findCoherent m2.configs goal = [goal] := by
    rw [hm2]; simp [findCoherent, isCoherentWith]
  have hd : BSet.diff (jointIds m2.configs) (jointIds [goal]) = [] := by
    rw [hm2]
    apply List.filter_eq_nil_iff.2
    intro x hx
    simp only [Bool.not_eq_true', List.contains_eq_mem, decide_eq_false_iff_not, not_not]
    exact hx
  have : m2.nextCoherent goal retain = ⟨[goal], m2.nodes⟩ := by
    unfold nextCoherent
    simp only [hfc, hd, List.foldl_nil]
    split <;> rfl
  rw [this, ← hm2]

/-- From the joint [{1,2},{2,3}] to {4,5}: two steps. -/
example :
    let m : Membership := ⟨[[1,2],[2,3]], [(1,0),(2,0),(3,0),(4,0),(5,0)]⟩
    m.change (.replaceAllVoters [4,5]) false = .ok ⟨[[2,3],[4,5]], [(2,0),(3,0),(4,0),(5,0)]⟩ ∧
    (Membership.mk [[2,3],[4,5]] [(2,0),(3,0),(4,0),(5,0)]).change (.replaceAllVoters [4,5]) false
      = .ok ⟨[[4,5]], [(4,0),(5,0)]⟩ := by decide

end Openraft.Props
