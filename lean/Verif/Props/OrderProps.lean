import Verif.Base.StdVote

/-!
# C16: the orders on votes and log ids
-/

set_option autoImplicit false

namespace Openraft.Props
open Openraft

/-! ## Default mode -/

theorem compare_nat_cases (a b : Nat) : (a < b ∧ compare a b = .lt) ∨ (a = b ∧ compare a b = .eq) ∨ (b < a ∧ compare a b = .gt) := by
  rcases Nat.lt_trichotomy a b with h | h | h
  · exact Or.inl ⟨h, Nat.compare_eq_lt.2 h⟩
  · exact Or.inr (Or.inl ⟨h, Nat.compare_eq_eq.2 h⟩)
  · exact Or.inr (Or.inr ⟨h, Nat.compare_eq_gt.2 h⟩)

theorem leaderId_cmp_cases (a b : LeaderId) : (a < b ∧ a.cmp b = .lt) ∨ (a = b ∧ a.cmp b = .eq) ∨ (b < a ∧ a.cmp b = .gt) := by
  unfold LeaderId.cmp
  simp only [LeaderId.lt_def, LeaderId.ext_iff']
  rcases compare_nat_cases a.term b.term with ⟨h, e⟩ | ⟨h, e⟩ | ⟨h, e⟩ <;>
  rcases compare_nat_cases a.node b.node with ⟨h', e'⟩ | ⟨h', e'⟩ | ⟨h', e'⟩ <;>
    simp only [e, e', Ordering.then] <;> simp <;> omega

/-- The code's comparison never panics, always gives an answer in the default mode, and the answer is
the one of the order used throughout this development. -/
theorem C16_vote_cmp (a b : Vote) :
    (a < b ∧ a.partialCmp b = .ok (some .lt)) ∨ (a = b ∧ a.partialCmp b = .ok (some .eq)) ∨
      (b < a ∧ a.partialCmp b = .ok (some .gt)) := by
  obtain ⟨la, ca⟩ := a
  obtain ⟨lb, cb⟩ := b
  unfold Vote.partialCmp
  rcases leaderId_cmp_cases la lb with ⟨h, e⟩ | ⟨h, e⟩ | ⟨h, e⟩
  · left; exact ⟨Or.inl h, by simp only [e]⟩
  · subst h
    simp only [e]
    cases ca <;> cases cb <;> simp [Vote.lt_def, compare, compareOfLessAndEq]
  · right; right; exact ⟨Or.inl h, by simp only [e]⟩

/-- Any two votes are comparable, equal only if identical, and the comparison is transitive. -/
theorem C16_vote_total (a b c : Vote) :
    (a ≤ b ∨ b ≤ a) ∧ (a ≤ b → b ≤ a → a = b) ∧ (a ≤ b → b ≤ c → a ≤ c) :=
  ⟨le_total a b, le_antisymm, le_trans⟩

/-- Any two log ids are comparable, equal only if identical, and the comparison is transitive. -/
theorem C16_logId_total (a b c : LogId) :
    (a ≤ b ∨ b ≤ a) ∧ (a ≤ b → b ≤ a → a = b) ∧ (a ≤ b → b ≤ c → a ≤ c) :=
  ⟨le_total a b, le_antisymm, le_trans⟩

/-- Committing a vote raises it, but not up to any vote of a greater leader. -/
theorem C16_committed_between (l l' : LeaderId) (c : Bool) (h : l < l') :
    (⟨l, false⟩ : Vote) < ⟨l, true⟩ ∧ (⟨l, true⟩ : Vote) < ⟨l', c⟩ ∧
      ∀ v : Vote, (⟨l, false⟩ : Vote) ≤ v → v ≤ ⟨l, true⟩ → v.leaderId = l := by
  refine ⟨Or.inr ⟨rfl, rfl, rfl⟩, Or.inl h, ?_⟩
  intro v h1 h2
  exact le_antisymm (Vote.leaderId_le_of_le h2) (Vote.leaderId_le_of_le h1)

/-- A log id of a greater leader is greater, whatever the indexes. -/
theorem C16_logId_leader_first (a b : LogId) (h : a.leaderId < b.leaderId) : a < b ∧ ¬ b ≤ a :=
  ⟨Or.inl h, not_le_of_gt (show a < b from Or.inl h)⟩

example : Vote.newCommitted 3 1 < Vote.new 3 2 ∧ ¬ (Vote.new 3 2 ≤ Vote.newCommitted 3 1) := by decide

/-! ## `single-term-leader` mode -/

open Std in
/-- The two votes are not the pair on which the comparison panics: both committed, of one term, for
different nodes. Election safety in this mode excludes that pair. -/
def NotTwoLeaders (a b : Std.Vote) : Prop :=
  ¬ (a.committed = true ∧ b.committed = true ∧ a.leaderId.term = b.leaderId.term ∧
    ∃ x y, a.leaderId.votedFor = some x ∧ b.leaderId.votedFor = some y ∧ x ≠ y)

/-- The comparison panics exactly on two different committed leaders of one term. -/
theorem C16_std_panics_iff (a b : Std.Vote) : a.partialCmp b = .error () ↔ ¬ NotTwoLeaders a b := by
  obtain ⟨⟨ta, va⟩, ca⟩ := a
  obtain ⟨⟨tb, vb⟩, cb⟩ := b
  unfold Std.Vote.partialCmp Std.LeaderId.partialCmp NotTwoLeaders
  rcases compare_nat_cases ta tb with ⟨h, hc⟩ | ⟨h, hc⟩ | ⟨h, hc⟩
  · simp only [hc]; simp; intros; omega
  · simp only [hc]
    rcases va with _ | x <;> rcases vb with _ | y <;> simp [h]
    by_cases hxy : x = y
    · simp [hxy]
    · simp only [hxy, if_false, not_false_iff, and_true]
      cases ca <;> cases cb <;> simp
  · simp only [hc]; simp; intros; omega

/-- The strict comparison is a strict partial order. -/
theorem C16_std_partial_order (a b c : Std.Vote) (hac : NotTwoLeaders a c) :
    ¬ a.lt a ∧ (a.lt b → ¬ b.lt a) ∧ (a.lt b → b.lt c → a.lt c) := by
  obtain ⟨⟨ta, va⟩, ca⟩ := a
  obtain ⟨⟨tb, vb⟩, cb⟩ := b
  obtain ⟨⟨tc, vc⟩, cc⟩ := c
  have e : ∀ t, compare t t = Ordering.eq := fun t => Nat.compare_eq_eq.2 rfl
  refine ⟨?_, ?_, ?_⟩
  · unfold Std.Vote.lt Std.Vote.partialCmp Std.LeaderId.partialCmp
    simp only [e]
    rcases va with _ | x <;> cases ca <;> simp [compare, compareOfLessAndEq]
  · unfold Std.Vote.lt Std.Vote.partialCmp Std.LeaderId.partialCmp
    rcases compare_nat_cases ta tb with ⟨h, hc⟩ | ⟨h, hc⟩ | ⟨h, hc⟩
    · have h2 : compare tb ta = .gt := Nat.compare_eq_gt.2 h
      simp [hc, h2]
    · subst h
      simp only [e]
      rcases va with _ | x <;> rcases vb with _ | y <;> (try simp) <;>
        (try (by_cases hxy : x = y)) <;> (try simp [hxy, eq_comm]) <;>
        cases ca <;> cases cb <;> simp_all [compare, compareOfLessAndEq, eq_comm]
    · simp [hc]
  · unfold NotTwoLeaders at hac
    unfold Std.Vote.lt Std.Vote.partialCmp Std.LeaderId.partialCmp
    rcases compare_nat_cases ta tb with ⟨h, hc⟩ | ⟨h, hc⟩ | ⟨h, hc⟩ <;>
    rcases compare_nat_cases tb tc with ⟨h', hc'⟩ | ⟨h', hc'⟩ | ⟨h', hc'⟩
    · have : compare ta tc = .lt := Nat.compare_eq_lt.2 (by omega)
      simp [this]
    · have : compare ta tc = .lt := Nat.compare_eq_lt.2 (by omega)
      simp [this]
    · simp [hc, hc']
    · have : compare ta tc = .lt := Nat.compare_eq_lt.2 (by omega)
      simp [this]
    · subst h; subst h'
      simp only [e]
      rcases va with _ | x <;> rcases vb with _ | y <;> rcases vc with _ | z <;> (try simp) <;>
        (try (by_cases hxy : x = y)) <;> (try (by_cases hyz : y = z)) <;> (try (by_cases hxz : x = z)) <;>
        cases ca <;> cases cb <;> cases cc <;> simp_all [compare, compareOfLessAndEq]
    · simp [hc']
    · simp [hc]
    · simp [hc]
    · simp [hc]

/-- Two candidates of one term are incomparable: a node that stored the vote of one of them, not yet
committed, does not accept the vote request of the other (`update_vote` demands `>=`). -/
theorem C16_std_candidates_incomparable (t x y : Nat) (h : x ≠ y) :
    let a : Std.Vote := ⟨⟨t, some x⟩, false⟩
    let b : Std.Vote := ⟨⟨t, some y⟩, false⟩
    ¬ a.ge b ∧ ¬ b.ge a := by
  have e : compare t t = Ordering.eq := Nat.compare_eq_eq.2 rfl
  simp [Std.Vote.ge, Std.Vote.partialCmp, Std.LeaderId.partialCmp, e, h, Ne.symm h]

/-- A committed vote is greater than every uncommitted vote of its term. -/
theorem C16_std_committed_greatest (t x : Nat) (v : Std.Vote) (hv : v.committed = false) (ht : v.leaderId.term = t) :
    v.lt ⟨⟨t, some x⟩, true⟩ := by
  obtain ⟨⟨tv, vv⟩, cv⟩ := v
  simp only at hv ht; subst hv; subst ht
  have e : compare tv tv = Ordering.eq := Nat.compare_eq_eq.2 rfl
  rcases vv with _ | y
  · simp [Std.Vote.lt, Std.Vote.partialCmp, Std.LeaderId.partialCmp, e]
  · by_cases h : y = x
    · simp [Std.Vote.lt, Std.Vote.partialCmp, Std.LeaderId.partialCmp, e, h, compare, compareOfLessAndEq]
    · simp [Std.Vote.lt, Std.Vote.partialCmp, Std.LeaderId.partialCmp, e, h]

/-- Votes of different terms are ordered by term. -/
theorem C16_std_terms (a b : Std.Vote) (h : a.leaderId.term < b.leaderId.term) : a.lt b ∧ ¬ a.ge b := by
  have e : compare a.leaderId.term b.leaderId.term = Ordering.lt := Nat.compare_eq_lt.2 h
  simp [Std.Vote.lt, Std.Vote.ge, Std.Vote.partialCmp, Std.LeaderId.partialCmp, e]

/-- Every vote is at least as great as itself: a request repeated with the vote already stored is not refused for its vote. -/
theorem C16_std_ge_refl (a : Std.Vote) : a.ge a := by
  obtain ⟨⟨t, v⟩, c⟩ := a
  have e : compare t t = Ordering.eq := Nat.compare_eq_eq.2 rfl
  rcases v with _ | y <;> cases c <;> simp [Std.Vote.ge, Std.Vote.partialCmp, Std.LeaderId.partialCmp, e, compare, compareOfLessAndEq]

example : (⟨⟨2, some 1⟩, false⟩ : Std.Vote).ge ⟨⟨2, some 1⟩, false⟩ := C16_std_ge_refl _

example : ¬ (⟨⟨2, some 1⟩, false⟩ : Std.Vote).ge ⟨⟨2, some 2⟩, false⟩ ∧
    (⟨⟨2, some 1⟩, false⟩ : Std.Vote).lt ⟨⟨2, some 2⟩, true⟩ ∧
    (⟨⟨2, some 1⟩, true⟩ : Std.Vote).partialCmp ⟨⟨2, some 2⟩, true⟩ = .error () := by decide

end Openraft.Props
