import Mathlib.Order.Defs.LinearOrder

/-!
# Leader ids, votes and log ids (default mode of openraft)

Model of `vote/leader_id/leader_id_adv.rs`, `vote/vote.rs`, `log_id/mod.rs`.
Node ids and indexes are unbounded naturals (`u64`/`NodeId` in the code).
-/

set_option autoImplicit false

namespace Openraft

-- `C::NodeId`: any totally ordered id; natural numbers here.
notation "NodeId" => Nat

/-- `LeaderId` of the default mode, `vote/leader_id/leader_id_adv.rs:14-22`. In this mode
`CommittedLeaderId` is the same type (line 68). -/
structure LeaderId where
  term : Nat
  node : NodeId
deriving DecidableEq, Repr, Inhabited

namespace LeaderId

/-- `#[derive(PartialOrd, Ord)]`, `leader_id_adv.rs:15`: lexicographic on `(term, node_id)`. -/
instance : LE LeaderId := ⟨fun a b => a.term < b.term ∨ (a.term = b.term ∧ a.node ≤ b.node)⟩
/-- strict part of the derived order -/
instance : LT LeaderId := ⟨fun a b => a.term < b.term ∨ (a.term = b.term ∧ a.node < b.node)⟩

theorem le_def {a b : LeaderId} :
    a ≤ b ↔ a.term < b.term ∨ (a.term = b.term ∧ a.node ≤ b.node) := Iff.rfl
theorem lt_def {a b : LeaderId} :
    a < b ↔ a.term < b.term ∨ (a.term = b.term ∧ a.node < b.node) := Iff.rfl

instance (a b : LeaderId) : Decidable (a ≤ b) :=
  inferInstanceAs (Decidable (a.term < b.term ∨ (a.term = b.term ∧ a.node ≤ b.node)))
instance (a b : LeaderId) : Decidable (a < b) :=
  inferInstanceAs (Decidable (a.term < b.term ∨ (a.term = b.term ∧ a.node < b.node)))

theorem ext_iff' {a b : LeaderId} : a = b ↔ a.term = b.term ∧ a.node = b.node := by
  cases a; cases b; simp

instance : LinearOrder LeaderId where
  le_refl a := by simp [le_def]
  le_trans a b c := by simp only [le_def]; omega
  lt_iff_le_not_ge a b := by simp only [le_def, lt_def]; omega
  le_antisymm a b := by simp only [le_def, ext_iff']; omega
  le_total a b := by simp only [le_def]; omega
  toDecidableLE := inferInstance
  toDecidableLT := inferInstance
  toDecidableEq := inferInstance

end LeaderId

/-- `Vote`, `vote/vote.rs:12-19`. -/
structure Vote where
  leaderId : LeaderId
  committed : Bool
deriving DecidableEq, Repr, Inhabited

namespace Vote

/-- `Vote::partial_cmp`, `vote/vote.rs:22-42`. In the default mode leader ids are totally ordered,
so only the `Equal` arm and the pass-through arm are reachable: compare the leader id, then
`committed` (`false < true`). -/
instance : LE Vote :=
  ⟨fun a b => a.leaderId < b.leaderId ∨ (a.leaderId = b.leaderId ∧ (a.committed = true → b.committed = true))⟩
/-- strict part of `Vote::partial_cmp` -/
instance : LT Vote :=
  ⟨fun a b => a.leaderId < b.leaderId ∨ (a.leaderId = b.leaderId ∧ a.committed = false ∧ b.committed = true)⟩

theorem le_def {a b : Vote} : a ≤ b ↔
    a.leaderId < b.leaderId ∨ (a.leaderId = b.leaderId ∧ (a.committed = true → b.committed = true)) := Iff.rfl
theorem lt_def {a b : Vote} : a < b ↔
    a.leaderId < b.leaderId ∨ (a.leaderId = b.leaderId ∧ a.committed = false ∧ b.committed = true) := Iff.rfl

instance (a b : Vote) : Decidable (a ≤ b) :=
  inferInstanceAs (Decidable (a.leaderId < b.leaderId ∨
    (a.leaderId = b.leaderId ∧ (a.committed = true → b.committed = true))))
instance (a b : Vote) : Decidable (a < b) :=
  inferInstanceAs (Decidable (a.leaderId < b.leaderId ∨
    (a.leaderId = b.leaderId ∧ a.committed = false ∧ b.committed = true)))

theorem ext_iff' {a b : Vote} : a = b ↔ a.leaderId = b.leaderId ∧ a.committed = b.committed := by
  cases a; cases b; simp

instance : LinearOrder Vote where
  le_refl a := by simp [le_def]
  le_trans a b c := by
    simp only [le_def]
    rintro (h | ⟨h, h'⟩) (k | ⟨k, k'⟩)
    · exact Or.inl (lt_trans h k)
    · exact Or.inl (k ▸ h)
    · exact Or.inl (h ▸ k)
    · exact Or.inr ⟨h.trans k, fun x => k' (h' x)⟩
  lt_iff_le_not_ge a b := by
    simp only [le_def, lt_def]
    rcases lt_trichotomy a.leaderId b.leaderId with h | h | h
    · simp [h, lt_asymm h, ne_of_gt h]
    · rw [h]; cases a.committed <;> cases b.committed <;> simp
    · simp [h, lt_asymm h, ne_of_gt h]
  le_antisymm a b := by
    simp only [le_def, ext_iff']
    rintro (h | ⟨h, h'⟩) (k | ⟨k, k'⟩)
    · exact absurd h (lt_asymm k)
    · exact absurd h (by rw [k]; exact lt_irrefl _)
    · exact absurd k (by rw [h]; exact lt_irrefl _)
    · refine ⟨h, ?_⟩
      revert h' k'; cases a.committed <;> cases b.committed <;> simp
  le_total a b := by
    simp only [le_def]
    rcases lt_trichotomy a.leaderId b.leaderId with h | h | h
    · exact Or.inl (Or.inl h)
    · rw [h]; cases a.committed <;> cases b.committed <;> simp
    · exact Or.inr (Or.inl h)
  toDecidableLE := inferInstance
  toDecidableLT := inferInstance
  toDecidableEq := inferInstance

/-- `Vote::new`, `vote/vote.rs:56-61` -/
def new (term : Nat) (node : NodeId) : Vote := ⟨⟨term, node⟩, false⟩
/-- `Vote::new_committed`, `vote/vote.rs:63-68` -/
def newCommitted (term : Nat) (node : NodeId) : Vote := ⟨⟨term, node⟩, true⟩
/-- `Vote::into_committed` / `CommittedVote::new`, `vote/vote.rs:76-79`, `vote/committed.rs` -/
def toCommitted (v : Vote) : Vote := { v with committed := true }
/-- `NonCommittedVote::into_vote`, `vote/vote.rs:81-84`, `vote/non_committed.rs` -/
def toNonCommitted (v : Vote) : Vote := { v with committed := false }
/-- `Vote::is_same_leader`, `vote/vote.rs:97-99`; adv mode: `leader_id_adv.rs:44-46` equality. -/
def isSameLeader (v : Vote) (l : LeaderId) : Bool := v.leaderId == l

theorem leaderId_le_of_le {a b : Vote} (h : a ≤ b) : a.leaderId ≤ b.leaderId := by
  rcases h with h | ⟨h, _⟩
  · exact le_of_lt h
  · exact le_of_eq h

end Vote

/-- `LogId`, `log_id/mod.rs:24-32`. -/
structure LogId where
  leaderId : LeaderId
  index : Nat
deriving DecidableEq, Repr, Inhabited

namespace LogId

/-- `#[derive(PartialOrd, Ord)]`, `log_id/mod.rs:23`: lexicographic on `(leader_id, index)`. -/
instance : LE LogId :=
  ⟨fun a b => a.leaderId < b.leaderId ∨ (a.leaderId = b.leaderId ∧ a.index ≤ b.index)⟩
/-- strict part of the derived order -/
instance : LT LogId :=
  ⟨fun a b => a.leaderId < b.leaderId ∨ (a.leaderId = b.leaderId ∧ a.index < b.index)⟩

theorem le_def {a b : LogId} : a ≤ b ↔
    a.leaderId < b.leaderId ∨ (a.leaderId = b.leaderId ∧ a.index ≤ b.index) := Iff.rfl
theorem lt_def {a b : LogId} : a < b ↔
    a.leaderId < b.leaderId ∨ (a.leaderId = b.leaderId ∧ a.index < b.index) := Iff.rfl

instance (a b : LogId) : Decidable (a ≤ b) :=
  inferInstanceAs (Decidable (a.leaderId < b.leaderId ∨ (a.leaderId = b.leaderId ∧ a.index ≤ b.index)))
instance (a b : LogId) : Decidable (a < b) :=
  inferInstanceAs (Decidable (a.leaderId < b.leaderId ∨ (a.leaderId = b.leaderId ∧ a.index < b.index)))

theorem ext_iff' {a b : LogId} : a = b ↔ a.leaderId = b.leaderId ∧ a.index = b.index := by
  cases a; cases b; simp

instance : LinearOrder LogId where
  le_refl a := by simp [le_def]
  le_trans a b c := by
    simp only [le_def, LeaderId.lt_def, LeaderId.ext_iff']; omega
  lt_iff_le_not_ge a b := by
    simp only [le_def, lt_def, LeaderId.lt_def, LeaderId.ext_iff']; omega
  le_antisymm a b := by
    simp only [le_def, ext_iff', LeaderId.lt_def, LeaderId.ext_iff']; omega
  le_total a b := by
    simp only [le_def, LeaderId.lt_def, LeaderId.ext_iff']; omega
  toDecidableLE := inferInstance
  toDecidableLT := inferInstance
  toDecidableEq := inferInstance

theorem leaderId_le_of_le {a b : LogId} (h : a ≤ b) : a.leaderId ≤ b.leaderId := by
  rcases h with h | ⟨h, _⟩
  · exact le_of_lt h
  · exact le_of_eq h

end LogId

/-! ## `Option` with `None` smallest

Rust's derived order on `Option<T>`: `None < Some(_)`. The core library's order on `Option`
is the same; here is its linear-order instance. -/

namespace OptOrd
variable {α : Type} [LinearOrder α]

theorem none_le' (a : Option α) : none ≤ a := by cases a <;> trivial
theorem some_le_some' {a b : α} : (some a ≤ some b) ↔ a ≤ b := Iff.rfl
theorem some_lt_some' {a b : α} : (some a < some b) ↔ a < b := Iff.rfl
theorem not_some_le_none' {a : α} : ¬ (some a ≤ (none : Option α)) := fun h => h
theorem none_lt_some' {a : α} : (none : Option α) < some a := trivial
theorem not_lt_none' {a : Option α} : ¬ (a < (none : Option α)) := by cases a <;> exact fun h => h

end OptOrd

instance optionDecidableLE {α : Type} [LinearOrder α] (a b : Option α) : Decidable (a ≤ b) :=
  match a, b with
  | none, none => isTrue trivial
  | none, some _ => isTrue trivial
  | some _, none => isFalse fun h => h
  | some x, some y => inferInstanceAs (Decidable (x ≤ y))

instance optionDecidableLT {α : Type} [LinearOrder α] (a b : Option α) : Decidable (a < b) :=
  match a, b with
  | none, none => isFalse fun h => h
  | none, some _ => isTrue trivial
  | some _, none => isFalse fun h => h
  | some x, some y => inferInstanceAs (Decidable (x < y))

instance optionLinearOrder {α : Type} [LinearOrder α] : LinearOrder (Option α) where
  toMin := ⟨fun a b => if a ≤ b then a else b⟩
  toMax := ⟨fun a b => if a ≤ b then b else a⟩
  toOrd := ⟨fun a b => compareOfLessAndEq a b⟩
  le_refl a := by cases a with
    | none => trivial
    | some x => exact le_refl x
  le_trans a b c := by
    rcases a with _ | a
    · intros; exact OptOrd.none_le' _
    · rcases b with _ | b
      · intro h; exact absurd h OptOrd.not_some_le_none'
      · rcases c with _ | c
        · intro _ h; exact absurd h OptOrd.not_some_le_none'
        · exact fun h k => le_trans (α := α) h k
  lt_iff_le_not_ge a b := by
    rcases a with _ | a <;> rcases b with _ | b
    · exact ⟨fun h => absurd h OptOrd.not_lt_none', fun h => absurd (OptOrd.none_le' _) h.2⟩
    · exact ⟨fun _ => ⟨OptOrd.none_le' _, OptOrd.not_some_le_none'⟩, fun _ => OptOrd.none_lt_some'⟩
    · exact ⟨fun h => absurd h OptOrd.not_lt_none', fun h => absurd h.1 OptOrd.not_some_le_none'⟩
    · exact lt_iff_le_not_ge (α := α)
  le_antisymm a b := by
    rcases a with _ | a <;> rcases b with _ | b
    · intros; rfl
    · intro _ h; exact absurd h OptOrd.not_some_le_none'
    · intro h; exact absurd h OptOrd.not_some_le_none'
    · intro h k; exact congrArg some (le_antisymm (α := α) h k)
  le_total a b := by
    rcases a with _ | a <;> rcases b with _ | b
    · exact Or.inl (OptOrd.none_le' _)
    · exact Or.inl (OptOrd.none_le' _)
    · exact Or.inr (OptOrd.none_le' _)
    · exact le_total (α := α) a b
  toDecidableLE := inferInstance
  toDecidableLT := inferInstance
  toDecidableEq := inferInstance

/-- `LogIdOptionExt::next_index`, `log_id/log_id_option_ext.rs:23-28`. -/
def nextIndex : Option LogId → Nat
  | none => 0
  | some l => l.index + 1

@[simp] theorem nextIndex_none : nextIndex none = 0 := rfl
@[simp] theorem nextIndex_some (l : LogId) : nextIndex (some l) = l.index + 1 := rfl

example : (⟨⟨1, 2⟩, 5⟩ : LogId) < ⟨⟨2, 0⟩, 3⟩ := by decide
example : (none : Option LogId) < some ⟨⟨0, 0⟩, 0⟩ := by decide
example : Vote.new 3 1 < Vote.newCommitted 3 1 ∧ Vote.newCommitted 3 1 < Vote.new 3 2 := by decide

end Openraft
