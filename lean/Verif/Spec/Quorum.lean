import Mathlib.Data.Finset.Card

/-!
# Specification of quorums

Stated with finite sets and cardinalities only; nothing of the model is used.
-/

set_option autoImplicit false

namespace Openraft.Spec

/-- `S` contains more than half of the voters of `c`. -/
def Majority (c S : Finset Nat) : Prop := c.card < 2 * (c ∩ S).card

/-- `S` contains a majority of every config of a joint membership. -/
def JointQuorum (configs : List (Finset Nat)) (S : Finset Nat) : Prop := ∀ c ∈ configs, Majority c S

/-- In every config more than half of the voters have a value of at least `y`. -/
def ReachedByQuorum {α : Type} [LinearOrder α] (configs : List (Finset Nat)) (vals : Nat → α) (y : α) :
    Prop := ∀ c ∈ configs, c.card < 2 * (c.filter fun i => y ≤ vals i).card

/-- `g` is the greatest value reached by a quorum. -/
def QuorumValue {α : Type} [LinearOrder α] (configs : List (Finset Nat)) (vals : Nat → α) (g : α) :
    Prop := ReachedByQuorum configs vals g ∧ ∀ y, g < y → ¬ ReachedByQuorum configs vals y

end Openraft.Spec
