import Verif.Base.Ids

/-!
# Specification of the stored log ids

A stored log is the plain list of the ids of its entries, oldest first (the id of the last purged
entry, if any, stays at the front). The operations are written without any reference to the
compressed list.
-/

set_option autoImplicit false

namespace Openraft.Spec

/-- what can be done to a stored log -/
inductive LogOp where
  /-- append entries of one leader -/
  | appendSameLeader (ids : List LogId)
  /-- append entries of any leaders -/
  | extend (ids : List LogId)
  /-- delete all entries at and after an index -/
  | truncate (since : Nat)
  /-- delete all entries before an index (a purge beyond the end leaves only the purged id) -/
  | purge (upto : LogId)
deriving DecidableEq, Repr

/-- the effect of an operation on the stored ids -/
def applyOp (S : List LogId) : LogOp → List LogId
  | .appendSameLeader ids => S ++ ids
  | .extend ids => S ++ ids
  | .truncate since => S.filter fun x => decide (x.index < since)
  | .purge upto =>
    if S.all (fun x => decide (x.index < upto.index)) then [upto]
    else S.filter fun x => decide (upto.index ≤ x.index)

/-- `ids` have consecutive indexes and continue the stored ids -/
def Continues (S ids : List LogId) : Prop :=
  (∀ i (h : i + 1 < ids.length), (ids[i+1]).index = (ids[i]).index + 1) ∧
  ∀ l, S.getLast? = some l → ∀ x, ids.head? = some x → x.index = l.index + 1

/-- operations a log store accepts -/
def ValidOp (S : List LogId) : LogOp → Prop
  | .appendSameLeader ids => Continues S ids ∧ ∀ x ∈ ids, ∀ y ∈ ids, x.leaderId = y.leaderId
  | .extend ids => Continues S ids
  | .truncate _ => True
  | .purge _ => True

/-- a history of valid operations -/
def ValidOps : List LogId → List LogOp → Prop
  | _, [] => True
  | S, o :: os => ValidOp S o ∧ ValidOps (applyOp S o) os

/-- the stored ids after a history -/
def applyOps (S : List LogId) (ops : List LogOp) : List LogId := ops.foldl applyOp S

end Openraft.Spec
