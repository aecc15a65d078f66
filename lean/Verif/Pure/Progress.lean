import Verif.Pure.Membership
import Mathlib.Data.Bool.Basic

/-!
# `VecProgress`: the quorum-granted value of a set of progresses

Model of `progress/mod.rs`. The progress entry `V` is identified with its borrowed progress
value `P` (a totally ordered `α`); the additional data of `V` (`ProgressEntry`) is modelled in
`Verif/Pure/ProgressEntry.lean`.
-/

set_option autoImplicit false

namespace Openraft

/-- `VecProgress`, `progress/mod.rs:112-142`. `configs` is the `Joint` quorum set. -/
structure VecProgress (α : Type) where
  configs : List (List NodeId)
  granted : α
  voterCount : Nat
  vector : List (NodeId × α)
deriving DecidableEq, Repr

namespace VecProgress
variable {α : Type} [LinearOrder α]

/-- `VecProgress::new`, `progress/mod.rs:216-231` -/
def new (configs : List (List NodeId)) (learners : List NodeId) (dflt : α) : VecProgress α :=
  let voters := Membership.jointIds configs
  { configs := configs
    granted := dflt
    voterCount := voters.length
    vector := voters.map (fun id => (id, dflt)) ++ learners.map (fun id => (id, dflt)) }

/-- `VecProgress::index`, `progress/mod.rs:233-243` -/
def index (p : VecProgress α) (id : NodeId) : Option Nat := p.vector.findIdx? fun e => e.1 == id

/-- Loop of `VecProgress::move_up`, `progress/mod.rs:247-259`: swap the element at position `i`
with its predecessor while the predecessor is smaller. -/
def moveUp (v : List (NodeId × α)) : Nat → List (NodeId × α) × Nat
  | 0 => (v, 0)
  | i + 1 =>
    match v[i]?, v[i+1]? with
    | some a, some b =>
      if a.2 < b.2 then moveUp ((v.set i b).set (i + 1) a) i else (v, i + 1)
    | _, _ => (v, i + 1)   -- out of range: not reachable, `index` is valid

/-- The `for i in new_index..voter_count` loop of `update_with`, `progress/mod.rs:357-380`; the first
number counts the remaining rounds. -/
def scanLoop (configs : List (List NodeId)) (granted : α) (v : List (NodeId × α)) : Nat → Nat → α
  | 0, _ => granted
  | n + 1, i =>
    match v[i]? with
    | none => granted
    | some (_, prog) =>
      if prog ≤ granted then granted
      else if isQuorum configs ((v.take (i + 1)).map (·.1)) then prog
      else scanLoop configs granted v n (i + 1)

/-- `scanLoop` for `i in i..voter_count` -/
def scan (configs : List (List NodeId)) (granted : α) (voterCount : Nat) (v : List (NodeId × α))
    (i : Nat) : α :=
  scanLoop configs granted v (voterCount - i) i

/-- one round of the loop -/
theorem scan_eq (configs : List (List NodeId)) (granted : α) (voterCount : Nat) (v : List (NodeId × α))
    (i : Nat) : scan configs granted voterCount v i =
  if i < voterCount then
    match v[i]? with
    | none => granted
    | some (_, prog) =>
      if prog ≤ granted then granted
      else if isQuorum configs ((v.take (i + 1)).map (·.1)) then prog
      else scan configs granted voterCount v (i + 1)
  else granted := by
  unfold scan
  split
  · have h : voterCount - i = (voterCount - (i + 1)) + 1 := by omega
    rw [h]; rfl
  · have h : voterCount - i = 0 := by omega
    rw [h]; rfl

/-- `VecProgress::update_with`, `progress/mod.rs:320-384`, with the new value given directly
(`update`, `progress/mod.rs:51-55`). `none` is the `Err` of an unknown id. -/
def update (p : VecProgress α) (id : NodeId) (value : α) : Option (VecProgress α) :=
  match p.index id with
  | none => none
  | some idx =>
    match p.vector[idx]? with
    | none => none      -- not reachable
    | some (_, prev) =>
      let p1 := { p with vector := p.vector.set idx (id, value) }
      if prev = value then some p1
      else if idx ≥ p.voterCount then some p1
      else if prev ≤ p.granted ∧ value > p.granted then
        let (v, ni) := moveUp p1.vector idx
        some { p1 with vector := v, granted := scan p.configs p.granted p.voterCount v ni }
      else some p1

/-- `Progress::increase_to`, `progress/mod.rs:58-66`: update only if the value grows. -/
def increaseTo (p : VecProgress α) (id : NodeId) (value : α) : Option (VecProgress α) :=
  match p.index id with
  | none => none
  | some idx =>
    match p.vector[idx]? with
    | none => none
    | some (_, prev) => if value > prev then p.update id value else some p

/-- `Progress::try_get`, `progress/mod.rs:387-390` -/
def get? (p : VecProgress α) (id : NodeId) : Option α := (p.vector.find? fun e => e.1 == id).map (·.2)

/-- `VecProgress::upgrade_quorum_set`, `progress/mod.rs:417-431` -/
def upgrade (p : VecProgress α) (configs : List (List NodeId)) (learners : List NodeId) (dflt : α) :
    VecProgress α :=
  p.vector.foldl (fun np e => (np.update e.1 e.2).getD np) (new configs learners dflt)

/-- A sequence of updates; an unknown id is ignored (the callers `expect` it to be known). -/
def updates (p : VecProgress α) : List (NodeId × α) → VecProgress α
  | [] => p
  | (id, v) :: us => updates ((p.update id v).getD p) us

/-- ids of the voters whose value is at least `x` -/
def reached (p : VecProgress α) (x : α) : List NodeId :=
  ((p.vector.take p.voterCount).filter fun e => decide (x ≤ e.2)).map (·.1)

end VecProgress
end Openraft
