import Verif.Engine.Types

/-!
# Specification: what a list of commands must look like

Read off the list alone, without any function of the engine.
-/

set_option autoImplicit false

namespace Openraft.Spec
open Openraft.Engine

/-- The ranges handed to the state machine follow each other: an apply range starts where the state
machine is and is not empty; a snapshot is ahead of where the state machine is. -/
def Follows : Option LogId → List Cmd → Prop
  | _, [] => True
  | pos, .apply prev upto :: cs => prev = pos ∧ nextIndex pos ≤ upto.index ∧ pos < some upto ∧ Follows (some upto) cs
  | pos, .sm (.install m _) :: cs => nextIndex pos < nextIndex m.lastLogId ∧ pos < m.lastLogId ∧ Follows m.lastLogId cs
  | pos, _ :: cs => Follows pos cs

/-- where the state machine is after the commands -/
def smEnd : Option LogId → List Cmd → Option LogId
  | pos, [] => pos
  | _, .apply _ upto :: cs => smEnd (some upto) cs
  | _, .sm (.install m _) :: cs => smEnd m.lastLogId cs
  | pos, _ :: cs => smEnd pos cs

/-- the votes to be stored, each greater than the one before -/
def VotesGrow : Vote → List Cmd → Prop
  | _, [] => True
  | v, .saveVote w :: cs => v < w ∧ VotesGrow w cs
  | v, _ :: cs => VotesGrow v cs

/-- the vote stored last -/
def lastVote : Vote → List Cmd → Vote
  | v, [] => v
  | _, .saveVote w :: cs => lastVote w cs
  | v, _ :: cs => lastVote v cs

/-- the purge positions, each above the one before -/
def PurgesGrow : Option LogId → List Cmd → Prop
  | _, [] => True
  | p, .purge u :: cs => nextIndex p ≤ u.index ∧ PurgesGrow (some u) cs
  | p, _ :: cs => PurgesGrow p cs

/-- the log after the commands, as a list of entries: appends add at the end, a truncation removes from
an index on, a purge removes up to an index -/
def logAfter : List Ent → List Cmd → List Ent
  | l, [] => l
  | l, .append _ es :: cs => logAfter (l ++ es) cs
  | l, .truncate s :: cs => logAfter (l.filter fun x => decide (x.id.index < s.index)) cs
  | l, .purge u :: cs => logAfter (l.filter fun x => decide (u.index < x.id.index)) cs
  | l, _ :: cs => logAfter l cs

/-- each id has the index after the one before it -/
def NoHole : List LogId → Prop
  | [] => True
  | [_] => True
  | a :: b :: r => b.index = a.index + 1 ∧ NoHole (b :: r)

/-- the membership an entry stores, with its log id -/
def memOf (x : Ent) : Option StoredMem :=
  match x.payload with
  | .membership m => some ⟨some x.id, m⟩
  | _ => none

/-- The memberships the node can find after the commands: the last one at or below the purged position,
then those of the log. `snap` is the membership of the last installed snapshot; it is the one at the
purged position if a purge goes beyond the log. -/
def memsAfter (base snap : StoredMem) (l : List Ent) : List Cmd → List StoredMem
  | [] => base :: l.filterMap memOf
  | .append _ es :: cs => memsAfter base snap (l ++ es) cs
  | .truncate s :: cs => memsAfter base snap (l.filter fun x => decide (x.id.index < s.index)) cs
  | .purge u :: cs =>
    memsAfter
      (if (l.getLast?.any fun x => decide (u.index ≤ x.id.index)) then
        ((l.filter fun x => decide (x.id.index ≤ u.index)).filterMap memOf).getLast?.getD base
      else snap)
      snap (l.filter fun x => decide (u.index < x.id.index)) cs
  | .sm (.install m _) :: cs => memsAfter base m.mem l cs
  | _ :: cs => memsAfter base snap l cs

end Openraft.Spec
