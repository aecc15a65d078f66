import Verif.Base.Ids

/-!
# Votes in the `single-term-leader` mode

Model of `vote/leader_id/leader_id_std.rs` and of `Vote::partial_cmp` (`vote/vote.rs:22-42`) for this
mode.
-/

set_option autoImplicit false

deriving instance DecidableEq for Except

/-- `#[derive(Ord)]` of the default mode's `LeaderId`, `leader_id_adv.rs:15`: compare the term, then the
node id. -/
def Openraft.LeaderId.cmp (a b : Openraft.LeaderId) : Ordering :=
  (compare a.term b.term).then (compare a.node b.node)

/-- `Vote::partial_cmp`, `vote/vote.rs:22-42`, as executed in the default mode: same code as in
`Std.Vote.partialCmp`; `.error ()` is the panic. -/
def Openraft.Vote.partialCmp (a b : Openraft.Vote) : Except Unit (Option Ordering) :=
  match some (a.leaderId.cmp b.leaderId) with
  | some .eq => .ok (some (compare a.committed b.committed))
  | none =>
    match a.committed, b.committed with
    | false, false => .ok none
    | true, false => .ok (some .gt)
    | false, true => .ok (some .lt)
    | true, true => .error ()
  | o => .ok o

namespace Openraft.Std

/-- `LeaderId`, `leader_id_std.rs:8-16` -/
structure LeaderId where
  term : Nat
  votedFor : Option NodeId
deriving DecidableEq, Repr

/-- `LeaderId::partial_cmp`, `leader_id_std.rs:18-40` -/
def LeaderId.partialCmp (a b : LeaderId) : Option Ordering :=
  match compare a.term b.term with
  | .eq =>
    match a.votedFor, b.votedFor with
    | none, none => some .eq
    | some _, none => some .gt
    | none, some _ => some .lt
    | some x, some y => if x = y then some .eq else none
  | o => some o

/-- `Vote`, `vote/vote.rs:12-19` -/
structure Vote where
  leaderId : LeaderId
  committed : Bool
deriving DecidableEq, Repr

/-- `Vote::partial_cmp`, `vote/vote.rs:22-42`. `.error ()` is the `unreachable!` panic. -/
def Vote.partialCmp (a b : Vote) : Except Unit (Option Ordering) :=
  match a.leaderId.partialCmp b.leaderId with
  | some .eq => .ok (some (compare a.committed b.committed))
  | none =>
    match a.committed, b.committed with
    | false, false => .ok none
    | true, false => .ok (some .gt)
    | false, true => .ok (some .lt)
    | true, true => .error ()
  | o => .ok o

/-- `a >= b` as Rust derives it from `partial_cmp`: `Some(Greater)` or `Some(Equal)` -/
def Vote.ge (a b : Vote) : Prop := a.partialCmp b = .ok (some .gt) ∨ a.partialCmp b = .ok (some .eq)
/-- `a < b` as Rust derives it -/
def Vote.lt (a b : Vote) : Prop := a.partialCmp b = .ok (some .lt)

instance (a b : Vote) : Decidable (a.ge b) := by unfold Vote.ge; infer_instance
instance (a b : Vote) : Decidable (a.lt b) := by unfold Vote.lt; infer_instance

end Openraft.Std
