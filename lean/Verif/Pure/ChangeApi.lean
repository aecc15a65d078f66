import Verif.Pure.Membership

/-!
# `Raft::change_membership`: the two requests of a call

A call sends the same request to the leader twice, the second time only if the first one was answered with a joint
config. Several calls can be open at the same time.
-/

set_option autoImplicit false

namespace Openraft.ChangeApi
open Openraft

/-- Where a call is, `raft/impl_raft_blocking_write.rs:52-107`. The memberships recorded on the way are there for the
statements only: `b` is the one that a request was computed from, `m` the one that it proposed. -/
inductive Phase where
  /-- the first request was sent, lines 70-81 -/
  | ask1
  /-- its entry is in the log and not committed -/
  | wait1 (b m : Membership)
  /-- its entry is committed, and not yet applied -/
  | got1 (b m : Membership)
  /-- the first request was answered with a joint config; the second was sent, line 98 -/
  | ask2 (b m : Membership)
  /-- the entry of the second request is in the log and not committed -/
  | wait2 (b m b2 m2 : Membership)
  /-- its entry is committed, and not yet applied -/
  | got2 (b m b2 m2 : Membership)
  /-- `Ok` after one request, line 91 -/
  | ok1 (b m : Membership)
  /-- `Ok` after two requests, line 106 -/
  | ok2 (b m b2 m2 : Membership)
  /-- an error, lines 83-86 and 100-103 -/
  | failed
deriving DecidableEq, Repr

/-- the membership in the `Ok` that a call returned -/
def Phase.result : Phase → Option Membership
  | .ok1 _ m => some m
  | .ok2 _ _ _ m2 => some m2
  | _ => none

/-- the call has returned -/
def Phase.over : Phase → Bool
  | .ok1 _ _ | .ok2 _ _ _ _ | .failed => true
  | _ => false

/-- a call and its arguments -/
structure Call where
  changes : ChangeMembers
  retain : Bool
  phase : Phase
deriving DecidableEq, Repr

/-- The leader as the calls see it: the committed membership, the last membership of the log if it is not committed
(`MembershipState`, `raft_state/membership_state/mod.rs:29-40`), and the calls. -/
structure Sys where
  com : Membership
  pend : Option Membership
  calls : List Call
  /-- all memberships that were committed so far; for the statements only -/
  past : List Membership
deriving DecidableEq, Repr

/-- The leader takes the request of a call: `ChangeHandler::apply`, `raft_state/membership_state/change_handler.rs:31-60`,
and `change_membership`, `core/raft_core.rs:452-464`. -/
def take (s : Sys) (c : Call) : Option (Membership × Phase) :=
  match s.pend with
  | some _ => none
  | none =>
    match s.com.change c.changes c.retain with
    | .error _ => none
    | .ok m =>
      match c.phase with
      | .ask1 => some (m, .wait1 s.com m)
      | .ask2 b1 m1 => some (m, .wait2 b1 m1 s.com m)
      | _ => none

/-- The entry of a call is committed. -/
def committed (p : Phase) : Phase :=
  match p with
  | .wait1 b m => .got1 b m
  | .wait2 b m b2 m2 => .got2 b m b2 m2
  | p => p

/-- The entry of a call was applied: the caller goes on, `raft/impl_raft_blocking_write.rs:88-106`. `none`: the call does
not wait for an answer. -/
def answer (p : Phase) : Option Phase :=
  match p with
  | .got1 b m => some (if m.configs.length = 1 then .ok1 b m else .ask2 b m)
  | .got2 b m b2 m2 => some (.ok2 b m b2 m2)
  | _ => none

/-- the request of a call is on its way -/
def Phase.asks : Phase → Bool
  | .ask1 | .ask2 _ _ => true
  | _ => false

/-- What can happen. -/
inductive Ev where
  /-- somebody calls `change_membership` -/
  | call (c : ChangeMembers) (retain : Bool)
  /-- the leader takes the request of call `i` -/
  | take (i : Nat)
  /-- the pending membership is committed -/
  | commit
  /-- the entry of call `i` is applied and the caller answered -/
  | reply (i : Nat)
  /-- call `i` gets an error: no leader, lost leadership, shut down -/
  | fail (i : Nat)
  /-- Another leader proposed and committed memberships, up to `m`. An entry that was pending is lost or, with `kept`, one of
  those committed; the calls made at that leader are not followed. -/
  | foreign (m : Membership) (kept : Bool)
deriving DecidableEq, Repr

/-- The calls that wait for an entry that is lost get an error, or no answer. -/
def dropAll (cs : List Call) : List Call :=
  cs.map fun c => { c with phase := match c.phase with
    | .wait1 _ _ | .wait2 _ _ _ _ => .failed
    | p => p }

/-- The call that waits: there is at most one, as the membership of its entry is the pending one. -/
def commitAll (cs : List Call) : List Call := cs.map fun c => { c with phase := committed c.phase }

/-- one event; `none`: it cannot happen now -/
def step (s : Sys) : Ev → Option Sys
  | .call c r => some { s with calls := s.calls ++ [⟨c, r, .ask1⟩] }
  | .take i =>
    match s.calls[i]? with
    | none => none
    | some c =>
      if c.phase.asks then
        match take s c with
        | some (m, p) => some { s with pend := some m, calls := s.calls.set i { c with phase := p } }
        | none => some { s with calls := s.calls.set i { c with phase := .failed } }
      else none
  | .commit =>
    match s.pend with
    | none => none
    | some m => some ⟨m, none, commitAll s.calls, s.past ++ [m]⟩
  | .reply i =>
    match s.calls[i]? with
    | none => none
    | some c =>
      match answer c.phase with
      | none => none
      | some p => some { s with calls := s.calls.set i { c with phase := p } }
  | .fail i =>
    match s.calls[i]? with
    | none => none
    | some c => if c.phase.over then none else some { s with calls := s.calls.set i { c with phase := .failed } }
  | .foreign m kept =>
    some ⟨m, none, if kept then commitAll s.calls else dropAll s.calls, s.past ++ (if kept then s.pend.toList else []) ++ [m]⟩

/-- the events one after the other -/
def run (s : Sys) : List Ev → Option Sys
  | [] => some s
  | e :: es => match step s e with
    | some s' => run s' es
    | none => none

/-- A membership as a leader has it: at least one config, every config an ordered set (`BTreeSet`). -/
def Shaped (m : Membership) : Prop := m.configs ≠ [] ∧ ∀ c ∈ m.configs, BSet.Sorted c

/-- the sets in a request are ordered sets -/
def SortedReq : ChangeMembers → Prop
  | .replaceAllVoters ids => BSet.Sorted ids
  | _ => True

/-- what is assumed of an event: sets are sets, and what comes from another leader is a membership -/
def EvOk : Ev → Prop
  | .call c _ => SortedReq c
  | .foreign m _ => Shaped m
  | _ => True

/-- the request is about voters -/
def AboutVoters : ChangeMembers → Prop
  | .addVoterIds _ | .addVoters _ | .removeVoters _ | .replaceAllVoters _ => True
  | _ => False

end Openraft.ChangeApi
