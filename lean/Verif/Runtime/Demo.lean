import Verif.Runtime.Queue
import Verif.Engine.Demo

/-!
# Concrete executions of a node
-/

set_option autoImplicit false

namespace Openraft.Runtime
open Openraft.Engine
open Openraft.Repl (Panic)

/-- a node that starts with an engine and a durable state; the commands the engine emitted at its start
are queued -/
def Node.boot (e : Eng) (d : Disk) (sm : Sm) : Node :=
  { eng := e, done := 0, rd := d.store, disk := d, pend := [], rx := [], smq := [], sm := sm,
    builds := [], repl := [], clients := [], sent := [], replies := [] }

/-- an empty disk -/
def Disk.empty : Disk := ⟨⟨⟨0, 0⟩, false⟩, none, ⟨none, []⟩⟩
/-- a state machine that applied nothing -/
def Sm.empty (persist : Bool) : Sm := ⟨none, .empty, [], ⟨none, .empty, 0⟩, persist⟩
/-- a node that never ran before -/
def Node.fresh (cfg : Cfg) (now : Nat) (persist : Bool := false) : Node :=
  Node.boot (Eng.fresh cfg now) .empty (.empty persist)

/-- a step is allowed: the message of a peer is one that a peer can send (`InputOk`) -/
def EvOk (n : Node) : Ev → Prop
  | .msg _ i => InputOk n.eng i
  | _ => True

/-- a node goes from one state to another by allowed steps -/
inductive Node.Run (dbg : Bool) (n0 : Node) : Node → Prop
  | refl : Node.Run dbg n0 n0
  | step {n n' : Node} (ev : Ev) : Node.Run dbg n0 n → EvOk n ev → n.step dbg ev = .ok n' → Node.Run dbg n0 n'

theorem Node.Run.trans {dbg : Bool} {a b c : Node} (h1 : Node.Run dbg a b) (h2 : Node.Run dbg b c) : Node.Run dbg a c := by
  induction h2 with
  | refl => exact h1
  | step ev _ h3 h4 ih => exact .step ev ih h3 h4

namespace Demo
open Openraft.Engine.Demo

/-- state after a step, the old one if the node stops -/
def after (dbg : Bool) (n : Node) (ev : Ev) : Node :=
  match n.step dbg ev with
  | .ok n' => n'
  | .error _ => n

/-- how a step stops the node, if it does -/
def stops {α : Type} : Out α → Option Stop
  | .ok _ => none
  | .error x => some x

theorem stops_some {α : Type} {r : Out α} {x : Stop} (h : stops r = some x) : r = .error x := by
  cases r with
  | ok y => cases h
  | error y => cases h; rfl

theorem after_ok {dbg : Bool} {n : Node} {ev : Ev} (h : stops (n.step dbg ev) = none) :
    n.step dbg ev = .ok (after dbg n ev) := by
  unfold after
  cases h1 : n.step dbg ev with
  | ok x => rfl
  | error x => rw [h1] at h; cases h

/-- steps in a row, each with the log of the leader that sends the message -/
def runTo (dbg : Bool) (n : Node) : List (List LogId × Ev) → Node
  | [] => n
  | (_, ev) :: evs => runTo dbg (after dbg n ev) evs

/-- decide `EvOk` -/
def evB (lead : List LogId) (n : Node) : Ev → Bool
  | .msg _ i => okB lead n.eng i
  | _ => true

theorem evB_ok {lead : List LogId} {n : Node} {ev : Ev} (h : evB lead n ev = true) : EvOk n ev := by
  cases ev with
  | msg now i => exact okB_ok h
  | _ => trivial

/-- every step is allowed and does not stop the node -/
def allOk (dbg : Bool) (n : Node) : List (List LogId × Ev) → Bool
  | [] => true
  | (lead, ev) :: evs => evB lead n ev && decide (stops (n.step dbg ev) = none) && allOk dbg (after dbg n ev) evs

theorem run_of_allOk {dbg : Bool} {n0 n : Node} {evs : List (List LogId × Ev)} (h0 : Node.Run dbg n0 n)
    (h : allOk dbg n evs = true) : Node.Run dbg n0 (runTo dbg n evs) := by
  induction evs generalizing n with
  | nil => exact h0
  | cons x evs ih =>
    obtain ⟨lead, ev⟩ := x
    simp only [allOk, Bool.and_eq_true, decide_eq_true_eq] at h
    exact ih (.step ev h0 (evB_ok h.1.1) (after_ok h.1.2)) h.2

/-- `k` rounds of the command loop -/
def runs (k : Nat) : List (List LogId × Ev) := List.replicate k ([], .run)

end Demo
end Openraft.Runtime
