import Verif.Runtime.Model
import Verif.Engine.Basic

/-!
# The command queue

`EngineOutput` (`engine/engine_output.rs`) is a double-ended queue; `run_engine_commands`
(`core/raft_core.rs:868-900`) takes commands from its front and puts one back that has to wait.
-/

set_option autoImplicit false

namespace Openraft.Runtime
open Openraft.Engine

/-- `EngineOutput`, `engine/engine_output.rs:8-14`: the front of the `VecDeque` is the head of the list -/
structure Output where
  commands : List Cmd

namespace Output
/-- `push_command`, `engine/engine_output.rs:29-32` -/
def push (o : Output) (c : Cmd) : Output := ⟨o.commands ++ [c]⟩
/-- `postpone_command`, `engine/engine_output.rs:37-40` -/
def postpone (o : Output) (c : Cmd) : Output := ⟨c :: o.commands⟩
/-- `pop_command`, `engine/engine_output.rs:43-45` -/
def pop (o : Output) : Option (Cmd × Output) :=
  match o.commands with
  | [] => none
  | c :: cs => some (c, ⟨cs⟩)
end Output

/-- A node with a real queue. `node.eng.out` is not used as a queue here, only as the record of what the
engine emitted; `ran` records the commands executed. -/
structure QNode where
  node : Node
  queue : Output
  ran : List Cmd

namespace QNode

/-- `run_command`, `core/raft_core.rs:1613-1805`: the command itself if it has to wait -/
def runCommand (dbg : Bool) (n : Node) (c : Cmd) : Out (Option Cmd × Node) :=
  if n.ready c then do
    let n1 ← n.exec dbg c
    return (none, { n1 with done := n1.done + 1 })
  else return (some c, n)

/-- `run_engine_commands`, `core/raft_core.rs:868-900`. The number of queued commands bounds the number
of rounds: no command emits a command. -/
def runCommands (dbg : Bool) : Nat → QNode → Out QNode
  | 0, q => return q
  | k + 1, q =>
    match q.queue.pop with
    | none => return q
    | some (c, rest) => do
      match ← runCommand dbg q.node c with
      | (some c', n) => return ⟨n, rest.postpone c', q.ran⟩
      | (none, n) => runCommands dbg k ⟨n, rest, q.ran ++ [c]⟩

/-- the engine handled something and emitted `cs` (`push_command` for each) -/
def emit (q : QNode) (e : Eng) (cs : List Cmd) : QNode :=
  ⟨{ q.node with eng := e }, cs.foldl Output.push q.queue, q.ran⟩

end QNode

/-! ## Helper lemmas -/

theorem out_bind {α β : Type} {x : Out α} {f : α → Out β} {b : β} :
    (x >>= f) = .ok b ↔ ∃ a, x = .ok a ∧ f a = .ok b := by
  cases x with
  | ok a => exact ⟨fun h => ⟨a, rfl, h⟩, fun ⟨_, h1, h2⟩ => by cases h1; exact h2⟩
  | error e => exact ⟨fun h => (by cases h), fun ⟨_, h1, _⟩ => (by cases h1)⟩

theorem out_pure {α : Type} {a b : α} : (pure a : Out α) = .ok b ↔ a = b :=
  ⟨fun h => by cases h; rfl, fun h => by rw [h]; rfl⟩

theorem lift_ok {α : Type} {x : Res α} {a : α} : lift x = .ok a ↔ x = .ok a := by
  cases x with
  | ok b => exact ⟨fun h => by cases h; rfl, fun h => by cases h; rfl⟩
  | error e => exact ⟨fun h => (by cases h), fun h => (by cases h)⟩

/-- `exec` keeps the counter and everything of the engine but the progress of writes and the purged
position of the log store -/
structure ExecFrame (n n' : Node) : Prop where
  done : n'.done = n.done
  eng : ∃ p x, n'.eng = { n.eng with st := { n.eng.st with io := { n.eng.st.io with prog := p, purged := x } } } ∧
    p.accepted = n.eng.st.io.prog.accepted ∧ p.flushed = n.eng.st.io.prog.flushed

theorem submit_ok {dbg : Bool} {n n' : Node} {io : IOId} (h : n.submit dbg io = .ok n') :
    n' = { n with eng := n.eng.withProg { n.eng.st.io.prog with submitted := some io } } := by
  unfold Node.submit at h
  simp only [out_bind, lift_ok, out_pure] at h
  obtain ⟨p, hp, h⟩ := h
  unfold IOProgress.submit at hp
  simp only [Engine.bind_ok, Engine.pure_ok] at hp
  obtain ⟨_, _, hp⟩ := hp
  rw [← h, ← hp]

theorem exec_frame {dbg : Bool} {n n' : Node} {c : Cmd} (h : n.exec dbg c = .ok n') : ExecFrame n n' := by
  have hid : ∀ m : Node, m.done = n.done → m.eng = n.eng → ExecFrame n m := fun m h1 h2 =>
    ⟨h1, n.eng.st.io.prog, n.eng.st.io.purged, by rw [h2], rfl, rfl⟩
  cases c with
  | updateIO w io =>
    simp only [Node.exec, out_bind, out_pure] at h
    obtain ⟨n1, h1, h⟩ := h
    rw [submit_ok h1] at h
    subst h
    exact ⟨rfl, _, _, rfl, rfl, rfl⟩
  | append v es =>
    simp only [Node.exec, out_bind, out_pure] at h
    obtain ⟨l, _, n1, h1, h⟩ := h
    rw [submit_ok h1] at h
    subst h
    exact ⟨rfl, _, _, rfl, rfl, rfl⟩
  | saveVote v =>
    simp only [Node.exec, out_bind, out_pure] at h
    obtain ⟨n1, h1, h⟩ := h
    rw [submit_ok h1] at h
    subst h
    exact ⟨rfl, _, _, rfl, rfl, rfl⟩
  | purge u => simp only [Node.exec, out_pure] at h; subst h; exact ⟨rfl, _, _, rfl, rfl, rfl⟩
  | truncate s => simp only [Node.exec, out_pure] at h; subst h; exact hid _ rfl rfl
  | saveCommitted s => simp only [Node.exec, out_pure] at h; subst h; exact hid _ rfl rfl
  | sendVote v l =>
    simp only [Node.exec, out_bind, out_pure] at h
    obtain ⟨_, _, h⟩ := h; subst h; exact hid _ rfl rfl
  | transfer v t l =>
    simp only [Node.exec, out_bind, out_pure] at h
    obtain ⟨_, _, h⟩ := h; subst h; exact hid _ rfl rfl
  | replCommitted s => simp only [Node.exec, out_pure] at h; subst h; exact hid _ rfl rfl
  | heartbeat a b c => simp only [Node.exec, out_pure] at h; subst h; exact hid _ rfl rfl
  | apply a u =>
    simp only [Node.exec, out_bind, out_pure] at h
    obtain ⟨_, _, _, _, h⟩ := h; subst h; exact hid _ rfl rfl
  | replicate t r =>
    simp only [Node.exec] at h
    split at h
    · rw [out_pure] at h; subst h; exact hid _ rfl rfl
    · cases h
  | rebuild ts =>
    simp only [Node.exec, Node.rebuild, out_bind] at h
    obtain ⟨_, _, h⟩ := h
    split at h
    · rw [out_pure] at h; subst h; exact hid _ rfl rfl
    · cases h
  | sm c =>
    cases c with
    | install m io =>
      simp only [Node.exec, out_bind, out_pure] at h
      obtain ⟨n1, h1, h⟩ := h
      rw [submit_ok h1] at h
      subst h
      exact ⟨rfl, _, _, rfl, rfl, rfl⟩
    | build => simp only [Node.exec, out_pure] at h; subst h; exact hid _ rfl rfl
    | apply a b => simp only [Node.exec, out_pure] at h; subst h; exact hid _ rfl rfl
  | respond w tx r => simp only [Node.exec, out_pure] at h; subst h; exact hid _ rfl rfl

theorem exec_out {dbg : Bool} {n n' : Node} {c : Cmd} (h : n.exec dbg c = .ok n') : n'.eng.out = n.eng.out := by
  obtain ⟨p, x, h1, _⟩ := (exec_frame h).eng
  rw [h1]

theorem foldl_push (o : Output) (cs : List Cmd) : (cs.foldl Output.push o).commands = o.commands ++ cs := by
  induction cs generalizing o with
  | nil => simp
  | cons c cs ih => rw [List.foldl_cons, ih]; simp [Output.push]

/-- the loop: what was queued is executed in order up to the point where the loop stops -/
theorem runCommands_spec {dbg : Bool} {k : Nat} {q q' : QNode} (h : QNode.runCommands dbg k q = .ok q')
    (hk : q.queue.commands.length ≤ k) :
    q'.ran ++ q'.queue.commands = q.ran ++ q.queue.commands ∧ (∃ r, q'.ran = q.ran ++ r) ∧
    q'.node.done = q.node.done + (q'.ran.length - q.ran.length) ∧ q'.node.eng.out = q.node.eng.out ∧
    ∀ c, q'.queue.commands.head? = some c → q'.node.ready c = false := by
  induction k generalizing q with
  | zero =>
    rw [QNode.runCommands, out_pure] at h
    subst h
    have : q.queue.commands = [] := List.length_eq_zero_iff.1 (by omega)
    refine ⟨rfl, ⟨[], by simp⟩, by simp, rfl, ?_⟩
    rw [this]; intro c hc; cases hc
  | succ k ih =>
    rw [QNode.runCommands] at h
    unfold Output.pop at h
    cases hq : q.queue.commands with
    | nil =>
      rw [hq] at h
      simp only [out_pure] at h
      subst h
      refine ⟨by rw [hq], ⟨[], by simp⟩, by simp, rfl, ?_⟩
      rw [hq]; intro c hc; cases hc
    | cons c cs =>
      rw [hq] at h
      simp only [out_bind, QNode.runCommand] at h
      obtain ⟨⟨r, n⟩, h1, h⟩ := h
      split at h1
      · simp only [out_bind, out_pure] at h1
        obtain ⟨n1, hx, h1⟩ := h1
        cases h1
        simp only at h
        obtain ⟨a1, ⟨r, a2⟩, a3, a4, a5⟩ := ih h (by rw [hq] at hk; simpa using hk)
        simp only at a1 a2 a3 a4
        refine ⟨by rw [a1]; simp, ⟨c :: r, by rw [a2]; simp⟩, ?_, ?_, a5⟩
        · rw [a3, (exec_frame hx).done, a2]; simp; omega
        · rw [a4]; exact exec_out hx
      · next hr =>
        rw [out_pure] at h1
        cases h1
        rw [out_pure] at h
        subst h
        refine ⟨by simp [Output.postpone], ⟨[], by simp⟩, by simp, rfl, ?_⟩
        intro d hd
        simp only [Output.postpone, List.head?_cons, Option.some.injEq] at hd
        subst hd
        simpa using hr

/-- rounds of the loop, as steps of the model with a counter -/
def Node.runs (dbg : Bool) : Nat → Node → Out Node
  | 0, n => return n
  | k + 1, n => do
    let n1 ← n.run1 dbg
    Node.runs dbg k n1

theorem runCommands_eq {dbg : Bool} {k : Nat} {q q' : QNode} (h : QNode.runCommands dbg k q = .ok q')
    (hc : q.queue.commands = q.node.eng.out.drop q.node.done) :
    q'.queue.commands = q'.node.eng.out.drop q'.node.done ∧ Node.runs dbg (q'.ran.length - q.ran.length) q.node = .ok q'.node ∧
    q.ran.length ≤ q'.ran.length := by
  induction k generalizing q with
  | zero =>
    rw [QNode.runCommands, out_pure] at h
    subst h
    exact ⟨hc, by rw [Nat.sub_self]; rfl, le_refl _⟩
  | succ k ih =>
    rw [QNode.runCommands] at h
    unfold Output.pop at h
    cases hq : q.queue.commands with
    | nil =>
      rw [hq] at h
      simp only [out_pure] at h
      subst h
      exact ⟨hc, by rw [Nat.sub_self]; rfl, le_refl _⟩
    | cons c cs =>
      rw [hq] at h
      simp only [out_bind, QNode.runCommand] at h
      obtain ⟨⟨r, n⟩, h1, h⟩ := h
      rw [hq] at hc
      have hhead : q.node.head = some c := by
        unfold Node.head
        have : (q.node.eng.out.drop q.node.done)[0]? = some c := by rw [← hc]; rfl
        simpa using this
      split at h1
      · next hr =>
        simp only [out_bind, out_pure] at h1
        obtain ⟨n1, hx, h1⟩ := h1
        cases h1
        simp only at h
        have hrest : cs = n1.eng.out.drop (n1.done + 1) := by
          rw [exec_out hx, (exec_frame hx).done, ← List.tail_drop, ← hc]; rfl
        obtain ⟨a1, a2, a3⟩ := ih h hrest
        simp only [List.length_append, List.length_cons, List.length_nil] at a2 a3
        refine ⟨a1, ?_, by omega⟩
        rw [show q'.ran.length - q.ran.length = (q'.ran.length - (q.ran.length + (0 + 1))) + 1 by omega, Node.runs, out_bind]
        refine ⟨_, ?_, a2⟩
        unfold Node.run1
        rw [hhead]
        simp only [hr, if_true, out_bind, out_pure]
        exact ⟨_, hx, rfl⟩
      · rw [out_pure] at h1
        cases h1
        rw [out_pure] at h
        subst h
        exact ⟨by simp only [Output.postpone]; exact hc, by rw [Nat.sub_self]; rfl, le_refl _⟩

end Openraft.Runtime
