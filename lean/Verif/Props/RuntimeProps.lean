import Verif.Runtime.Demo

/-!
# C34, C36, C42: the execution of commands
-/

set_option autoImplicit false

namespace Openraft.Props
open Openraft.Engine Openraft.Runtime Openraft.Runtime.Demo
open Openraft.Engine.Demo (cfg lid m3 v2)

/-! ## C36: order of execution -/

/-- A node with a queue that starts empty, together with all the commands its engine emitted so far:
the engine emits, or `run_engine_commands` runs until it returns. -/
inductive QRun (dbg : Bool) : List Cmd → QNode → Prop
  | start (n : Node) : QRun dbg [] ⟨n, ⟨[]⟩, []⟩
  | emit {em : List Cmd} {q : QNode} (e : Eng) (cs : List Cmd) : QRun dbg em q → QRun dbg (em ++ cs) (q.emit e cs)
  /-- anything but the queue changes: a disk completion, the state machine worker -/
  | other {em : List Cmd} {q : QNode} (n : Node) : QRun dbg em q → QRun dbg em { q with node := n }
  | loop {em : List Cmd} {q q' : QNode} : QRun dbg em q →
      QNode.runCommands dbg q.queue.commands.length q = .ok q' → QRun dbg em q'

/-- **C36**: the commands executed so far and then the commands still queued are exactly the commands
the engine emitted, in this order: nothing is lost, duplicated or overtaken, whatever was postponed
before. -/
theorem C36_in_order {dbg : Bool} {em : List Cmd} {q : QNode} (h : QRun dbg em q) : q.ran ++ q.queue.commands = em := by
  induction h with
  | start n => rfl
  | emit e cs _ ih => rw [QNode.emit]; simp only [foldl_push]; rw [← List.append_assoc, ih]
  | other n _ ih => exact ih
  | loop _ h1 ih => rw [(runCommands_spec h1 (le_refl _)).1, ih]

/-- **C36**: `run_engine_commands` returns with a command left only if that command's condition does
not hold; then none of the commands behind it was executed. -/
theorem C36_blocked {dbg : Bool} {em : List Cmd} {q q' : QNode} (h : QRun dbg em q)
    (hr : QNode.runCommands dbg q.queue.commands.length q = .ok q') :
    ∃ rest, em = q'.ran ++ rest ∧ q'.queue.commands = rest ∧ ∀ c, rest.head? = some c →
      ∃ k, c.condition = some k ∧ q'.node.holds k = false := by
  refine ⟨q'.queue.commands, (C36_in_order (.loop h hr)).symm, rfl, ?_⟩
  intro c hc
  have h1 := (runCommands_spec hr (le_refl _)).2.2.2.2 c hc
  unfold Node.ready at h1
  split at h1
  · cases h1
  · next k hk => exact ⟨k, hk, h1⟩

/-- the node of the rest of the model (`Node.run1`, a counter instead of a queue) does the same as the
queue -/
theorem C36_counter {dbg : Bool} {k : Nat} {q q' : QNode} (h : QNode.runCommands dbg k q = .ok q')
    (hc : q.queue.commands = q.node.eng.out.drop q.node.done) :
    q'.queue.commands = q'.node.eng.out.drop q'.node.done ∧
      Node.runs dbg (q'.ran.length - q.ran.length) q.node = .ok q'.node :=
  ⟨(runCommands_eq h hc).1, (runCommands_eq h hc).2.1⟩

/-- a follower that got two entries and their commit -/
def q1 : QNode :=
  QNode.emit ⟨Node.fresh cfg 0, ⟨[]⟩, []⟩
    (runTo true (Node.fresh cfg 0) [([], .msg 1 (.appendReq 7 v2 none [⟨lid 1 2 0, .membership m3⟩, ⟨lid 1 2 1, .blank⟩] (some (lid 1 2 1))))]).eng
    (runTo true (Node.fresh cfg 0) [([], .msg 1 (.appendReq 7 v2 none [⟨lid 1 2 0, .membership m3⟩, ⟨lid 1 2 1, .blank⟩] (some (lid 1 2 1))))]).eng.out

/-- the outcome of the loop -/
def q2 : Option (Nat × Nat × Option Cond) :=
  match QNode.runCommands true q1.queue.commands.length q1 with
  | .ok q => some (q.ran.length, q.queue.commands.length, q.queue.commands.head?.bind (·.condition))
  | .error _ => none

/-- Its queue has five commands; two are executed, then the answer waits for the disk and the two
commands behind it stay. -/
example : QRun true ([] ++ q1.queue.commands) q1 ∧ q2 = some (2, 3, some (.ioFlushed ⟨v2, some (lid 1 2 1)⟩)) :=
  ⟨.emit _ _ (.start _), by decide +kernel⟩

/-! ## C34: an apply command that waits too long -/

/-- the log of leader 2 -/
def lead2 : List LogId := [lid 1 2 0, lid 1 2 1, lid 1 2 2, lid 1 2 3, lid 1 2 4, lid 1 2 5]

/-- Leader 2 sends two entries with their commit. While their append is not yet on disk (so that the
answer, and the apply command behind it, wait), a snapshot of the leader arrives; then the append is on
disk. -/
def applyLate : List (List LogId × Ev) :=
  [(lead2, .msg 1 (.appendReq 7 v2 none [⟨lid 1 2 0, .membership m3⟩, ⟨lid 1 2 1, .blank⟩] (some (lid 1 2 1))))] ++ runs 3 ++
  [(lead2, .msg 2 (.snapReq 8 v2 ⟨some (lid 1 2 5), ⟨some (lid 1 2 0), m3⟩, 1⟩)), ([], .flush), ([], .note 3), ([], .note 3),
    ([], .note 4)] ++ runs 2

/-- state before the apply command is executed -/
def applyLateN (dbg : Bool) : Node := runTo dbg (Node.fresh cfg 0) applyLate

theorem applyLate_run (dbg : Bool) : Node.Run dbg (Node.fresh cfg 0) (applyLateN dbg) :=
  run_of_allOk .refl (by cases dbg <;> decide +kernel)

/-- **C34 is false**: there is an execution in which the node aborts when it executes an apply command,
in debug and in release builds: `get_log_id(already_committed.next_index()).unwrap()` finds nothing,
because a snapshot installed in the meantime purged the in-memory log ids. -/
theorem C34_apply_aborts (dbg : Bool) :
    ∃ n : Node, Node.Run dbg (Node.fresh cfg 0) n ∧ n.head = some (.apply none (lid 1 2 1)) ∧
      n.step dbg .run = .error (.panic .unreachable) :=
  ⟨applyLateN dbg, applyLate_run dbg, by cases dbg <;> decide +kernel, stops_some (by cases dbg <;> decide +kernel)⟩

/-! ## C42: a rebuild command that waits too long -/

/-- the logs of leaders 2 and 3 -/
def lead2' : List LogId := [lid 1 2 0, lid 1 2 1]
/-- see `lead2'` -/
def lead3 : List LogId := [lid 1 2 0, lid 1 2 1, lid 3 3 2]
/-- the vote of node 1 as a candidate -/
def vote1 : Vote := ⟨⟨2, 1⟩, false⟩
/-- the vote of leader 3 -/
def vote3 : Vote := ⟨⟨3, 3⟩, true⟩

/-- Node 1 follows leader 2, is elected, and handles three messages before the notification that its
vote is saved: a vote request that it refuses (the answer waits for that notification), a membership
change of a client, and an append request of leader 3. -/
def rebuildLate : List (List LogId × Ev) :=
  [(lead2', .msg 1 (.appendReq 7 v2 none [⟨lid 1 2 0, .membership m3⟩, ⟨lid 1 2 1, .blank⟩] (some (lid 1 2 1))))] ++ runs 3 ++
  [([], .flush), ([], .note 3), ([], .note 3), ([], .note 4)] ++ runs 4 ++
  [([], .sm), ([], .note 5), ([], .msg 6 .electCmd)] ++ runs 3 ++
  [([], .note 7), ([], .note 7), ([], .msg 8 (.voteResp 2 vote1 none true vote1))] ++ runs 6 ++
  [([], .msg 9 (.voteReq 9 ⟨⟨1, 3⟩, false⟩ none)), ([], .run), ([], .change 10 77 (.addVoterIds [2, 3]) true), ([], .run),
    (lead3, .msg 11 (.appendReq 10 vote3 (some (lid 1 2 1)) [⟨lid 3 3 2, .blank⟩] none)), ([], .run), ([], .note 12)] ++ runs 2

/-- state before the rebuild command is executed -/
def rebuildLateN (dbg : Bool) : Node := runTo dbg (Node.fresh cfg 0) rebuildLate

theorem rebuildLate_run (dbg : Bool) : Node.Run dbg (Node.fresh cfg 0) (rebuildLateN dbg) :=
  run_of_allOk .refl (by cases dbg <;> decide +kernel)

/-- **C42 is false**: there is an execution in which the node aborts when it executes
`RebuildReplicationStreams`, because it is no longer a leader (`engine.leader.as_ref().unwrap()`). -/
theorem C42_rebuild_aborts (dbg : Bool) :
    ∃ n : Node, Node.Run dbg (Node.fresh cfg 0) n ∧ (∃ ts, n.head = some (.rebuild ts)) ∧
      n.step dbg .run = .error (.panic .unreachable) := by
  refine ⟨rebuildLateN dbg, rebuildLate_run dbg, ?_, stops_some (by cases dbg <;> decide +kernel)⟩
  have h : ((rebuildLateN dbg).head.any fun c => match c with | .rebuild _ => true | _ => false) = true := by
    cases dbg <;> decide +kernel
  cases hc : (rebuildLateN dbg).head with
  | none => rw [hc] at h; cases h
  | some c =>
    rw [hc] at h
    cases c with
    | rebuild ts => exact ⟨ts, rfl⟩
    | _ => cases h

end Openraft.Props
