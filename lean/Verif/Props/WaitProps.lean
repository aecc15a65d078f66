import Verif.Runtime.WaitLives
import Verif.Props.RestartProps

/-!
# C48: a command that waits is not kept waiting forever
-/

set_option autoImplicit false

namespace Openraft.Props
open Openraft.Engine Openraft.Runtime Openraft.Runtime.Demo
open Openraft.Engine.Demo (lid m3 v2 i1 i2)

/-- the command at the head of the queue is held back by its condition -/
def heldBack (n : Runtime.Node) : Prop := ∃ c, n.eng.out[n.done]? = some c ∧ n.ready c = false

/-- a write is on its way to the disk, the state machine has work, or a report of one of them waits for the engine -/
def inMotion (n : Runtime.Node) : Prop := n.pend ≠ [] ∨ n.smq ≠ [] ∨ n.rx ≠ []

theorem inMotion_of {n : Runtime.Node} (h : ¬ Halted n) (hw : heldBack n) : inMotion n := by
  obtain ⟨c, h1, h2⟩ := hw
  by_contra hm
  unfold inMotion at hm
  push_neg at hm
  exact h ⟨⟨c, h1, h2⟩, hm.1, hm.2.2, hm.2.1⟩

/-- **C48, debug builds.** In every life of a node, over any number of crashes: when the command at the head of the queue is held
back, something that is under way will be reported. -/
theorem C48_debug {cfg : Cfg} {old : List Resp} {n : Runtime.Node} (h : Life true cfg old n) (hw : heldBack n) : inMotion n :=
  inMotion_of h.steady.waits.not_halted hw

/-- **C48, release builds, partial.** The same in every build as long as no step lets the recorded IO or the recorded snapshot go
back. Missing: the claim without this premise is false, `C48_false`. -/
theorem C48_waits_partial {dbg : Bool} {cfg : Cfg} {n : Runtime.Node} (h : SLife dbg cfg n) (hw : heldBack n) : inMotion n :=
  inMotion_of h.waits.not_halted hw

/-- **C48, nodes that install no snapshot.** The same in every build, for a node that was not told to install a snapshot since it
was started. -/
theorem C48_calm_partial {dbg : Bool} {cfg : Cfg} {old : List Resp} {n : Runtime.Node} (h : Life dbg cfg old n)
    (hc : ∀ m io, Cmd.sm (.install m io) ∉ n.eng.out) (hw : heldBack n) : inMotion n :=
  inMotion_of (h.calm hc).waits.not_halted hw

/-- **C48, every command is executed, debug builds.** In an infinite run that starts from any reachable state and in which the node
does something whenever there is something to do, however many messages arrive in between: each command that the engine
emits is executed. -/
theorem C48_executed_debug {cfg : Cfg} {old : List Resp} {σ : Nat → Runtime.Node} {ev : Nat → Ev} (h0 : Life true cfg old (σ 0))
    (hf : Fair true σ ev) (i k : Nat) (hk : k < (σ i).eng.out.length) : ∃ j, i ≤ j ∧ k < (σ j).done := by
  have hl : ∀ i, Life true cfg old (σ i) := by
    intro i
    induction i with
    | zero => exact h0
    | succ i ih => exact .step (ev i) ih (hf.ok i) (hf.step i)
  exact hf.all (fun i => (hl i).steady.waits.not_halted) i k hk

/-- **C48, every command is executed, release builds, partial.** Missing: see `C48_waits_partial`. -/
theorem C48_executed_partial {dbg : Bool} {cfg : Cfg} {σ : Nat → Runtime.Node} {ev : Nat → Ev} (h0 : SLife dbg cfg (σ 0))
    (hf : Fair dbg σ ev) (hs : ∀ i, Steady (σ i) (σ (i + 1))) (i k : Nat) (hk : k < (σ i).eng.out.length) : ∃ j, i ≤ j ∧ k < (σ j).done := by
  have hl : ∀ i, SLife dbg cfg (σ i) := by
    intro i
    induction i with
    | zero => exact h0
    | succ i ih => exact .step (ev i) ih (hf.ok i) (hf.step i) (hs i)
  exact hf.all (fun i => (hl i).waits.not_halted) i k hk

/-- **C48, every command is executed, nodes that install no snapshot.** -/
theorem C48_executed_calm_partial {dbg : Bool} {cfg : Cfg} {old : List Resp} {σ : Nat → Runtime.Node} {ev : Nat → Ev}
    (h0 : Life dbg cfg old (σ 0)) (hf : Fair dbg σ ev) (hc : ∀ i m io, Cmd.sm (.install m io) ∉ (σ i).eng.out)
    (i k : Nat) (hk : k < (σ i).eng.out.length) : ∃ j, i ≤ j ∧ k < (σ j).done := by
  have hl : ∀ i, Life dbg cfg old (σ i) := by
    intro i
    induction i with
    | zero => exact h0
    | succ i ih => exact .step (ev i) ih (hf.ok i) (hf.step i)
  exact hf.all (fun i => ((hl i).calm (hc i)).waits.not_halted) i k hk

/-! ## Concrete cases -/

/-- rounds of: a write is done, commands run, the state machine works, a report is taken, commands run -/
def rounds (k : Nat) : List (List LogId × Ev) :=
  (List.replicate k ([([], Ev.flush)] ++ runs 4 ++ [([], Ev.sm), ([], Ev.note 6)] ++ runs 4)).flatten

/-- the log of the leader -/
def waitLog : List LogId := [lid 1 2 0, lid 1 2 1, lid 1 2 2, lid 1 2 3]

/-- a follower gets four entries and stores them -/
def fourEvs : List (List LogId × Ev) :=
  [([lid 1 2 0, lid 1 2 1], .msg 1 i1)] ++ rounds 3 ++ [(waitLog, .msg 2 i2)] ++ rounds 4

/-- the leader's snapshot of the first three -/
def waitSnap : SnapMeta := ⟨some (lid 1 2 2), ⟨some (lid 1 2 0), m3⟩, 5⟩

/-- then it gets the leader's snapshot, and a heartbeat -/
def stuckEvs : List (List LogId × Ev) :=
  fourEvs ++ [(waitLog, .msg 5 (.snapReq 9 v2 waitSnap))] ++ rounds 5 ++
    [(waitLog, .msg 7 (.appendReq 10 v2 (some (lid 1 2 3)) [] (some (lid 1 2 2))))] ++ rounds 5

/-- the node at the end -/
def stuckNode : Runtime.Node := runTo false (Node.fresh Demo.cfg 0 true) stuckEvs

theorem stuck_life : Life false Demo.cfg [] stuckNode := (Life.fresh 0 true).run (run_of_allOk .refl (by decide +kernel))

/-- decide `Frozen` for a node without reports -/
def frozenB (n : Runtime.Node) : Bool :=
  (match n.head with
    | some c => match c.condition with
      | some (.ioFlushed io) => decide (n.flushed < some io)
      | _ => false
    | none => false) && decide (n.pend = []) && decide (n.smq = []) && n.rx.isEmpty

theorem frozenB_ok {n : Runtime.Node} (h : frozenB n = true) : Frozen n := by
  unfold frozenB at h
  simp only [Bool.and_eq_true, decide_eq_true_eq, List.isEmpty_iff] at h
  obtain ⟨⟨⟨h1, h2⟩, h3⟩, h4⟩ := h
  refine ⟨?_, h2, h3, by rw [h4]; exact fun x hx => by cases hx⟩
  cases hc : n.head with
  | none => rw [hc] at h1; cases h1
  | some c =>
    rw [hc] at h1
    cases hk : c.condition with
    | none => simp only [hk] at h1; cases h1
    | some k =>
      simp only [hk] at h1
      cases k with
      | ioFlushed io => exact ⟨c, io, rfl, hk, of_decide_eq_true h1⟩
      | _ => cases h1

theorem stuck_frozen : Frozen stuckNode := frozenB_ok (by decide +kernel)

/-- **C48 is false for release builds.** A follower that has stored four entries of a leader installs the leader's snapshot of the
first three; the recorded IO goes back. The answer to the next message of the leader waits for an IO that was reported before,
and nothing is under way. -/
theorem C48_false : ∃ (cfg : Cfg) (n : Runtime.Node), Life false cfg [] n ∧ heldBack n ∧ ¬ inMotion n :=
  ⟨_, stuckNode, stuck_life, stuck_frozen.not_ready, by
    unfold inMotion
    rw [stuck_frozen.pend, stuck_frozen.smq, show stuckNode.rx = [] from by decide +kernel]
    simp⟩

/-- **C48 is false for release builds**, the consequence: whatever happens to that node, short of a restart, it executes no command
and sends no answer any more, to nobody. -/
theorem C48_false_forever : ∃ (cfg : Cfg) (n : Runtime.Node), Life false cfg [] n ∧ n.done < n.eng.out.length ∧
    ∀ n', Runtime.Node.Run false n n' → n'.done = n.done ∧ n'.sent = n.sent :=
  ⟨_, stuckNode, stuck_life, by decide +kernel, fun _ hr => (stuck_frozen.run hr).2⟩

-- a debug build stops instead: the same events do not run through
example : allOk true (Node.fresh Demo.cfg 0 true) stuckEvs = false := by decide +kernel
-- a vote request with a greater vote is not answered by the stuck node
example : (runTo false stuckNode ([([], .msg 5000 (.voteReq 11 ⟨⟨7, 3⟩, false⟩ (some (lid 1 2 9))))] ++ rounds 6)).sent = stuckNode.sent ∧
    stuckNode.eng.out.length < (runTo false stuckNode ([([], .msg 5000 (.voteReq 11 ⟨⟨7, 3⟩, false⟩ (some (lid 1 2 9))))] ++ rounds 6)).eng.out.length := by
  decide +kernel

/-- the positions do not go back, each step -/
def steadyB (dbg : Bool) (n : Runtime.Node) : List (List LogId × Ev) → Bool
  | [] => true
  | (_, ev) :: evs => decide (n.flushed ≤ (after dbg n ev).flushed) && decide (n.eng.st.io.snapshot ≤ (after dbg n ev).eng.st.io.snapshot) &&
      steadyB dbg (after dbg n ev) evs

theorem slife_of {dbg : Bool} {cfg : Cfg} {n : Runtime.Node} {evs : List (List LogId × Ev)} (h : SLife dbg cfg n) (ho : allOk dbg n evs = true)
    (hs : steadyB dbg n evs = true) : SLife dbg cfg (runTo dbg n evs) := by
  induction evs generalizing n with
  | nil => exact h
  | cons x evs ih =>
    obtain ⟨lead, ev⟩ := x
    simp only [allOk, Bool.and_eq_true, decide_eq_true_eq] at ho
    simp only [steadyB, Bool.and_eq_true, decide_eq_true_eq] at hs
    exact ih (.step ev h (evB_ok ho.1.1) (after_ok ho.1.2) hs.1) ho.2 hs.2

/-- the leader's snapshot of more than the follower has -/
def aheadSnap : SnapMeta := ⟨some (lid 1 2 5), ⟨some (lid 1 2 0), m3⟩, 6⟩

/-- a follower gets the leader's snapshot and a heartbeat before it is installed -/
def heldEvs : List (List LogId × Ev) :=
  fourEvs ++ [(waitLog ++ [lid 1 2 4, lid 1 2 5], .msg 5 (.snapReq 9 v2 aheadSnap))] ++ runs 4

def heldNode (dbg : Bool) : Runtime.Node := runTo dbg (Node.fresh Demo.cfg 0 true) heldEvs

instance (n : Runtime.Node) : Decidable (heldBack n) :=
  match h : n.eng.out[n.done]? with
  | none => .isFalse (by rintro ⟨c, h1, _⟩; rw [h] at h1; cases h1)
  | some c => decidable_of_iff (n.ready c = false) ⟨fun hr => ⟨c, h, hr⟩, by rintro ⟨c', h1, h2⟩; rw [h] at h1; cases h1; exact h2⟩

-- the answer to the snapshot is held back until it is installed: release and debug
example : heldBack (heldNode false) ∧ (heldNode false).smq ≠ [] := by decide +kernel
example : inMotion (heldNode false) :=
  C48_waits_partial (slife_of (.fresh 0 true) (by decide +kernel) (by decide +kernel)) (by decide +kernel)
example : inMotion (heldNode true) := C48_debug ((Life.fresh 0 true).run (run_of_allOk .refl (by decide +kernel))) (by decide +kernel)
-- the answer to the entries is held back until they are stored; no snapshot is installed
example : inMotion (runTo false (Node.fresh Demo.cfg 0 true) (fourEvs.take 6)) :=
  C48_calm_partial ((Life.fresh (dbg := false) (cfg := Demo.cfg) 0 true).run (run_of_allOk .refl (by decide +kernel)))
    (by
      have h : ∀ c ∈ (runTo false (Node.fresh Demo.cfg 0 true) (fourEvs.take 6)).eng.out, (match c with | .sm _ => false | _ => true) = true := by
        decide +kernel
      intro m io hm; simpa using h _ hm) (by decide +kernel)

/-! An infinite run: some events, then nothing happens any more. -/

theorem runTo_append (dbg : Bool) (n : Runtime.Node) (a b : List (List LogId × Ev)) : runTo dbg n (a ++ b) = runTo dbg (runTo dbg n a) b := by
  induction a generalizing n with
  | nil => rfl
  | cons x a ih => exact ih _

theorem allOk_append (dbg : Bool) (n : Runtime.Node) (a b : List (List LogId × Ev)) :
    allOk dbg n (a ++ b) = (allOk dbg n a && allOk dbg (runTo dbg n a) b) := by
  induction a generalizing n with
  | nil => rfl
  | cons x a ih =>
    obtain ⟨lead, ev⟩ := x
    simp only [List.cons_append, allOk, ih, runTo, Bool.and_assoc]

/-- the events, then rounds of the empty command loop -/
def evOf (evs : List (List LogId × Ev)) (i : Nat) : Ev := (evs[i]?.map (·.2)).getD .run

theorem fair_of {dbg : Bool} {n : Runtime.Node} {evs : List (List LogId × Ev)} {last : List LogId × Ev} (ho : allOk dbg n (evs ++ [last]) = true)
    (ha : (runTo dbg n evs).acts last.2) (hb : ¬ Busy (runTo dbg n (evs ++ [last]))) (hi : (runTo dbg n (evs ++ [last])).head = none) :
    Fair dbg (fun i => runTo dbg n ((evs ++ [last]).take i)) (evOf (evs ++ [last])) := by
  generalize hE : evs ++ [last] = E at ho hb hi
  have hlen : E.length = evs.length + 1 := by rw [← hE]; simp
  have hall : ∀ i, i < E.length → ∃ x, E[i]? = some x ∧ evOf E i = x.2 ∧ EvOk (runTo dbg n (E.take i)) x.2 ∧
      (runTo dbg n (E.take i)).step dbg x.2 = .ok (runTo dbg n (E.take (i + 1))) := by
    intro i hlt
    refine ⟨E[i], List.getElem?_eq_getElem hlt, by simp [evOf, List.getElem?_eq_getElem hlt], ?_⟩
    have hsplit : E = E.take i ++ E[i] :: E.drop (i + 1) := by
      rw [List.getElem_cons_drop, List.take_append_drop]
    have h2 := ho
    rw [hsplit, allOk_append] at h2
    simp only [Bool.and_eq_true] at h2
    have h3 := h2.2
    rcases hx : E[i] with ⟨lead, ev⟩
    rw [hx] at h3
    simp only [allOk, Bool.and_eq_true, decide_eq_true_eq] at h3
    refine ⟨evB_ok h3.1.1, ?_⟩
    rw [List.take_succ_eq_append_getElem hlt, hx, runTo_append]
    exact after_ok h3.1.2
  have hend : ∀ i, E.length ≤ i → E.take i = E ∧ evOf E i = .run := by
    intro i hi
    refine ⟨List.take_of_length_le hi, ?_⟩
    unfold evOf
    rw [List.getElem?_eq_none hi]; rfl
  refine ⟨?_, ?_, ?_⟩
  · intro i
    rcases Nat.lt_or_ge i E.length with h | h
    · obtain ⟨x, _, h2, h3, _⟩ := hall i h
      rw [h2]; exact h3
    · rw [(hend i h).2]; trivial
  · intro i
    rcases Nat.lt_or_ge i E.length with h | h
    · obtain ⟨x, _, h2, _, h3⟩ := hall i h
      rw [h2]; exact h3
    · rw [(hend i h).2]
      simp only [(hend i h).1, (hend (i + 1) (by omega)).1]
      unfold Node.step Node.run1
      rw [hi]; rfl
  · intro i hbusy
    rcases Nat.lt_or_ge i E.length with h | h
    · refine ⟨evs.length, by omega, ?_⟩
      have h1 : E.take evs.length = evs := by rw [← hE, List.take_append_of_le_length (Nat.le_refl _), List.take_length]
      have h2 : evOf E evs.length = last.2 := by unfold evOf; rw [← hE]; simp
      simp only [h1, h2]; exact ha
    · simp only [(hend i h).1] at hbusy
      exact absurd hbusy hb

/-- a follower gets entries, stores them, gets a snapshot and installs it -/
def wholeEvs : List (List LogId × Ev) := (heldEvs ++ rounds 2).take 95

theorem whole_fair (dbg : Bool) (h : allOk dbg (Node.fresh Demo.cfg 0 true) (wholeEvs ++ [([], Ev.flush)]) = true)
    (h1 : (runTo dbg (Node.fresh Demo.cfg 0 true) wholeEvs).pend ≠ [])
    (h2 : (runTo dbg (Node.fresh Demo.cfg 0 true) (wholeEvs ++ [([], Ev.flush)])).head = none ∧
      (runTo dbg (Node.fresh Demo.cfg 0 true) (wholeEvs ++ [([], Ev.flush)])).pend = [] ∧
      (runTo dbg (Node.fresh Demo.cfg 0 true) (wholeEvs ++ [([], Ev.flush)])).smq = [] ∧
      (runTo dbg (Node.fresh Demo.cfg 0 true) (wholeEvs ++ [([], Ev.flush)])).rx = []) :
    Fair dbg (fun i => runTo dbg (Node.fresh Demo.cfg 0 true) ((wholeEvs ++ [([], Ev.flush)]).take i)) (evOf (wholeEvs ++ [([], Ev.flush)])) := by
  refine fair_of h h1 ?_ h2.1
  rintro (⟨c, hc, _⟩ | hb | hb | hb)
  · rw [h2.1] at hc; cases hc
  · exact hb h2.2.1
  · exact hb h2.2.2.1
  · exact hb h2.2.2.2

-- the seventh command, the installation, that the engine has emitted after 80 events, is executed
example : ∃ j, 80 ≤ j ∧ 7 < (runTo true (Node.fresh Demo.cfg 0 true) ((wholeEvs ++ [([], Ev.flush)]).take j)).done :=
  C48_executed_debug (cfg := Demo.cfg) (Life.fresh 0 true) (whole_fair true (by decide +kernel) (by decide +kernel) (by decide +kernel)) 80 7
    (by decide +kernel)

-- in a release build: the positions do not go back
example : ∃ j, 80 ≤ j ∧ 7 < (runTo false (Node.fresh Demo.cfg 0 true) ((wholeEvs ++ [([], Ev.flush)]).take j)).done := by
  refine C48_executed_partial (dbg := false) (cfg := Demo.cfg) (SLife.fresh 0 true)
    (whole_fair false (by decide +kernel) (by decide +kernel) (by decide +kernel)) ?_ 80 7 (by decide +kernel)
  intro i
  rcases Nat.lt_or_ge i 96 with h | h
  · have : ∀ i < 96, (runTo false (Node.fresh Demo.cfg 0 true) ((wholeEvs ++ [([], Ev.flush)]).take i)).recorded.1 ≤
        (runTo false (Node.fresh Demo.cfg 0 true) ((wholeEvs ++ [([], Ev.flush)]).take (i + 1))).recorded.1 ∧
        (runTo false (Node.fresh Demo.cfg 0 true) ((wholeEvs ++ [([], Ev.flush)]).take i)).recorded.2 ≤
        (runTo false (Node.fresh Demo.cfg 0 true) ((wholeEvs ++ [([], Ev.flush)]).take (i + 1))).recorded.2 := by decide +kernel
    exact this i h
  · have hl : (wholeEvs ++ [(([], Ev.flush) : List LogId × Ev)]).length ≤ i := by
      have : (wholeEvs ++ [(([], Ev.flush) : List LogId × Ev)]).length = 96 := by decide +kernel
      omega
    show Steady (runTo _ _ (List.take _ _)) (runTo _ _ (List.take _ _))
    rw [List.take_of_length_le hl, List.take_of_length_le (Nat.le_succ_of_le hl)]
    exact Steady.refl _

/-- decide whether the first command can be executed -/
def headReady (n : Runtime.Node) : Bool := match n.head with | some c => n.ready c | none => false

theorem headReady_ok {n : Runtime.Node} (h : headReady n = true) : ∃ c, n.head = some c ∧ n.ready c = true := by
  unfold headReady at h
  split at h
  · next c hc => exact ⟨c, hc, h⟩
  · cases h

/-- a follower gets two entries and stores them -/
def pairEvs : List (List LogId × Ev) := fourEvs.take 30

-- no snapshot is installed: the answer to the leader, the second command, is sent
example : ∃ j, 1 ≤ j ∧ 2 < (runTo false (Node.fresh Demo.cfg 0 true) ((pairEvs ++ [([], Ev.run)]).take j)).done := by
  refine C48_executed_calm_partial (dbg := false) (cfg := Demo.cfg) (old := []) (Life.fresh 0 true)
    (fair_of (n := Node.fresh Demo.cfg 0 true) (evs := pairEvs) (last := ([], Ev.run)) (by decide +kernel) (headReady_ok (n := runTo false (Node.fresh Demo.cfg 0 true) pairEvs) (by decide +kernel)) ?_ (by decide +kernel)) ?_ 1 2 (by decide +kernel)
  · rintro (⟨c, hc, _⟩ | hb | hb | hb)
    · rw [show (runTo false (Node.fresh Demo.cfg 0 true) (pairEvs ++ [([], Ev.run)])).head = none from by decide +kernel] at hc; cases hc
    all_goals exact hb (by decide +kernel)
  · intro i m io hm
    have hall : ∀ i ≤ 31, ∀ c ∈ (runTo false (Node.fresh Demo.cfg 0 true) ((pairEvs ++ [([], Ev.run)]).take i)).eng.out,
        (match c with | .sm _ => false | _ => true) = true := by decide +kernel
    rcases Nat.le_total i 31 with h | h
    · simpa using hall i h _ hm
    · have hl : (pairEvs ++ [(([], Ev.run) : List LogId × Ev)]).length = 31 := by decide +kernel
      have hm : Cmd.sm (.install m io) ∈ (runTo false (Node.fresh Demo.cfg 0 true) ((pairEvs ++ [([], Ev.run)]).take i)).eng.out := hm
      rw [List.take_of_length_le (by omega)] at hm
      have := hall 31 (Nat.le_refl _) _ (by rw [List.take_of_length_le (by omega)]; exact hm)
      simp at this

end Openraft.Props
