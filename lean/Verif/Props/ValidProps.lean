import Verif.Runtime.Valid
import Verif.Props.RestartProps
import Verif.Props.WaitProps

/-!
# C49: the self-check of the raft state does not fail

`RState.validate` is what a debug build evaluates at every access to `Engine::state`. The theorems are about the states between two
steps of a node; in the code the check also runs between the handler calls of one step.
-/

set_option autoImplicit false

namespace Openraft.Props
open Openraft.Engine Openraft.Runtime Openraft.Runtime.Demo
open Openraft.Engine.Demo (lid m3 v2 i1 i2)

/-- **C49, debug builds.** In every state of every life of a node, over any number of crashes after which the state machine fits the
log (`Fits`), the self-check passes. -/
theorem C49_debug {cfg : Cfg} {old : List Resp} {n : Runtime.Node} (h : Life true cfg old n) : n.eng.st.validate = true := by
  obtain ⟨g0, a0, s0, c0, P, S, hi, hv⟩ := h.valid
  have hlog := hi.flow.inv.lm.log
  obtain ⟨h1, _, h3⟩ := hv.prog hi
  unfold RState.validate IOState.validate IOProgress.validate
  rw [hlog.validates, hi.flow.inv.lm.mem.validates hlog, decide_eq_true h1, decide_eq_true (h3 rfl), decide_eq_true hv.snapApp,
    decide_eq_true (hv.purgedSnap rfl)]
  rfl

/-- **C49, release builds, partial.** The check is not evaluated there; what it would find: the conditions on the log and on the
membership hold, nothing is submitted or flushed that was not accepted, and no snapshot is recorded beyond the recorded applied
position. Missing: the two other conditions of `IOState`, which are false, `C49_progress_false` and `C49_purged_false`. -/
theorem C49_release_partial {dbg : Bool} {cfg : Cfg} {old : List Resp} {n : Runtime.Node} (h : Life dbg cfg old n) :
    n.eng.st.validateLog = true ∧ n.eng.st.ms.validate = true ∧ n.eng.st.io.prog.submitted ≤ n.eng.st.io.prog.accepted ∧
    n.eng.st.io.prog.flushed ≤ n.eng.st.io.prog.accepted ∧ n.eng.st.io.snapshot ≤ n.eng.st.io.applied := by
  obtain ⟨g0, a0, s0, c0, P, S, hi, hv⟩ := h.valid
  have hlog := hi.flow.inv.lm.log
  obtain ⟨h1, h2, _⟩ := hv.prog hi
  exact ⟨hlog.validates, hi.flow.inv.lm.mem.validates hlog, h1, h2, hv.snapApp⟩

/-- **C49, the purged position.** In every build the recorded purged position is the one of the log store, it is not beyond what the
engine has decided to purge, and the snapshot in the state machine covers it. -/
theorem C49_purged_recorded {dbg : Bool} {cfg : Cfg} {old : List Resp} {n : Runtime.Node} (h : Life dbg cfg old n) :
    n.eng.st.io.purged = n.rd.purged ∧ nextIndex n.eng.st.io.purged ≤ nextIndex n.eng.st.lastPurged ∧
    n.eng.st.io.purged ≤ n.sm.snap.lastLogId := by
  obtain ⟨g0, a0, s0, c0, P, S, hi, hv⟩ := h.valid
  refine ⟨hv.purged, ?_, by rw [hv.purged]; exact hi.d.purged.1⟩
  have h1 := hi.flow.oks
  have h2 : (g0.runs n.eng.out).store.purged = n.eng.st.lastPurged := hi.flow.inv.lm.log.stp
  rw [hi.rest, Gh.oks_append] at h1
  have h3 := (purges_of_oks h1.2).2
  rw [← Gh.runs_append, ← hi.rest, h2] at h3
  rw [hv.purged, hi.d.rd]
  exact h3

/-- **C19 for lives.** The log positions are ordered in every state of every life, over crashes. -/
theorem C19_life_partial {dbg : Bool} {cfg : Cfg} {old : List Resp} {n : Runtime.Node} (h : Life dbg cfg old n) :
    n.eng.st.lastPurged ≤ n.eng.st.purgeUpto ∧ n.eng.st.purgeUpto ≤ n.eng.st.snap.lastLogId ∧
    n.eng.st.snap.lastLogId ≤ n.eng.st.committed ∧ n.eng.st.committed ≤ n.eng.st.lastLogId := by
  obtain ⟨g0, a0, s0, c0, P, S, hi, hv⟩ := h.valid
  exact C19_positions_ordered_partial hi.flow.inv (dbg := dbg) .refl

/-- **C19 for lives, debug builds, the positions that storage has reached**: purged, snapshot and applied; flushed, submitted and
accepted. -/
theorem C19_reached_debug {cfg : Cfg} {old : List Resp} {n : Runtime.Node} (h : Life true cfg old n) :
    n.eng.st.io.purged ≤ n.eng.st.io.snapshot ∧ n.eng.st.io.snapshot ≤ n.eng.st.io.applied ∧
    n.eng.st.io.prog.flushed ≤ n.eng.st.io.prog.submitted ∧ n.eng.st.io.prog.submitted ≤ n.eng.st.io.prog.accepted := by
  obtain ⟨g0, a0, s0, c0, P, S, hi, hv⟩ := h.valid
  obtain ⟨h1, _, h3⟩ := hv.prog hi
  exact ⟨hv.purgedSnap rfl, hv.snapApp, h3 rfl, h1⟩

/-- The applied position that is recorded only moves forward: the assertion of `update_applied` (`io_state.rs:126-138`) holds for
every report of an applied entry or an installed snapshot, in every build. -/
theorem C49_applied_forward {dbg : Bool} {cfg : Cfg} {old : List Resp} {n : Runtime.Node} (h : Life dbg cfg old n) :
    (∀ l es xs, n.rx = .applied l es :: xs → n.eng.st.io.applied < some l) ∧
    (∀ io m xs, n.rx = .installed io m :: xs → n.eng.st.io.applied < m.lastLogId) := by
  obtain ⟨g0, a0, s0, c0, P, S, hi, hv⟩ := h.valid
  have hn := hv.noted
  exact ⟨fun l es xs hx => by rw [hx] at hn; exact hn.1, fun io m xs hx => by rw [hx] at hn; exact hn.1⟩

/-! ## Concrete cases -/

/-- a follower that stores four entries, builds a snapshot of two, gets the leader's of four and purges its log -/
def backEvs : List (List LogId × Ev) :=
  fourEvs ++ [([], .msg 5 .snapshotCmd)] ++ runs 1 ++ [([], .sm)] ++
    [(waitLog, .msg 5 (.snapReq 9 v2 ⟨some (lid 1 2 3), ⟨some (lid 1 2 0), m3⟩, 5⟩))] ++ rounds 5

/-- the follower while it still builds -/
def back (dbg : Bool) : Runtime.Node := runTo dbg (Node.fresh Demo.cfg 0 true) backEvs

theorem back_life (dbg : Bool) : Life dbg Demo.cfg [] (back dbg) := (Life.fresh 0 true).run (run_of_allOk .refl (by cases dbg <;> decide +kernel))

/-- a debug build on the way: all positions are set and the check passes -/
example : Life true Demo.cfg [] (back true) ∧ (back true).eng.st.validate = true ∧ (back true).eng.st.io.purged = some (lid 1 2 3) ∧
    (back true).eng.st.io.snapshot = some (lid 1 2 3) ∧ (back true).eng.st.io.prog.flushed = some ⟨v2, some (lid 1 2 3)⟩ ∧
    (back true).builds.map (·.lastLogId) = [some (lid 1 2 1)] :=
  ⟨back_life true, C49_debug (back_life true), by decide +kernel, by decide +kernel, by decide +kernel, by decide +kernel⟩

/-- a follower that has just applied two entries -/
def appliedEvs : List (List LogId × Ev) :=
  [([lid 1 2 0, lid 1 2 1], .msg 1 i1)] ++ rounds 3 ++ [(waitLog, .msg 2 i2)] ++ rounds 2 ++ [([], Ev.flush)] ++ runs 4 ++ [([], Ev.sm)]

/-- a report that moves the applied position -/
example : ∃ n : Runtime.Node, Life true Demo.cfg [] n ∧
    n.rx = [.applied (lid 1 2 1) [⟨lid 1 2 0, .membership m3⟩, ⟨lid 1 2 1, .blank⟩]] ∧ n.eng.st.io.applied = none :=
  ⟨runTo true (Node.fresh Demo.cfg 0 true) appliedEvs, (Life.fresh 0 true).run (run_of_allOk .refl (by decide +kernel)),
    by decide +kernel, by decide +kernel⟩

/-- the node of `C48_false` when the leader's snapshot of its first three entries is submitted -/
def submEvs : List (List LogId × Ev) := fourEvs ++ [(waitLog, .msg 5 (.snapReq 9 v2 waitSnap))] ++ runs 1

/-- **C49 is false for release builds, the progress of writes.** The IO of a snapshot is submitted after a greater one was flushed. A
debug build aborts at `submit`. -/
theorem C49_progress_false : ∃ (cfg : Cfg) (n : Runtime.Node), Life false cfg [] n ∧
    n.eng.st.io.prog.submitted < n.eng.st.io.prog.flushed ∧ n.eng.st.io.validate = false ∧
    ∃ m : Runtime.Node, Life true cfg [] m ∧ m.step true .run = .error (.panic .debugAssert) :=
  ⟨_, runTo false (Node.fresh Demo.cfg 0 true) submEvs, (Life.fresh 0 true).run (run_of_allOk .refl (by decide +kernel)),
    by decide +kernel, by decide +kernel, runTo true (Node.fresh Demo.cfg 0 true) (fourEvs ++ [(waitLog, .msg 5 (.snapReq 9 v2 waitSnap))]),
    (Life.fresh 0 true).run (run_of_allOk .refl (by decide +kernel)), stops_some (by decide +kernel)⟩

/-- **C49 is false for release builds, the purged position.** A snapshot that was being built when a newer one was installed is
reported: the log is purged beyond the recorded snapshot. -/
theorem C49_purged_false : ∃ (cfg : Cfg) (n : Runtime.Node), Life false cfg [] n ∧
    n.eng.st.io.snapshot < n.eng.st.io.purged ∧ n.eng.st.io.validate = false :=
  ⟨_, runTo false (back false) ([([], .build 0)] ++ rounds 1), (back_life false).run (run_of_allOk .refl (by decide +kernel)),
    by decide +kernel, by decide +kernel⟩

/-- **C49 is false after a restart that does not fit.** The state machine is ahead of the log and the snapshot is older: the node
starts with a state that fails the check, so a debug build panics at the first access, at every start. -/
theorem C49_restart_false : ∃ n n' : Runtime.Node, Life true Demo.cfg [] n ∧ restart true 9 Demo.cfg (n.crashDisk 0) n.sm = .ok n' ∧
    n'.eng.st.validateLog = false ∧ n'.eng.st.io.validate = false :=
  ⟨ahead true, ahead1 true, (Life.fresh 0 true).run (run_of_allOk .refl (by decide +kernel)), reborn_ok (by decide +kernel),
    by decide +kernel, by decide +kernel⟩

end Openraft.Props
