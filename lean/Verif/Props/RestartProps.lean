import Verif.Props.DurableProps

/-!
# C32, C19: restarts that do not give what the code promises

`C32_restart_partial` assumes that what is left of the state machine fits the log that is left (`Fits`). Here are three crashes of
nodes that ran as allowed after which it does not, each with a different reason. In all three, start-up succeeds.
-/

set_option autoImplicit false

namespace Openraft.Props
open Openraft Openraft.Engine Openraft.Runtime Openraft.Engine.Demo Openraft.Runtime.Demo
open LogIdList

/-! ## a truncation that was not durable -/

/-- Leader 2 sends four entries, none is committed. Leader 3 sends a snapshot that ends at index 2 with another entry, so the log
is truncated and the snapshot is installed. -/
def staleEvs : List (List LogId × Ev) :=
  [([lid 1 2 0, lid 1 2 1, lid 1 2 2, lid 1 2 3], .msg 1 (.appendReq 7 v2 none
    [⟨lid 1 2 0, .membership m3⟩, ⟨lid 1 2 1, .blank⟩, ⟨lid 1 2 2, .blank⟩, ⟨lid 1 2 3, .blank⟩] none))] ++ runs 3 ++
  [([], .flush), ([], .note 3), ([], .note 3), ([], .note 4)] ++ runs 2 ++
  [([lid 1 2 0, lid 2 3 1, lid 2 3 2], .msg 5 (.snapReq 8 v3 ⟨some (lid 2 3 2), ⟨some (lid 1 2 0), m3⟩, 1⟩))] ++ runs 3 ++ [([], .sm)]

/-- the node when it crashes -/
def stale (dbg : Bool) : Node := runTo dbg (Node.fresh Demo.cfg 0) staleEvs
/-- the node after its restart: the truncation is lost, the snapshot is kept -/
def stale1 (dbg : Bool) : Node := reborn dbg 9 Demo.cfg (stale dbg) 0

/-- **C32 is false, 1.** After the restart the engine knows a log that ends at the snapshot, index 2; but the log store still has the
entry at index 3 of the old leader: `purge` removes entries up to the applied position only. -/
theorem C32_stale_tail (dbg : Bool) : ∃ n n' : Node, Life dbg Demo.cfg [] n ∧ restart dbg 9 Demo.cfg (n.crashDisk 0) n.sm = .ok n' ∧
    n'.eng.st.lastLogId = some (lid 2 3 2) ∧ n'.rd.entries = [⟨lid 1 2 3, .blank⟩] ∧ n'.disk.store = n'.rd :=
  ⟨stale dbg, stale1 dbg, (Life.fresh 0 false).run (run_of_allOk .refl (by cases dbg <;> decide +kernel)),
    reborn_ok (by cases dbg <;> decide +kernel), by cases dbg <;> decide +kernel, by cases dbg <;> decide +kernel,
    by cases dbg <;> decide +kernel⟩

/-! ## positions are compared by leader first -/

/-- Leader 2 sends an entry, leader 3 sends another, neither is committed. Leader 2, elected again, sends a snapshot of what it
wrote in its first term. -/
def holeEvs : List (List LogId × Ev) :=
  [([lid 1 2 0], .msg 1 (.appendReq 7 v2 none [⟨lid 1 2 0, .membership m3⟩] none))] ++ runs 3 ++
  [([], .flush), ([], .note 3), ([], .note 3), ([], .note 4)] ++ runs 2 ++
  [([lid 1 2 0, lid 2 3 1], .msg 1 (.appendReq 7 v3 (some (lid 1 2 0)) [⟨lid 2 3 1, .blank⟩] none))] ++ runs 3 ++
  [([], .flush), ([], .note 3), ([], .note 3), ([], .note 4)] ++ runs 2 ++
  [([lid 1 2 0, lid 1 2 1, lid 1 2 2, lid 1 2 3, lid 3 2 4],
    .msg 5 (.snapReq 8 ⟨⟨3, 2⟩, true⟩ ⟨some (lid 1 2 3), ⟨some (lid 1 2 0), m3⟩, 1⟩))] ++ runs 2 ++ [([], .sm)]

/-- the node when it crashes -/
def hole (dbg : Bool) : Node := runTo dbg (Node.fresh Demo.cfg 0) holeEvs
/-- the node after its restart -/
def hole1 (dbg : Bool) : Node := reborn dbg 9 Demo.cfg (hole dbg) 0
/-- leader 2 sends the next entry -/
def holeMsg : Ev := .msg 10 (.appendReq 7 ⟨⟨3, 2⟩, true⟩ (some (lid 1 2 3)) [⟨lid 3 2 4, .blank⟩] none)
/-- the node after it, in a release build -/
def hole2 : Node := runTo false (hole1 false) ([([], holeMsg)] ++ runs 1 ++ [([], .flush)])

/-- **C32 and C19 are false, 2.** The log ends at index 1 with an entry of leader (2,3); the state machine is at index 3 with an id of
leader (1,2), which is smaller. So the log is not taken to end before the applied position and is not cleaned: the committed
position is not in the log, and nothing is purged. -/
theorem C32_not_cleaned (dbg : Bool) : ∃ n n' : Node, Life dbg Demo.cfg [] n ∧ restart dbg 9 Demo.cfg (n.crashDisk 0) n.sm = .ok n' ∧
    n'.eng.st.committed = some (lid 1 2 3) ∧ n'.eng.st.lastPurged = none ∧ n'.eng.st.lastLogId = some (lid 2 3 1) ∧
    n'.rd.entries.map (·.id) = [lid 1 2 0, lid 2 3 1] :=
  ⟨hole dbg, hole1 dbg, (Life.fresh 0 false).run (run_of_allOk .refl (by cases dbg <;> decide +kernel)),
    reborn_ok (by cases dbg <;> decide +kernel), by cases dbg <;> decide +kernel, by cases dbg <;> decide +kernel,
    by cases dbg <;> decide +kernel, by cases dbg <;> decide +kernel⟩

/-- What follows: the next entry of the leader is written right behind this log. The log on disk then has a hole, and the engine
believes that leader (2,3) wrote entries 2 and 3. A debug build aborts instead.
(`EvOk` does not hold for this message only because the log that start-up loaded contradicts the one of the leader below the
committed position.) -/
theorem C32_hole : stops ((hole1 true).step true holeMsg) = some (.panic .debugAssert) ∧
    hole2.disk.store.entries.map (·.id) = [lid 1 2 0, lid 2 3 1, lid 3 2 4] ∧
    hole2.eng.st.getLogId 2 = some (lid 2 3 2) ∧ hole2.eng.st.getLogId 3 = some (lid 2 3 3) :=
  ⟨by decide +kernel, by decide +kernel, by decide +kernel, by decide +kernel⟩

/-! ## a state machine that is ahead of the log -/

/-- Node 1 applies two entries, builds a snapshot, is elected, and its first entry is committed by the two followers and applied
before it is durable in its own log. -/
def aheadEvs : List (List LogId × Ev) :=
  [(lead2', .msg 1 (.appendReq 7 v2 none [⟨lid 1 2 0, .membership m3⟩, ⟨lid 1 2 1, .blank⟩] (some (lid 1 2 1))))] ++ runs 3 ++
  [([], .flush), ([], .note 3), ([], .note 3), ([], .note 4)] ++ runs 4 ++
  [([], .sm), ([], .note 5), ([], .msg 5 .snapshotCmd), ([], .run), ([], .sm), ([], .build 0), ([], .note 5), ([], .run), ([], .msg 6 .electCmd)] ++
  runs 3 ++ [([], .note 7), ([], .note 7), ([], .msg 8 (.voteResp 2 vote1 none true vote1))] ++ runs 6 ++
  [([], .msg 9 (.replProgress ⟨⟨⟨2, 1⟩, true⟩, some (lid 1 2 0)⟩ 2 (.matching (some (lid 2 1 2))))),
    ([], .msg 9 (.replProgress ⟨⟨⟨2, 1⟩, true⟩, some (lid 1 2 0)⟩ 3 (.matching (some (lid 2 1 2)))))] ++ runs 5 ++ [([], .sm)]

/-- the node when it crashes; its state machine is persistent -/
def ahead (dbg : Bool) : Node := runTo dbg (Node.fresh Demo.cfg 0 true) aheadEvs
/-- the node after its restart -/
def ahead1 (dbg : Bool) : Node := reborn dbg 9 Demo.cfg (ahead dbg) 0

/-- **C19 is false at start-up.** The log ends before the applied position and is cleaned, but the snapshot is older: the purged
position is above the snapshot, and no follower that needs entry 2 can get it before the next snapshot. -/
theorem C19_purged_above_snapshot (dbg : Bool) : ∃ n n' : Node, Life dbg Demo.cfg [] n ∧
    restart dbg 9 Demo.cfg (n.crashDisk 0) n.sm = .ok n' ∧ n'.eng.st.lastPurged = some (lid 2 1 2) ∧
    n'.eng.st.snap.lastLogId = some (lid 1 2 1) ∧ n'.sm.snap.lastLogId = some (lid 1 2 1) :=
  ⟨ahead dbg, ahead1 dbg, (Life.fresh 0 true).run (run_of_allOk .refl (by cases dbg <;> decide +kernel)),
    reborn_ok (by cases dbg <;> decide +kernel), by cases dbg <;> decide +kernel, by cases dbg <;> decide +kernel,
    by cases dbg <;> decide +kernel⟩

end Openraft.Props
