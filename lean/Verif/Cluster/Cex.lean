import Verif.Cluster.Script

/-!
# Executions of the code that break safety

Each script is an execution of the model in which one of the restrictions of `Rules` is dropped.
-/

set_option autoImplicit false

namespace Openraft.Cluster

/-- Two state machines were given different entries for one index. -/
def clash (s : State) : Bool :=
  s.hist.any fun a => s.hist.any fun b => (List.range a.2.length).any fun i =>
    match a.2[i]?, b.2[i]? with
    | some x, some y => x != y
    | _, _ => false

theorem clash_spec {s : State} (h : clash s = true) :
    ∃ a ∈ s.hist, ∃ b ∈ s.hist, ∃ (i : Nat) (x y : Entry), a.2[i]? = some x ∧ b.2[i]? = some y ∧ x ≠ y := by
  obtain ⟨a, ha, h⟩ := List.any_eq_true.1 h
  obtain ⟨b, hb, h⟩ := List.any_eq_true.1 h
  obtain ⟨i, _, h⟩ := List.any_eq_true.1 h
  refine ⟨a, ha, b, hb, i, ?_⟩
  split at h
  · rename_i x y hx hy
    exact ⟨x, y, hx, hy, by simpa using h⟩
  · cases h

/-- voters 1, 2, 3 -/
def m3 : Membership := ⟨[[1, 2, 3]], [(1, 0), (2, 0), (3, 0)]⟩
/-- voters 1 to 5 -/
def m5 : Membership := ⟨[[1, 2, 3, 4, 5]], [(1, 0), (2, 0), (3, 0), (4, 0), (5, 0)]⟩

/-! ## A normal execution -/

/-- Leader 1 commits an entry with 2; all three apply it; 3 takes over and commits another one. -/
def normal : Script :=
  [evs [.init 1], electBy 1 [2], flushAll 1, evs [.write 1 7], repl 1 2 0 3, flushAll 1, evs [.apply 1 3],
   repl 1 2 3 3, repl 1 3 0 3, evs [.apply 2 3], evs [.apply 3 3]]

/-- continues `normal` -/
def normal2 : Script :=
  [electBy 3 [2], evs [.write 3 8], flushAll 3, repl 3 2 0 5, repl 3 1 0 5, repl 3 2 5 5, evs [.apply 3 5, .apply 2 5]]

/-- A normal membership change: leader 1 moves the cluster from `{1, 3, 4}` over the joint config to
`{2, 3, 4}`, 2 is elected under the new config. -/
def m134 : Membership := ⟨[[1, 3, 4]], [(1, 0), (2, 0), (3, 0), (4, 0)]⟩

def normalChange : Script :=
  [evs [.init 1], electBy 1 [3], flushAll 1, repl 1 3 0 2, evs [.change 1 (.replaceAllVoters [2, 3, 4]) true],
   flushAll 1, repl 1 2 0 3, repl 1 3 2 3, evs [.change 1 (.replaceAllVoters [2, 3, 4]) true], flushAll 1,
   repl 1 2 3 4, repl 1 3 3 4, evs [.apply 1 4], repl 1 2 4 4, electBy 2 [3], repl 2 3 4 5, flushAll 2,
   evs [.apply 2 5]]

/-! ## `exactQuorum` -/

/-- Leader 1 counts an entry as committed that only 1 and 3 of five have; 2 is elected without it. -/
def cexQuorum : Script :=
  [evs [.init 1], electBy 1 [2, 3],
   evs [.write 1 2, .write 1 3, .write 1 4, .write 1 5, .write 1 6],
   repl 1 2 0 5, repl 1 3 0 4, repl 1 3 4 6, flushAll 1, evs [.apply 1 6],
   electBy 2 [4, 5], flushAll 2, repl 2 4 0 6, repl 2 5 0 6, evs [.apply 2 6]]

/-! ## `fenceTasks` -/

/-- Before the stale task sends. -/
def cexFence0 : Script :=
  [evs [.init 1], electBy 1 [2, 3], repl 1 3 0 2, evs [.write 1 7], repl 1 3 2 3, repl 1 2 0 1,
   evs [.write 1 9, .queue 1 3 4],
   electBy 2 [4, 5], evs [.write 2 21, .write 2 22], repl 2 1 0 4]

/-- the task that leader 1 queued -/
def staleTask : Task := ⟨1, ⟨1, 1⟩, 3, ⟨1, 1⟩, 4, 0⟩

/-- The task of leader 1 reads the entries of leader 2 and sends them in the name of leader 1 to 3. -/
def cexFence1 : Script :=
  [evs [.send staleTask], fun s => [.recvApp 3 (appOf s staleTask) 1]]

/-- 3 counts as replicated; it applies an entry that was never committed. -/
def cexFence2 : Script :=
  [flushAll 2, repl 2 4 0 4, repl 2 3 4 4, repl 2 3 4 4, evs [.apply 2 4, .apply 3 4]]

/-! ## `ownTermGate` -/

/-- Leader 1 proposes to drop voter 2, only it knows. Leader 2 proposes to drop the others and commits
alone. Leader 1 comes back with its own config. -/
def cexGate : Script :=
  [evs [.init 1], electBy 1 [3], flushAll 1, repl 1 3 0 2, evs [.change 1 (.replaceAllVoters [2]) true],
   flushAll 1, repl 1 2 0 3, repl 1 3 2 3, repl 1 4 0 3, repl 1 2 3 3,
   evs [.change 1 (.replaceAllVoters [1, 3, 4]) true],
   electBy 2 [3, 4], evs [.change 2 (.replaceAllVoters [2]) true], flushAll 2, evs [.apply 2 5],
   evs [.tell 3, .learn 1 ⟨⟨2, 2⟩, false⟩], electBy 1 [3], flushAll 1, repl 1 3 0 5, evs [.apply 1 5]]

/-! ## `losslessResume` -/

/-- Leader 1 loses its last entry in a crash, comes back as leader and gives the same log id to another
entry. -/
def cexResume : Script :=
  [evs [.init 1], electBy 1 [2], flushAll 1, repl 1 2 0 2, evs [.write 1 7], repl 1 2 2 3, repl 1 3 0 3,
   repl 1 2 3 3, evs [.apply 2 3],
   evs [.crash 1 0 0 2 true, .write 1 8], flushAll 1, repl 1 2 2 3, evs [.apply 1 3]]

/-! ## `atomicSnapshot` -/

/-- voters 1, 2, 3; learners 4, 5, 6 -/
def m123 : Membership := ⟨[[1, 2, 3]], [(1, 0), (2, 0), (3, 0), (4, 0), (5, 0), (6, 0)]⟩

/-- Leader 2 commits the joint config without 3 and proposes `{4, 5, 6}`, which reaches only 4. Node 1 is
elected under the joint config. Node 4 is elected under `{4, 5, 6}`, commits and sends a snapshot to 1, which
crashes after the truncation. -/
def cexSnap0 : Script :=
  [evs [.init 2], electBy 2 [1], flushAll 2, repl 2 1 0 2, repl 2 3 0 2,
   evs [.change 2 (.replaceAllVoters [4, 5, 6]) true], flushAll 2, repl 2 1 2 3,
   repl 2 4 0 3, repl 2 5 0 3, repl 2 6 0 3, repl 2 4 3 3,
   evs [.change 2 (.replaceAllVoters [4, 5, 6]) true], repl 2 4 3 4,
   electBy 1 [3, 5, 6], flushAll 1,
   electBy 4 [5], flushAll 4, repl 4 5 0 5, evs [.apply 4 5]]

/-- Node 3, which never saw the joint config, is elected by the old config. -/
def cexSnap1 : Script :=
  [evs [.sendSnap 4 4], fun s => [.cutSnap 1 ⟨2, 4⟩ ((s.nodes 4).sm.take 4)],
   electBy 3 [1], flushAll 3, repl 3 1 0 3, evs [.apply 3 3]]

/-! ## `keepCommitted` -/

/-- Leader 1 commits and applies 7; it restarts as leader and forgot that 7 is committed. -/
def cexRead0 : Script :=
  [evs [.init 1], electBy 1 [2], flushAll 1, evs [.write 1 7], repl 1 2 0 3, flushAll 1, evs [.apply 1 3]]

def cexRead1 : Script := [evs [.crash 1 0 0 0 true]]

end Openraft.Cluster
