import Verif.Cluster.Reach

/-!
# Writing executions down

Concrete executions are lists of small scripts; each script computes its events from the state it
starts in.
-/

set_option autoImplicit false

namespace Openraft.Cluster

variable (m0 : Membership) (R : Rules)

abbrev Script := List (State → List Event)

def runScript (s : State) : Script → Option State
  | [] => some s
  | f :: fs =>
    match run m0 R s (f s) with
    | some s' => runScript s' fs
    | none => none

variable {m0 R}

theorem steps_script {s0 s s' : State} {fs : Script} (h : Steps m0 R s0 s) (hr : runScript m0 R s fs = some s') :
    Steps m0 R s0 s' := by
  induction fs generalizing s with
  | nil => simp only [runScript, Option.some.injEq] at hr; exact hr ▸ h
  | cons f fs ih =>
    simp only [runScript] at hr
    split at hr
    · rename_i s1 h1; exact ih (steps_run h h1) hr
    · cases hr

theorem Steps.reachable {s : State} (h : Steps m0 R init s) : Reachable m0 R s := Reachable.init.steps h

/-- A script that can be executed and leads to a state with `P`. -/
theorem witness {fs : Script} {P : State → Bool} (h : (runScript m0 R init fs).any P = true) :
    ∃ s, Reachable m0 R s ∧ P s = true := by
  cases hr : runScript m0 R init fs with
  | none => rw [hr] at h; simp at h
  | some s =>
    rw [hr] at h
    exact ⟨s, (steps_script .refl hr).reachable, h⟩

/-- Two states of an execution. -/
theorem witness2 {fs fs' : Script} {P P' : State → Bool}
    (h : (runScript m0 R init fs).any (fun s => P s && (runScript m0 R s fs').any P') = true) :
    ∃ s s', Reachable m0 R s ∧ Steps m0 R s s' ∧ P s = true ∧ P' s' = true := by
  cases hr : runScript m0 R init fs with
  | none => rw [hr] at h; simp at h
  | some s =>
    rw [hr] at h
    simp only [Option.any_some, Bool.and_eq_true] at h
    obtain ⟨h1, h2⟩ := h
    cases hr' : runScript m0 R s fs' with
    | none => rw [hr'] at h2; simp at h2
    | some s' =>
      rw [hr'] at h2
      exact ⟨s, s', (steps_script .refl hr).reachable, steps_script .refl hr', h1, h2⟩

/-! ## Scripts -/

/-- `n` becomes leader with its own vote and the votes of `qs`. -/
def electBy (n : NodeId) (qs : List NodeId) : State → List Event := fun s =>
  let nd := s.nodes n
  let lid : LeaderId := ⟨nd.vote.leaderId.term + 1, n⟩
  .elect n :: .recvGrant n n ::
    qs.flatMap fun q => [.recvVote q lid (lastId nd.mem), .recvGrant n q]

/-- The order to send the entries `[lo, hi)` as `queue` creates it. -/
def taskOf (s : State) (n lo hi : Nat) : Task :=
  let nd := s.nodes n
  ⟨n, ((nd.leader).map (·.lid)).getD ⟨0, 0⟩, lo, ((idAt nd.mem (lo - 1)).map (·.leaderId)).getD ⟨0, 0⟩, hi,
    nd.committed⟩

/-- The request that a task sends in state `s`. -/
def appOf (s : State) (t : Task) : App :=
  ⟨t.lid, t.prev, t.prevLid, ((s.nodes t.owner).mem.take t.hi).drop t.prev, t.commit⟩

/-- Leader `n` sends `[lo, hi)` to `q`, which answers; `m` tells whether the answer arrives. -/
def repl (n q lo hi : Nat) (answered : Bool := true) : State → List Event := fun s =>
  let t := taskOf s n lo hi
  let a := appOf s t
  [.queue n lo hi, .send t, .recvApp q a a.entries.length] ++ (if answered then [.recvAck n q hi] else [])

/-- Leader `n` writes its log to disk and takes notice of it. -/
def flushAll (n : NodeId) : State → List Event := fun s =>
  [.flush n (s.nodes n).buf.length, .notify n (s.nodes n).mem.length]

/-- Plain events. -/
def evs (es : List Event) : State → List Event := fun _ => es

end Openraft.Cluster
