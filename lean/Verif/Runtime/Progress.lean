import Verif.Runtime.Chain

/-!
# Every command is executed

In an infinite run of a node in which something is done whenever there is something to do, every command that the engine emits is executed,
provided the recorded positions do not go back.
-/

namespace Openraft.Runtime
open Openraft.Engine
open Openraft.Repl (Panic dassert)

variable {dbg : Bool} {n n' : Node}

/-- a bound of the work under way -/
def Node.work (n : Node) : Nat := 2 * n.pend.length + 3 * n.smq.length + 2 * n.builds.length + n.rx.length

/-- there is something to do -/
def Busy (n : Node) : Prop := (∃ c, n.head = some c ∧ n.ready c = true) ∨ n.pend ≠ [] ∨ n.smq ≠ [] ∨ n.rx ≠ []

/-- a step that executes no command adds no work, and removes some if it is one that the node has to do -/
theorem View.work {ev : Ev} (h : View dbg n n' ev) :
    n'.done = n.done + 1 ∨ n'.done = n.done ∧ n'.work ≤ n.work ∧ (n.acts ev → n'.work < n.work) := by
  cases h with
  | none ev h1 h2 => subst h1; exact Or.inr ⟨rfl, Nat.le_refl _, fun h => absurd h h2⟩
  | run c n1 _ _ h1 h2 => subst h2; left; show n1.done + 1 = _; rw [(exec_frame h1).done]
  | input ev h1 _ h2 _ _ =>
    have q1 : n'.done = n.done := congrArg (·.1) h2
    have q2 : n'.rx = n.rx := congrArg (·.2.1) h2
    have q3 : n'.pend = n.pend := congrArg (·.2.2.1) h2
    have q4 : n'.smq = n.smq := congrArg (·.2.2.2.1) h2
    have q5 : n'.builds = n.builds := congrArg (·.2.2.2.2.1) h2
    exact Or.inr ⟨q1, by unfold Node.work; rw [q2, q3, q4, q5], fun h => absurd h h1⟩
  | note now x xs _ h1 h2 _ _ _ =>
    have q1 : n'.done = n.done := congrArg (·.1) h2
    have q2 : n'.rx = xs := congrArg (·.2.1) h2
    have q3 : n'.pend = n.pend := congrArg (·.2.2.1) h2
    have q4 : n'.smq = n.smq := congrArg (·.2.2.2.1) h2
    have q5 : n'.builds = n.builds := congrArg (·.2.2.2.2.1) h2
    have : n'.work < n.work := by
      unfold Node.work; rw [q2, q3, q4, q5, h1, List.length_cons]; omega
    exact Or.inr ⟨q1, Nat.le_of_lt this, fun _ => this⟩
  | flush op ops h1 h2 =>
    subst h2
    have h3 : op.note.length ≤ 1 := by cases op <;> simp [DiskOp.note]
    have : Node.work { n with disk := n.disk.write op, pend := ops, rx := n.rx ++ op.note } < n.work := by
      unfold Node.work; rw [h1, List.length_cons]; simp only [List.length_append]; omega
    exact Or.inr ⟨rfl, Nat.le_of_lt this, fun _ => this⟩
  | apply a u q es h1 h2 h3 h4 h5 h6 _ _ =>
    have : n'.work < n.work := by
      unfold Node.work; rw [← h2, h3, h4, h5, h1, List.length_cons, List.length_append, List.length_singleton]; omega
    exact Or.inr ⟨h6, Nat.le_of_lt this, fun _ => this⟩
  | install m io q h1 h2 h3 h4 h5 h6 _ =>
    have : n'.work < n.work := by
      unfold Node.work; rw [h2, h3, h4, h5, h1, List.length_cons, List.length_append, List.length_singleton]; omega
    exact Or.inr ⟨h6, Nat.le_of_lt this, fun _ => this⟩
  | startBuild q h1 h2 =>
    subst h2
    have : Node.work { n with smq := q, builds := n.builds ++ [⟨n.sm.applied, n.sm.mem, 0⟩] } < n.work := by
      unfold Node.work; rw [h1, List.length_cons]; simp only [List.length_append, List.length_singleton]; omega
    exact Or.inr ⟨rfl, Nat.le_of_lt this, fun _ => this⟩
  | build k m h1 h2 h3 h4 h5 h6 _ =>
    have hk : k < n.builds.length := (List.getElem?_eq_some_iff.1 h1).1
    have : n'.work < n.work := by
      unfold Node.work; rw [h2, h3, h4, h5, List.length_eraseIdx_of_lt hk, List.length_append, List.length_singleton]; omega
    exact Or.inr ⟨h6, Nat.le_of_lt this, fun _ => this⟩

theorem View.out {ev : Ev} (h : View dbg n n' ev) : n.eng.out <+: n'.eng.out := by
  cases h with
  | none ev h1 h2 => subst h1; exact List.prefix_refl _
  | run c n1 _ _ h1 h2 =>
    subst h2
    obtain ⟨p, x, k1, _⟩ := (exec_frame h1).eng
    show n.eng.out <+: n1.eng.out
    rw [k1]
  | input ev h1 _ h2 _ h3 => exact h3
  | note now x xs _ h1 h2 _ h3 _ => exact h3
  | flush op ops h1 h2 => subst h2; exact List.prefix_refl _
  | apply a u q es h1 h2 h3 h4 h5 h6 h7 _ => rw [h7]
  | install m io q h1 h2 h3 h4 h5 h6 h7 => rw [h7]
  | startBuild q h1 h2 => subst h2; exact List.prefix_refl _
  | build k m h1 h2 h3 h4 h5 h6 h7 => rw [h7]

/-- a node that is not stuck and has commands left has something to do -/
theorem busy_of {n : Node} (h : ¬ Halted n) (hc : n.done < n.eng.out.length) : Busy n := by
  by_contra hb
  unfold Busy at hb
  push_neg at hb
  obtain ⟨h1, h2, h3, h4⟩ := hb
  refine h ⟨⟨n.eng.out[n.done], List.getElem?_eq_getElem hc, ?_⟩, h2, h4, h3⟩
  have := h1 _ (List.getElem?_eq_getElem hc)
  simpa using this

/-- an infinite run of a node: nothing is left undone for ever -/
structure Fair (dbg : Bool) (σ : Nat → Node) (ev : Nat → Ev) : Prop where
  ok : ∀ i, EvOk (σ i) (ev i)
  step : ∀ i, (σ i).step dbg (ev i) = .ok (σ (i + 1))
  fair : ∀ i, Busy (σ i) → ∃ j, i ≤ j ∧ (σ j).acts (ev j)

variable {σ : Nat → Node} {ev : Nat → Ev}

theorem Fair.mono (h : Fair dbg σ ev) (i j : Nat) (hij : i ≤ j) :
    (σ i).done ≤ (σ j).done ∧ (σ i).eng.out <+: (σ j).eng.out ∧ ((σ j).done = (σ i).done → (σ j).work ≤ (σ i).work) := by
  induction j, hij using Nat.le_induction with
  | base => exact ⟨Nat.le_refl _, List.prefix_refl _, fun _ => Nat.le_refl _⟩
  | succ j hij ih =>
    have hv := step_view (h.step j)
    obtain ⟨k1, k2, k3⟩ := ih
    refine ⟨?_, k2.trans hv.out, ?_⟩
    · rcases hv.work with k | k
      · omega
      · omega
    · intro hd
      rcases hv.work with k | ⟨k, k4, _⟩
      · omega
      · exact Nat.le_trans k4 (k3 (by omega))

/-- the next command is executed -/
theorem Fair.next (h : Fair dbg σ ev) (hs : ∀ i, ¬ Halted (σ i)) (i : Nat) (hc : (σ i).done < (σ i).eng.out.length) :
    ∃ j, i ≤ j ∧ (σ i).done < (σ j).done := by
  generalize hw : (σ i).work = w
  induction w using Nat.strongRecOn generalizing i with
  | _ w ih =>
    obtain ⟨j, hj, ha⟩ := h.fair i (busy_of (hs i) hc)
    obtain ⟨k1, k2, k3⟩ := h.mono i j hj
    by_cases hd : (σ j).done = (σ i).done
    · rcases (step_view (h.step j)).work with k | ⟨k, _, k4⟩
      · exact ⟨j + 1, by omega, by omega⟩
      · have hlt := k4 ha
        have hlt2 := k3 hd
        have hout := (h.mono i (j + 1) (by omega)).2.1.length_le
        obtain ⟨t, t1, t2⟩ := ih (σ (j + 1)).work (by omega) (j + 1) (by omega) rfl
        exact ⟨t, by omega, by omega⟩
    · exact ⟨j, hj, by omega⟩

/-- **Every command is executed.** -/
theorem Fair.all (h : Fair dbg σ ev) (hs : ∀ i, ¬ Halted (σ i)) (i k : Nat) (hk : k < (σ i).eng.out.length) : ∃ j, i ≤ j ∧ k < (σ j).done := by
  suffices hd : ∀ d, ∃ j, i ≤ j ∧ (d ≤ (σ j).done ∨ k < (σ j).done) by
    obtain ⟨j, hj, hd⟩ := hd (k + 1)
    exact ⟨j, hj, by omega⟩
  intro d
  induction d with
  | zero => exact ⟨i, Nat.le_refl _, Or.inl (Nat.zero_le _)⟩
  | succ d ih =>
    obtain ⟨j, hj, hd⟩ := ih
    by_cases hlt : k < (σ j).done
    · exact ⟨j, hj, Or.inr hlt⟩
    · have hl := (h.mono i j hj).2.1.length_le
      obtain ⟨t, t1, t2⟩ := h.next hs j (by omega)
      exact ⟨t, by omega, by omega⟩

end Openraft.Runtime
