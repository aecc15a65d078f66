import Verif.Runtime.Crash

/-!
# The life of a node: steps, crashes and restarts
-/

set_option autoImplicit false

namespace Openraft.Runtime
open Openraft.Engine Openraft.LogIdList

/-- The life of a node: it starts with nothing stored, takes allowed steps, crashes at any point with any
number of the writes not yet durable kept, and starts again. `old`: the answers it sent before its last
crash. A restart is part of the life only if the state machine and the log that are left fit each other
(`Fits`), see `C32_stale_tail` and the theorems beside it for what happens otherwise. -/
inductive Life (dbg : Bool) (cfg : Cfg) : List Resp → Node → Prop
  | fresh (now : Nat) (persist : Bool) : Life dbg cfg [] (Node.fresh cfg now persist)
  | step {old : List Resp} {n n' : Node} (ev : Ev) : Life dbg cfg old n → EvOk n ev → n.step dbg ev = .ok n' → Life dbg cfg old n'
  | crash {old : List Resp} {n n' : Node} (k now : Nat) : Life dbg cfg old n → Fits (n.crashDisk k) n.sm.reboot →
      restart dbg now cfg (n.crashDisk k) n.sm = .ok n' → Life dbg cfg (old ++ n.sent.map (·.2.2)) n'

theorem Life.run {dbg : Bool} {cfg : Cfg} {old : List Resp} {n n' : Node} (h : Life dbg cfg old n) (hr : Node.Run dbg n n') :
    Life dbg cfg old n' := by
  induction hr with
  | refl => exact h
  | step ev _ ho hs ih => exact .step ev ih ho hs

/-- stored votes do not decrease -/
theorem vote_runs_le {g : Gh} {cs : List Cmd} (ho : g.Oks cs) : g.vote ≤ (g.runs cs).vote := by
  induction cs generalizing g with
  | nil => exact le_refl _
  | cons c cs ih =>
    refine le_trans ?_ (ih ho.2)
    cases c with
    | saveVote v => exact le_of_lt ho.1
    | sm c => cases c <;> exact le_refl _
    | _ => exact le_refl _

theorem RInv.vote_step {g0 : Gh} {a0 : IOId} {s0 c0 : Option LogId} {P S P' S' : List Cmd} {n n' : Node}
    (h : RInv g0 a0 s0 c0 P S n) (h' : RInv g0 a0 s0 c0 P' S' n') (hp : P <+: P') : n.disk.vote ≤ n'.disk.vote := by
  obtain ⟨r, rfl⟩ := hp
  have ho := h'.oks
  rw [h.d.vote, h'.d.vote, Gh.runs_append]
  rw [Gh.oks_append, Gh.oks_append] at ho
  exact vote_runs_le ho.1.2

theorem RInv.vote_crash {g0 : Gh} {a0 : IOId} {s0 c0 : Option LogId} {P S : List Cmd} {n : Node}
    (_ : RInv g0 a0 s0 c0 P S n) (k : Nat) : (n.crashDisk k).vote = n.disk.vote := write_vote _ _

/-- the invariant of a life -/
theorem Life.inv {dbg : Bool} {cfg : Cfg} {old : List Resp} {n : Node} (h : Life dbg cfg old n) :
    (∃ g0 a0 s0 c0 P S, RInv g0 a0 s0 c0 P S n) ∧
    ((old ++ n.sent.map (·.2.2)).filterMap voteOf).Pairwise (· ≤ ·) ∧
    ∀ v ∈ (old ++ n.sent.map (·.2.2)).filterMap voteOf, v ≤ n.disk.vote := by
  induction h with
  | fresh now persist => exact ⟨⟨_, _, _, _, _, _, RInv.fresh cfg now persist⟩, List.Pairwise.nil, fun v hv => by cases hv⟩
  | @step old n n' ev _ ho hs ih =>
    obtain ⟨⟨g0, a0, s0, c0, P, S, hi⟩, h1, h2⟩ := ih
    obtain ⟨P', S', k1, k2, k3⟩ := hi.step ho hs
    have hv := hi.vote_step k1 k3
    refine ⟨⟨g0, a0, s0, c0, P', S', k1⟩, ?_⟩
    rcases RInv.sent_step hs with h3 | ⟨w, tx, r, _, hc, _, h3⟩
    · rw [h3]
      exact ⟨h1, fun v hv' => le_trans (h2 v hv') hv⟩
    · have hs' : n'.sent = n.sent ++ [(n.done, tx, r)] := by rw [h3]
      rw [hs', List.map_append, ← List.append_assoc, List.filterMap_append]
      cases hvo : voteOf r with
      | none =>
        have h0 : ([(n.done, tx, r)].map (·.2.2)).filterMap voteOf = [] := by simp [hvo]
        rw [h0, List.append_nil]
        exact ⟨h1, fun v hv' => le_trans (h2 v hv') hv⟩
      | some v =>
        have h0 : ([(n.done, tx, r)].map (·.2.2)).filterMap voteOf = [v] := by simp [hvo]
        have hd := hi.sent_vote hc hvo
        rw [h0]
        refine ⟨List.pairwise_append.2 ⟨h1, List.pairwise_singleton _ _, fun a ha b hb => ?_⟩, fun x hx => ?_⟩
        · cases List.mem_singleton.1 hb
          rw [← hd]; exact h2 a ha
        · rcases List.mem_append.1 hx with hx | hx
          · exact le_trans (h2 x hx) hv
          · cases List.mem_singleton.1 hx
            rw [← hd]; exact hv
  | @crash old n n' k now _ hf hr ih =>
    obtain ⟨⟨g0, a0, s0, c0, P, S, hi⟩, h1, h2⟩ := ih
    obtain ⟨st, store, s2, base, _, _, k1, _, k2, _, _⟩ := restart_inv (hi.crash_ok k) hf hr
    have hsent : n'.sent = [] := by
      unfold restart at hr
      simp only [bind, Except.bind] at hr
      split at hr
      · cases hr
      · split at hr
        · cases hr
        · simp only [pure, Except.pure, Except.ok.injEq] at hr
          rw [← hr]; rfl
    refine ⟨⟨_, _, _, _, _, _, k1⟩, ?_⟩
    rw [hsent, List.map_nil, List.append_nil]
    refine ⟨h1, fun v hv => ?_⟩
    rw [k2]
    show v ≤ (n.crashDisk k).vote
    rw [hi.vote_crash]; exact h2 v hv

end Openraft.Runtime

namespace Openraft.Runtime.Demo
open Openraft.Engine Openraft.Runtime

instance (a b : Option LogId) : Decidable (LeI a b) := inferInstanceAs (Decidable (_ ∧ _))
instance (a b : Option LogId) : Decidable (Le2 a b) := inferInstanceAs (Decidable (_ ∨ _))
instance (st : LogStore) (x : LogId) : Decidable (Beyond st x) := inferInstanceAs (Decidable (_ ∧ _))

/-- decide that the position is beyond the log -/
def beyondB (d : Disk) (s : Sm) : Bool :=
  match s.applied with
  | some x => decide (Beyond d.store x)
  | none => false

/-- decide `Fits` -/
def fitsB (d : Disk) (s : Sm) : Bool :=
  (decide (s.applied = d.store.purged) ||
    match s.applied with
    | some x => decide (x ∈ d.store.entries.map (·.id)) || decide (Beyond d.store x ∧ x.leaderId ≤ d.vote.leaderId ∧
        (s.snap.lastLogId = none ∨ s.snap.lastLogId = some x) ∧ LeI s.mem.logId (some x))
    | none => false) &&
  (beyondB d s || decide (s.snap.lastLogId = none) || decide (s.snap.lastLogId = d.store.purged) ||
    match s.snap.lastLogId with
    | some y => decide (y ∈ d.store.entries.map (·.id))
    | none => false) &&
  decide (Le2 s.snap.lastLogId s.applied) &&
  (beyondB d s || decide ((memsBelow d.store (nextIndex s.applied)).getLast? = some s.mem) ||
    decide (memsBelow d.store (nextIndex s.applied) = [] ∧ LeI s.mem.logId d.store.purged))

theorem beyondB_ok {d : Disk} {s : Sm} (h : beyondB d s = true) : ∃ x, s.applied = some x ∧ Beyond d.store x := by
  unfold beyondB at h
  split at h
  · next x hx => exact ⟨x, hx, of_decide_eq_true h⟩
  · cases h

theorem fitsB_ok {d : Disk} {s : Sm} (h : fitsB d s = true) : Fits d s := by
  unfold fitsB at h
  simp only [Bool.and_eq_true, Bool.or_eq_true, decide_eq_true_eq] at h
  obtain ⟨⟨⟨h1, h2⟩, h3⟩, h4⟩ := h
  refine ⟨?_, ?_, h3, ?_⟩
  · rcases h1 with h1 | h1
    · exact Or.inl h1
    · right
      split at h1
      · next x hx =>
        simp only [Bool.or_eq_true, decide_eq_true_eq] at h1
        exact ⟨x, hx, h1⟩
      · cases h1
  · rcases h2 with ((h2 | h2) | h2) | h2
    · exact Or.inl (beyondB_ok h2)
    · exact Or.inr (Or.inl h2)
    · exact Or.inr (Or.inr (Or.inl h2))
    · right; right; right
      split at h2
      · next y hy => exact ⟨y, hy, of_decide_eq_true h2⟩
      · cases h2
  · rcases h4 with (h4 | h4) | h4
    · exact Or.inl (beyondB_ok h4)
    · exact Or.inr (Or.inl h4)
    · exact Or.inr (Or.inr h4)

/-- the node after a crash that kept `k` writes, the old one if it does not start -/
def reborn (dbg : Bool) (now : Nat) (cfg : Cfg) (n : Node) (k : Nat) : Node :=
  match restart dbg now cfg (n.crashDisk k) n.sm with
  | .ok n' => n'
  | .error _ => n

theorem reborn_ok {dbg : Bool} {now : Nat} {cfg : Cfg} {n : Node} {k : Nat} (h : stops (restart dbg now cfg (n.crashDisk k) n.sm) = none) :
    restart dbg now cfg (n.crashDisk k) n.sm = .ok (reborn dbg now cfg n k) := by
  unfold reborn
  cases h1 : restart dbg now cfg (n.crashDisk k) n.sm with
  | ok x => rfl
  | error x => rw [h1] at h; cases h

end Openraft.Runtime.Demo
