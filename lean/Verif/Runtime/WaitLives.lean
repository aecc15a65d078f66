import Verif.Runtime.Progress

/-!
# Lives of a node in which no command waits for ever, and one in which a command does
-/

namespace Openraft.Runtime
open Openraft.Engine
open Openraft.Repl (Panic dassert)

variable {dbg : Bool} {cfg : Cfg} {old : List Resp} {n n' : Node}

/-- a life in which the recorded positions do not go back -/
inductive SLife (dbg : Bool) (cfg : Cfg) : Node → Prop
  | fresh (now : Nat) (persist : Bool) : SLife dbg cfg (Node.fresh cfg now persist)
  | step {n n' : Node} (ev : Ev) : SLife dbg cfg n → EvOk n ev → n.step dbg ev = .ok n' → Steady n n' → SLife dbg cfg n'
  | crash {n n' : Node} (k now : Nat) : SLife dbg cfg n → Fits (n.crashDisk k) n.sm.reboot →
      restart dbg now cfg (n.crashDisk k) n.sm = .ok n' → SLife dbg cfg n'

theorem SLife.waits (h : SLife dbg cfg n) : WaitsOk n := by
  induction h with
  | fresh now persist => exact WaitsOk.fresh _ _ _
  | step ev _ ho hr hs ih => exact ih.step ho hs hr
  | crash k now _ hf hr ih =>
    obtain ⟨g0, a0, s0, c0, P, S, hi, _⟩ := ih
    exact WaitsOk.restart (hi.crash_ok k) hf hr

/-- the lives of debug builds are such lives -/
theorem Life.steady (h : Life true cfg old n) : SLife true cfg n := by
  induction h with
  | fresh now persist => exact .fresh _ _
  | step ev _ ho hr ih => exact .step ev ih ho hr (step_view hr).steady
  | crash k now _ hf hr ih => exact .crash k now ih hf hr

/-- what holds of a node that installed no snapshot since it was started -/
def CalmOk (n : Node) : Prop := ∃ g0 a0 s0 c0 P S, RInv g0 a0 s0 c0 P S n ∧ Waits a0 n ∧ g0.vote ≤ a0.vote ∧ KInv a0 n

theorem KInv.boot {a0 : IOId} {e : Eng} {d : Disk} {s : Sm} (hf : e.st.io.prog.flushed = some a0) : KInv a0 (Node.boot e d s) :=
  ⟨⟨a0, hf, Chain.one a0⟩, fun _ _ hm => (by cases hm), fun _ _ hm => (by cases hm), fun m hm => by rcases hm with hm | hm <;> cases hm⟩

theorem CalmOk.waits (h : CalmOk n) : WaitsOk n := by
  obtain ⟨g0, a0, s0, c0, P, S, hi, hw, hv, _⟩ := h
  exact ⟨g0, a0, s0, c0, P, S, hi, hw, hv⟩

theorem CalmOk.step {ev : Ev} (h : CalmOk n) (hb : BuildInv n) (hc : Calm n) (ho : EvOk n ev) (hr : n.step dbg ev = .ok n') : CalmOk n' := by
  obtain ⟨g0, a0, s0, c0, P, S, hi, hw, hv, hk⟩ := h
  obtain ⟨P', S', k1, _, _⟩ := hi.step ho hr
  obtain ⟨k2, k3⟩ := hk.step hi hb hc hr
  exact ⟨g0, a0, s0, c0, P', S', k1, hw.step k1 k3 hr, hv, k2⟩

theorem Calm.back {ev : Ev} (h : Calm n') (hr : n.step dbg ev = .ok n') : Calm n :=
  fun m io hm => h m io ((step_view hr).out.subset hm)

/-- a node that installs no snapshot -/
theorem Life.calm (h : Life dbg cfg old n) (hc : Calm n) : CalmOk n := by
  induction h with
  | fresh now persist =>
    exact ⟨_, _, _, _, _, _, RInv.fresh cfg now persist, Waits.fresh cfg now persist, le_refl _, KInv.boot rfl⟩
  | step ev hl ho hr ih => exact (ih (hc.back hr)).step hl.build (hc.back hr) ho hr
  | @crash old n n' k now hl hf hr _ =>
    obtain ⟨⟨g0, a0, s0, c0, P, S, hi⟩, _⟩ := hl.inv
    obtain ⟨st, store, s2, base, e, h1, h2, h3, h4, h5, h6, _⟩ := restart_base (hi.crash_ok k) hf hr
    obtain ⟨hw, hfl⟩ := Waits.restarted h2 h3 h5 h6
    subst h5
    exact ⟨_, _, _, _, _, _, h3, hw, le_refl _, KInv.boot hfl⟩

/-! ## A command that waits for ever -/

/-- the first command waits for an IO and nothing that is under way can report one -/
structure Frozen (n : Node) : Prop where
  head : ∃ c io, n.head = some c ∧ c.condition = some (.ioFlushed io) ∧ n.flushed < some io
  pend : n.pend = []
  smq : n.smq = []
  rx : ∀ x ∈ n.rx, (∀ io, x ≠ .localIO io) ∧ ∀ io m, x ≠ .installed io m

theorem Frozen.not_ready (h : Frozen n) : ∃ c, n.head = some c ∧ n.ready c = false := by
  obtain ⟨c, io, h1, h2, h3⟩ := h.head
  refine ⟨c, h1, ?_⟩
  have h3 : n.eng.st.io.prog.flushed < some io := h3
  simp [Node.ready, h2, Node.holds, h3]

theorem Frozen.step {ev : Ev} (h : Frozen n) (hr : n.step dbg ev = .ok n') : Frozen n' ∧ n'.done = n.done := by
  have hgrow : n.eng.out <+: n'.eng.out := (step_view hr).out
  have hkeep : n'.done = n.done → n'.flushed = n.flushed → ∃ c io, n'.head = some c ∧ c.condition = some (.ioFlushed io) ∧ n'.flushed < some io := by
    intro h1 h2
    obtain ⟨c, io, k1, k2, k3⟩ := h.head
    refine ⟨c, io, ?_, k2, by rw [h2]; exact k3⟩
    unfold Node.head at k1 ⊢
    rw [h1]
    obtain ⟨cs, hcs⟩ := hgrow
    rw [← hcs, List.getElem?_append_left (List.getElem?_eq_some_iff.1 k1).1]; exact k1
  cases step_view hr with
  | none ev h1 _ => subst h1; exact ⟨h, rfl⟩
  | run c n1 h1 h2 _ _ =>
    obtain ⟨c', k1, k2⟩ := h.not_ready
    rw [h1] at k1; cases k1
    rw [h2] at k2; cases k2
  | input ev _ _ h2 h3 _ =>
    have q1 : n'.done = n.done := congrArg (·.1) h2
    have q2 : n'.rx = n.rx := congrArg (·.2.1) h2
    have q3 : n'.pend = n.pend := congrArg (·.2.2.1) h2
    have q4 : n'.smq = n.smq := congrArg (·.2.2.2.1) h2
    exact ⟨⟨hkeep q1 (congrArg (·.1) h3), q3.trans h.pend, q4.trans h.smq, by rw [q2]; exact h.rx⟩, q1⟩
  | note now x xs _ h1 h2 h3 _ _ =>
    have q1 : n'.done = n.done := congrArg (·.1) h2
    have q2 : n'.rx = xs := congrArg (·.2.1) h2
    have q3 : n'.pend = n.pend := congrArg (·.2.2.1) h2
    have q4 : n'.smq = n.smq := congrArg (·.2.2.2.1) h2
    have hx := h.rx x (by rw [h1]; simp)
    have q5 : n'.flushed = n.flushed := by
      have : n'.flushed = _ := congrArg (·.1) h3
      rw [this]
      cases x with
      | localIO io => exact absurd rfl (hx.1 io)
      | installed io m => exact absurd rfl (hx.2 io m)
      | _ => rfl
    exact ⟨⟨hkeep q1 q5, q3.trans h.pend, q4.trans h.smq, fun y hy => h.rx y (by rw [h1]; rw [q2] at hy; exact List.mem_cons_of_mem _ hy)⟩, q1⟩
  | flush op ops h1 _ => rw [h.pend] at h1; cases h1
  | apply a u q es h1 _ _ _ _ _ _ _ => rw [h.smq] at h1; cases h1
  | install m io q h1 _ _ _ _ _ _ => rw [h.smq] at h1; cases h1
  | startBuild q h1 _ => rw [h.smq] at h1; cases h1
  | build k m h1 h2 h3 h4 h5 h6 h7 =>
    refine ⟨⟨hkeep h6 (by unfold Node.flushed; rw [h7]), h4.trans h.pend, h5.trans h.smq, ?_⟩, h6⟩
    intro y hy
    rw [h2] at hy
    rcases List.mem_append.1 hy with hy | hy
    · exact h.rx y hy
    · rw [List.mem_singleton.1 hy]; exact ⟨fun _ hk => (by cases hk), fun _ _ hk => (by cases hk)⟩

theorem Frozen.sent {ev : Ev} (h : Frozen n) (hr : n.step dbg ev = .ok n') : n'.sent = n.sent := by
  rcases RInv.sent_step hr with h1 | ⟨w, tx, r, h1, h2, h3, h4⟩
  · exact h1
  · exfalso
    obtain ⟨c, k1, k2⟩ := h.not_ready
    grind

theorem Frozen.run (h : Frozen n) (hr : Node.Run dbg n n') : Frozen n' ∧ n'.done = n.done ∧ n'.sent = n.sent := by
  induction hr with
  | refl => exact ⟨h, rfl, rfl⟩
  | step ev _ _ hs ih =>
    obtain ⟨k1, k2, k3⟩ := ih
    obtain ⟨k4, k5⟩ := k1.step hs
    exact ⟨k4, k5.trans k2, (k1.sent hs).trans k3⟩

end Openraft.Runtime
