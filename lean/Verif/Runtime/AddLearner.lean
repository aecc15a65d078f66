import Verif.Runtime.Metrics
import Mathlib.Logic.Relation

/-!
# `Raft::add_learner`

The call asks the core to add a learner, and then, if it is blocking, waits on the metrics of the node until the learner is up to date.

Simplifications: the time the call waits at most (100 years, `raft/mod.rs:1001`) is any number; the text that is logged is left out.
-/

set_option autoImplicit false

namespace Openraft.Runtime
open Openraft.Engine
open Openraft.Cluster (Payload)
open Openraft.Rt (Watch Waiter)

/-- `replication_lag`, `core/replication_state.rs:5-7` -/
def replicationLag (matched last : Option Nat) : Nat := after? last - after? matched

/-- `Raft::check_replication_upto_date`, `raft/mod.rs:771-815`, with `config.replication_lag_threshold`. `none`: keep waiting. -/
def checkUpToDate (threshold : Nat) (m : Metrics) (id : NodeId) (memLogId : Option LogId) : Option (Option LogId) :=
  if m.mem.logId < memLogId then none
  else if m.mem.mem.contains id = false then some none
  else match m.replication with
    | none => some none
    | some repl =>
      match repl.lookup id with
      | none => none
      | some matched => if replicationLag (matched.map (·.index)) m.lastLogIndex ≤ threshold then some matched else none

/-- the test of the wait, `raft/impl_raft_blocking_write.rs:157-162` -/
def learnerTest (threshold : Nat) (id : NodeId) (log : LogId) (m : Metrics) : Bool := (checkUpToDate threshold m id (some log)).isSome

/-- what `Raft::add_learner` returns, if it returns: the answer of the core, with `t` the wait,
`raft/impl_raft_blocking_write.rs:143-175`. What the wait returns is not looked at. -/
def addLearner (blocking : Bool) (me id : NodeId) (resp : Ent) (t : Waiter Metrics) : Option Ent :=
  if blocking = false then some resp
  else if me = id then some resp
  else match t.at_ with
    | .done _ => some resp
    | _ => none

/-- a process and a call of `add_learner` that was answered with `log` by the core and now waits: the answer is in `replies` when it
begins to wait -/
inductive Adding (dbg : Bool) (threshold : Nat) (id : NodeId) (log : LogId) (m : Membership) (n0 : Node) :
    Node × Watch Metrics → Waiter Metrics → Prop
  | begin {s : Node × Watch Metrics} (tx timeoutAt seen : Nat) : Reporting dbg n0 s → seen ≤ s.2.ver →
      (tx, some ⟨log, .membership m⟩) ∈ s.1.replies → Adding dbg threshold id log m n0 s (.start timeoutAt seen)
  | next {s s' : Node × Watch Metrics} {t : Waiter Metrics} : Adding dbg threshold id log m n0 s t → RepStep dbg s s' →
      Adding dbg threshold id log m n0 s' t
  | poll {s : Node × Watch Metrics} {t : Waiter Metrics} (now : Nat) : Adding dbg threshold id log m n0 s t →
      Adding dbg threshold id log m n0 s (t.poll (learnerTest threshold id log) s.2 now)

section
variable {dbg : Bool} {threshold : Nat} {id : NodeId} {log : LogId} {m : Membership} {n0 : Node} {s : Node × Watch Metrics} {t : Waiter Metrics}

theorem Adding.asking (h : Adding dbg threshold id log m n0 s t) : Asking dbg (learnerTest threshold id log) n0 s t := by
  induction h with
  | begin tx timeoutAt seen h hs _ => exact .begin timeoutAt seen h hs
  | next _ hs ih => exact .next ih hs
  | poll now _ ih => exact .poll now ih

theorem Adding.reporting (h : Adding dbg threshold id log m n0 s t) : Reporting dbg n0 s := by
  induction h with
  | begin _ _ _ h _ _ => exact h
  | next _ hs ih => exact .next ih hs
  | poll _ _ ih => exact ih

/-- a report with a replication part was made by the loop of the node, at a moment of this process -/
theorem Reporting.made (h : Reporting dbg n0 s) : ∀ x ∈ s.2.values, ∀ r, x.replication = some r →
    ∃ s1, Reporting dbg n0 s1 ∧ Relation.ReflTransGen (RepStep dbg) s1 s ∧ x = flushMetrics s1.1.eng := by
  induction h with
  | start =>
    intro x hx r hr
    have : x = .initial n0.eng.cfg.id := by simpa [Watch.values] using hx
    subst this; cases hr
  | @next s s' h hs ih =>
    intro x hx r hr
    have hold : x ∈ s.2.values → ∃ s1, Reporting dbg n0 s1 ∧ Relation.ReflTransGen (RepStep dbg) s1 s' ∧ x = flushMetrics s1.1.eng := by
      intro hx
      obtain ⟨s1, k1, k2, k3⟩ := ih x hx r hr
      exact ⟨s1, k1, k2.tail hs, k3⟩
    cases hs with
    | step ev _ _ _ => exact hold hx
    | first _ =>
      rw [send_values] at hx
      rcases List.mem_append.1 hx with hx | hx
      · exact hold hx
      · cases List.mem_singleton.1 hx; cases hr
    | @flush n w hc =>
      rw [send_values] at hx
      rcases List.mem_append.1 hx with hx | hx
      · exact hold hx
      · cases List.mem_singleton.1 hx; exact ⟨(n, w), h, .single (.flush hc), rfl⟩
    | stop _ =>
      simp only [Watch.values, Watch.send, List.mem_cons, List.mem_append, List.not_mem_nil, or_false] at hx
      rcases hx with hx | (hx | hx) | hx
      · exact hold (by simp [Watch.values, hx])
      · exact hold (by simp [Watch.values, hx])
      · subst hx; cases hr
      · subst hx; cases hr

end

/-- a call whose condition is met by the current value returns after two polls, before its deadline -/
theorem _root_.Openraft.Rt.WInv.wakes {α : Type} {f : α → Bool} {w : Watch α} {t : Waiter α} (h : Rt.WInv f w t) (hf : f w.val = true)
    (hn : ∀ r, t.at_ ≠ .done r) {now1 now2 : Nat} (h1 : now1 < t.timeoutAt) : ((t.poll f w now1).poll f w now2).at_ = .done (.ok w.val) := by
  cases ha : t.at_ with
  | done r => exact absurd ha (hn r)
  | asks =>
    have h3 : t.poll f w now1 = { t with at_ := .done (.ok w.val) } := by
      unfold Waiter.poll; rw [ha]; simp only; rw [if_pos hf]
    rw [h3]; rfl
  | sleeps latest =>
    obtain ⟨k1, _, k3⟩ := h.sleeps latest ha
    have hne : t.seen ≠ w.ver := by
      intro he
      rw [k3 he, k1] at hf; cases hf
    have h3 : t.poll f w now1 = { t with seen := w.ver, at_ := .asks } := by
      unfold Waiter.poll; rw [ha]; simp only
      rw [if_neg (by omega), if_pos hne]
    rw [h3]
    unfold Waiter.poll
    simp only
    rw [if_pos hf]

end Openraft.Runtime
