import Verif.Runtime.Metrics
import Mathlib.Logic.Relation

/-!
# The three metrics channels

`RaftCore::report_metrics` sends to three channels: first the data metrics and the server metrics, each only if it is another value, then the metrics, always.
Readers see the channels at any moment, also between two of these.

Simplifications: the times (`millis_since_quorum_ack`, `last_quorum_acked`, `heartbeat`) are any values in a report (what they are: C24, C58); `running_state` is left out.
-/

set_option autoImplicit false

namespace Openraft.Runtime
open Openraft.Engine
open Openraft.Rt (Watch)

/-- the times in a report, `core/raft_core.rs:554-555` and the argument `heartbeat` -/
structure Times where
  millis : Option Nat
  acked : Option Nat
  heartbeat : Option (List (NodeId × Option Nat))
deriving DecidableEq

/-- `RaftDataMetrics`, `metrics/raft_metrics.rs:188-238` -/
structure DataM where
  lastLog : Option LogId
  lastApplied : Option LogId
  snapshot : Option LogId
  purged : Option LogId
  times : Times
  replication : Option (List (NodeId × Option LogId))
deriving DecidableEq

/-- `RaftServerMetrics`, `metrics/raft_metrics.rs:278-288` -/
structure ServerM where
  id : NodeId
  vote : Vote
  state : Published
  currentLeader : Option NodeId
  mem : StoredMem
deriving DecidableEq

/-- the values with which the channels are made, `raft/mod.rs:249-250`: `Default`, so the id is not the one of the node, and the state is `Learner` -/
def DataM.initial : DataM := ⟨none, none, none, none, ⟨none, none, none⟩, none⟩
def ServerM.initial : ServerM := ⟨0, ⟨⟨0, 0⟩, false⟩, .as .learner, none, .empty⟩

/-- what one call of `report_metrics` computes, `core/raft_core.rs:563-605` -/
structure Report where
  full : Metrics
  data : DataM
  server : ServerM
deriving DecidableEq

/-- `core/raft_core.rs:549-605` -/
def report (e : Eng) (replication : Option (List (NodeId × Option LogId))) (t : Times) : Report :=
  { full := reportWith e replication
    data :=
      { lastLog := e.st.lastLogId
        lastApplied := e.st.io.applied
        snapshot := e.st.io.snapshot
        purged := e.st.io.purged
        times := t
        replication := replication }
    server :=
      { id := e.cfg.id
        vote := (e.st.io.prog.flushed.map (·.vote)).getD ⟨⟨0, 0⟩, false⟩
        state := .as e.st.server
        currentLeader := leaderOf e
        mem := e.st.ms.effective } }

/-- `send_if_modified` as it is used in `core/raft_core.rs:612-626` -/
def sendIfNew {α : Type} [DecidableEq α] (w : Watch α) (a : α) : Watch α := if a ≠ w.val then w.send a else w

/-- where `report_metrics` is: which channel is next; `last`: it is the call at the end of `main` -/
inductive Stage where
  | idle
  | data (r : Report) (last : Bool)
  | server (r : Report) (last : Bool)
  | full (r : Report) (last : Bool)
  /-- `core/raft_core.rs:239-246` -/
  | ended (r : Report)
deriving DecidableEq

/-- the channels, and a record of the reports -/
structure Board where
  data : Watch DataM
  server : Watch ServerM
  full : Watch Metrics
  stage : Stage
  reports : List Report

/-- `raft/mod.rs:248-250` -/
def Board.init (id : NodeId) : Board := ⟨⟨.initial, [], false⟩, ⟨.initial, [], false⟩, ⟨.initial id, [], false⟩, .idle, []⟩

/-- `report_metrics` is called -/
def Board.begin (b : Board) (r : Report) (last : Bool) : Board := { b with stage := .data r last, reports := b.reports ++ [r] }

/-- `report_metrics` and the end of `main` go on, `core/raft_core.rs:607-633, 239-246`; after that the senders are dropped -/
def Board.next (b : Board) : Board :=
  match b.stage with
  | .idle => b
  | .data r l => { b with data := sendIfNew b.data r.data, stage := .server r l }
  | .server r l => { b with server := sendIfNew b.server r.server, stage := .full r l }
  | .full r l => { b with full := b.full.send r.full, stage := if l then .ended r else .idle }
  | .ended _ =>
    { b with
      full := { b.full.send b.full.val.ended with closed := true }
      data := { b.data with closed := true }
      server := { b.server with closed := true }
      stage := .idle }

/-- what happens to a node and its three channels while the process is up -/
inductive BStep (dbg : Bool) : Node × Board → Node × Board → Prop
  | step {n n' : Node} {b : Board} (ev : Ev) : b.stage = .idle → b.full.closed = false → EvOk n ev → n.step dbg ev = .ok n' → BStep dbg (n, b) (n', b)
  /-- the first report, `core/raft_core.rs:262` -/
  | first {n : Node} {b : Board} (t : Times) : b.stage = .idle → b.full.closed = false → BStep dbg (n, b) (n, b.begin (report n.eng none t) false)
  /-- `flush_metrics`, `core/raft_core.rs:531-545` -/
  | flush {n : Node} {b : Board} (t : Times) : b.stage = .idle → b.full.closed = false →
      BStep dbg (n, b) (n, b.begin (report n.eng (n.eng.leader.map (·.progress.vp.vector)) t) false)
  /-- the report at the end of `main`, `core/raft_core.rs:228` -/
  | stop {n : Node} {b : Board} (t : Times) : b.stage = .idle → b.full.closed = false → BStep dbg (n, b) (n, b.begin (report n.eng none t) true)
  | send {n : Node} {b : Board} : b.stage ≠ .idle → BStep dbg (n, b) (n, b.next)

/-- a process with its three channels -/
inductive Boards (dbg : Bool) (n0 : Node) : Node × Board → Prop
  | start : Boards dbg n0 (n0, .init n0.eng.cfg.id)
  | next {s s' : Node × Board} : Boards dbg n0 s → BStep dbg s s' → Boards dbg n0 s'

/-! ## The process with one channel -/

/-- a process with three channels is one with the metrics channel, as in C53: between two calls exactly, within a call before it sends the metrics -/
def Refines (dbg : Bool) (n0 : Node) (s : Node × Board) : Prop :=
  match s.2.stage with
  | .idle => Reporting dbg n0 (s.1, s.2.full)
  | .data r l | .server r l | .full r l => Reporting dbg n0 (s.1, s.2.full) ∧ s.2.full.closed = false ∧
      (r.full = reportWith s.1.eng none ∨ l = false ∧ r.full = flushMetrics s.1.eng)
  | .ended r => r.full = reportWith s.1.eng none ∧
      ∃ w : Watch Metrics, w.closed = false ∧ Reporting dbg n0 (s.1, w) ∧ s.2.full = w.send r.full

section
variable {dbg : Bool} {n0 : Node} {s s' : Node × Board}

theorem Boards.refines (h : Boards dbg n0 s) : Refines dbg n0 s := by
  induction h with
  | start => exact .start
  | next _ hs ih =>
    cases hs with
    | step ev hi hc ho hr =>
      unfold Refines at ih ⊢
      simp only [hi] at ih ⊢
      exact ih.next (.step ev hc ho hr)
    | first t hi hc =>
      unfold Refines at ih
      simp only [hi] at ih
      exact ⟨ih, hc, Or.inl rfl⟩
    | flush t hi hc =>
      unfold Refines at ih
      simp only [hi] at ih
      exact ⟨ih, hc, Or.inr ⟨rfl, rfl⟩⟩
    | stop t hi hc =>
      unfold Refines at ih
      simp only [hi] at ih
      exact ⟨ih, hc, Or.inl rfl⟩
    | @send n b hi =>
      unfold Refines at ih
      unfold Refines Board.next
      cases hst : b.stage with
      | idle => exact absurd hst hi
      | data r l => simp only [hst] at ih ⊢; exact ih
      | server r l => simp only [hst] at ih ⊢; exact ih
      | full r l =>
        simp only [hst] at ih ⊢
        obtain ⟨h1, h2, h3⟩ := ih
        cases l with
        | true =>
          rcases h3 with h3 | ⟨h3, _⟩
          · exact ⟨h3, b.full, h2, h1, rfl⟩
          · cases h3
        | false =>
          show Reporting dbg n0 (n, b.full.send r.full)
          rcases h3 with h3 | ⟨_, h3⟩
          · rw [h3]; exact h1.next (.first h2)
          · rw [h3]; exact h1.next (.flush h2)
      | ended r =>
        simp only [hst] at ih ⊢
        obtain ⟨h1, w, h2, h3, h4⟩ := ih
        rw [h4, h1]
        have hv : (w.send (reportWith n.eng none)).val = reportWith n.eng none := Rt.Watch.val_send ..
        rw [hv]
        exact h3.next (.stop h2)

/-! ## Which report is on which channel -/

/-- how many reports have been sent on each channel -/
def Board.dataPos (b : Board) : Nat := match b.stage with | .data _ _ => b.reports.length - 1 | _ => b.reports.length
def Board.serverPos (b : Board) : Nat := match b.stage with | .data _ _ | .server _ _ => b.reports.length - 1 | _ => b.reports.length
def Board.fullPos (b : Board) : Nat := match b.stage with | .data _ _ | .server _ _ | .full _ _ => b.reports.length - 1 | _ => b.reports.length

/-- the value after so many reports -/
def dataAt (rs : List Report) : Nat → DataM
  | 0 => .initial
  | k + 1 => (rs[k]?.map (·.data)).getD .initial
def serverAt (rs : List Report) : Nat → ServerM
  | 0 => .initial
  | k + 1 => (rs[k]?.map (·.server)).getD .initial
def fullAt (id : NodeId) (rs : List Report) : Nat → Metrics
  | 0 => .initial id
  | k + 1 => (rs[k]?.map (·.full)).getD (.initial id)

/-- the report under way is the last one -/
def Stage.isLast (rs : List Report) : Stage → Prop
  | .idle => True
  | .data r _ | .server r _ | .full r _ | .ended r => rs.getLast? = some r

structure BInv (id : NodeId) (b : Board) : Prop where
  last : b.stage.isLast b.reports
  data : b.data.val = dataAt b.reports b.dataPos
  server : b.server.val = serverAt b.reports b.serverPos
  full : b.full.closed = false → b.full.val = fullAt id b.reports b.fullPos
  ended : b.full.closed = true → b.stage = .idle ∧ b.full.val = (fullAt id b.reports b.fullPos).ended
  dataNew : List.IsChain (· ≠ ·) b.data.values
  serverNew : List.IsChain (· ≠ ·) b.server.values

theorem sendIfNew_val {α : Type} [DecidableEq α] (w : Watch α) (a : α) : (sendIfNew w a).val = a := by
  unfold sendIfNew
  split
  · exact Rt.Watch.val_send ..
  · next h => simpa using (Eq.symm (not_not.1 h))

theorem sendIfNew_chain {α : Type} [DecidableEq α] {w : Watch α} {a : α} (h : List.IsChain (· ≠ ·) w.values) :
    List.IsChain (· ≠ ·) (sendIfNew w a).values := by
  unfold sendIfNew
  split
  · next hne =>
    have hv : (w.send a).values = w.values ++ [a] := rfl
    rw [hv, List.isChain_append]
    refine ⟨h, List.isChain_singleton _, ?_⟩
    intro x hx y hy
    have hy : y = a := by simpa using hy.symm
    subst hy
    have hx : w.values.getLast? = some x := hx
    have : w.val = x := by
      unfold Watch.val
      unfold Watch.values at hx
      cases hs : w.sent with
      | nil => rw [hs] at hx; simpa using hx
      | cons c l =>
        rw [hs, List.getLast?_cons_cons] at hx
        rw [hx]; rfl
    rw [← this]; exact fun h => hne h.symm
  · exact h

theorem at_append {rs l : List Report} {k : Nat} (h : k ≤ rs.length) (id : NodeId) :
    dataAt (rs ++ l) k = dataAt rs k ∧ serverAt (rs ++ l) k = serverAt rs k ∧ fullAt id (rs ++ l) k = fullAt id rs k := by
  cases k with
  | zero => exact ⟨rfl, rfl, rfl⟩
  | succ k =>
    simp only [dataAt, serverAt, fullAt]
    rw [List.getElem?_append_left (by omega)]
    exact ⟨rfl, rfl, rfl⟩

theorem at_last {rs : List Report} {r : Report} (h : rs.getLast? = some r) (id : NodeId) :
    dataAt rs rs.length = r.data ∧ serverAt rs rs.length = r.server ∧ fullAt id rs rs.length = r.full := by
  cases rs with
  | nil => cases h
  | cons c l =>
    rw [List.getLast?_eq_getElem?] at h
    have h : (c :: l)[l.length]? = some r := by simpa using h
    show dataAt (c :: l) (l.length + 1) = _ ∧ serverAt (c :: l) (l.length + 1) = _ ∧ fullAt id (c :: l) (l.length + 1) = _
    simp only [dataAt, serverAt, fullAt]
    rw [h]
    exact ⟨rfl, rfl, rfl⟩

theorem BInv.init (id : NodeId) : BInv id (.init id) :=
  ⟨trivial, rfl, rfl, fun _ => rfl, fun h => (by cases h), List.isChain_singleton _, List.isChain_singleton _⟩

theorem BInv.begin {id : NodeId} {b : Board} (h : BInv id b) (hi : b.stage = .idle) (hc : b.full.closed = false) (r : Report) (l : Bool) : BInv id (b.begin r l) := by
  have hl : (b.reports ++ [r]).length - 1 = b.reports.length := by simp
  have ha := at_append (rs := b.reports) (l := [r]) (Nat.le_refl _) id
  refine ⟨by simp [Board.begin, Stage.isLast], ?_, ?_, fun _ => ?_, fun hk => ?_, h.dataNew, h.serverNew⟩
  · show b.data.val = dataAt (b.reports ++ [r]) ((b.reports ++ [r]).length - 1)
    rw [hl, ha.1, h.data]; simp [Board.dataPos, hi]
  · show b.server.val = serverAt (b.reports ++ [r]) ((b.reports ++ [r]).length - 1)
    rw [hl, ha.2.1, h.server]; simp [Board.serverPos, hi]
  · show b.full.val = fullAt id (b.reports ++ [r]) ((b.reports ++ [r]).length - 1)
    rw [hl, ha.2.2, h.full hc]; simp [Board.fullPos, hi]
  · have : b.full.closed = true := hk
    rw [hc] at this; cases this

theorem BInv.next {id : NodeId} {b : Board} (h : BInv id b) (hi : b.stage ≠ .idle) : BInv id b.next := by
  have hc : b.full.closed = false := by
    cases hc : b.full.closed with
    | false => rfl
    | true => exact absurd (h.ended hc).1 hi
  have hd := h.data
  have hs := h.server
  have hf := h.full hc
  have hl := h.last
  unfold Board.next
  cases hst : b.stage with
  | idle => exact absurd hst hi
  | data r l =>
    simp only [hst, Stage.isLast, Board.dataPos, Board.serverPos, Board.fullPos] at hd hs hf hl
    refine ⟨hl, ?_, hs, fun _ => hf, fun hk => absurd hk (by simp [hc]), sendIfNew_chain h.dataNew, h.serverNew⟩
    rw [sendIfNew_val]; exact (at_last hl id).1.symm
  | server r l =>
    simp only [hst, Stage.isLast, Board.dataPos, Board.serverPos, Board.fullPos] at hd hs hf hl
    refine ⟨hl, hd, ?_, fun _ => hf, fun hk => absurd hk (by simp [hc]), h.dataNew, sendIfNew_chain h.serverNew⟩
    rw [sendIfNew_val]; exact (at_last hl id).2.1.symm
  | full r l =>
    simp only [hst, Stage.isLast, Board.dataPos, Board.serverPos, Board.fullPos] at hd hs hf hl
    have hv : (b.full.send r.full).val = fullAt id b.reports b.reports.length := by
      rw [Rt.Watch.val_send]; exact (at_last hl id).2.2.symm
    cases l with
    | true => exact ⟨hl, hd, hs, fun _ => hv, fun hk => absurd hk (by simp [Watch.send, hc]), h.dataNew, h.serverNew⟩
    | false => exact ⟨trivial, hd, hs, fun _ => hv, fun hk => absurd hk (by simp [Watch.send, hc]), h.dataNew, h.serverNew⟩
  | ended r =>
    simp only [hst, Stage.isLast, Board.dataPos, Board.serverPos, Board.fullPos] at hd hs hf hl
    refine ⟨trivial, hd, hs, fun hk => absurd hk (by simp), fun _ => ⟨rfl, ?_⟩, h.dataNew, h.serverNew⟩
    show (b.full.send b.full.val.ended).val = _
    rw [Rt.Watch.val_send, hf]
    rfl

theorem BStep.inv {id : NodeId} (h : BInv id s.2) (hs : BStep dbg s s') : BInv id s'.2 := by
  cases hs with
  | step ev hi hc ho hr => exact h
  | first t hi hc => exact h.begin hi hc _ _
  | flush t hi hc => exact h.begin hi hc _ _
  | stop t hi hc => exact h.begin hi hc _ _
  | send hi => exact h.next hi

theorem Boards.inv (h : Boards dbg n0 s) : BInv n0.eng.cfg.id s.2 := by
  induction h with
  | start => exact .init _
  | next _ hs ih => exact hs.inv ih

/-- what was sent stays sent -/
theorem BStep.grows (hs : BStep dbg s s') : s.2.reports <+: s'.2.reports ∧ s.2.dataPos ≤ s'.2.dataPos ∧ s.2.serverPos ≤ s'.2.serverPos ∧ s.2.fullPos ≤ s'.2.fullPos := by
  cases hs with
  | step ev hi hc ho hr => exact ⟨List.prefix_refl _, Nat.le_refl _, Nat.le_refl _, Nat.le_refl _⟩
  | first t hi hc => simp [Board.begin, Board.dataPos, Board.serverPos, Board.fullPos, hi]
  | flush t hi hc => simp [Board.begin, Board.dataPos, Board.serverPos, Board.fullPos, hi]
  | stop t hi hc => simp [Board.begin, Board.dataPos, Board.serverPos, Board.fullPos, hi]
  | @send n b hi =>
    unfold Board.next
    cases hst : b.stage with
    | idle => exact absurd hst hi
    | full r l => cases l <;> simp [Board.dataPos, Board.serverPos, Board.fullPos, hst]
    | _ => simp [Board.dataPos, Board.serverPos, Board.fullPos, hst]

theorem grows_trans (h : Relation.ReflTransGen (BStep dbg) s s') :
    s.2.reports <+: s'.2.reports ∧ s.2.dataPos ≤ s'.2.dataPos ∧ s.2.serverPos ≤ s'.2.serverPos ∧ s.2.fullPos ≤ s'.2.fullPos := by
  induction h with
  | refl => exact ⟨List.prefix_refl _, Nat.le_refl _, Nat.le_refl _, Nat.le_refl _⟩
  | tail _ hs ih =>
    obtain ⟨a, b, c, d⟩ := hs.grows
    exact ⟨ih.1.trans a, ih.2.1.trans b, ih.2.2.1.trans c, ih.2.2.2.trans d⟩

theorem Board.pos_le (b : Board) : b.fullPos ≤ b.serverPos ∧ b.serverPos ≤ b.dataPos ∧ b.dataPos ≤ b.reports.length ∧ b.dataPos ≤ b.fullPos + 1 := by
  unfold Board.fullPos Board.serverPos Board.dataPos
  cases b.stage <;> simp <;> omega

end

end Openraft.Runtime
