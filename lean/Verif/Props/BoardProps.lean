import Verif.Runtime.Boards
import Verif.Props.LearnerProps

/-!
# C63: the three metrics channels agree

All processes (`Boards`): a node, its reports, and the steps of a report; a reader may look at a channel at any moment.
-/

set_option autoImplicit false

namespace Openraft.Props
open Openraft.Engine Openraft.Runtime
open Openraft.Rt (Watch)
open Openraft.Runtime.Demo (runTo run_of_allOk)

/-- data metrics and server metrics are a part of the metrics (`metrics/raft_metrics.rs:188, 278`: "subset of RaftMetrics") -/
structure Agrees (m : Metrics) (d : DataM) (s : ServerM) : Prop where
  id : s.id = m.id
  vote : s.vote = m.vote
  state : s.state = m.state
  leader : s.currentLeader = m.currentLeader
  mem : s.mem = m.mem
  last : d.lastLog.map (·.index) = m.lastLogIndex
  applied : d.lastApplied = m.lastApplied
  snapshot : d.snapshot = m.snapshot
  purged : d.purged = m.purged
  replication : d.replication = m.replication

/-- **C63.** After the first report, whenever no report is under way, the three channels agree. -/
def C63_statement : Prop := ∀ (dbg : Bool) (n0 n : Node) (b : Board), Boards dbg n0 (n, b) → b.stage = .idle → b.reports ≠ [] →
  Agrees b.full.val b.data.val b.server.val

section
variable {dbg : Bool} {n0 n : Node} {b : Board} {s s' : Node × Board}

/-- every report agrees with itself, and has a state of the node -/
theorem report_agrees (h : Boards dbg n0 s) : ∀ r ∈ s.2.reports, Agrees r.full r.data r.server ∧ r.full.state ≠ .shutdown := by
  have hr : ∀ (e : Eng) x t, Agrees (report e x t).full (report e x t).data (report e x t).server ∧ (report e x t).full.state ≠ .shutdown :=
    fun e x t => ⟨⟨rfl, rfl, rfl, rfl, rfl, rfl, rfl, rfl, rfl, rfl⟩, fun h => by cases h⟩
  have hadd : ∀ {b : Board} {e : Eng} {x t l}, (∀ r ∈ b.reports, Agrees r.full r.data r.server ∧ r.full.state ≠ .shutdown) →
      ∀ r ∈ (b.begin (report e x t) l).reports, Agrees r.full r.data r.server ∧ r.full.state ≠ .shutdown := by
    intro b e x t l ih r hm
    rcases List.mem_append.1 hm with hm | hm
    · exact ih r hm
    · cases List.mem_singleton.1 hm; exact hr e x t
  induction h with
  | start => intro r hm; cases hm
  | next _ hs ih =>
    cases hs with
    | step ev hi hc ho hr => exact ih
    | first t hi hc => exact hadd ih
    | flush t hi hc => exact hadd ih
    | stop t hi hc => exact hadd ih
    | @send n b hi =>
      have : b.next.reports = b.reports := by unfold Board.next; cases b.stage <;> rfl
      show ∀ r ∈ b.next.reports, _
      rw [this]; exact ih

theorem at_some {rs : List Report} (h : rs ≠ []) (id : NodeId) :
    ∃ r ∈ rs, dataAt rs rs.length = r.data ∧ serverAt rs rs.length = r.server ∧ fullAt id rs rs.length = r.full :=
  ⟨rs.getLast h, List.getLast_mem h, at_last (List.getLast?_eq_some_getLast h) id⟩

/-- **C63, until the node ends.**

Missing for C63: after the end of the node the metrics have the state `Shutdown`, the server metrics do not (`C63_false`, `C63_ended`). -/
theorem C63_agree_partial (h : Boards dbg n0 (n, b)) (hi : b.stage = .idle) (hr : b.reports ≠ []) (hc : b.full.closed = false) :
    Agrees b.full.val b.data.val b.server.val := by
  have k := h.inv
  obtain ⟨r, hm, h1, h2, h3⟩ := at_some hr n0.eng.cfg.id
  have kd := k.data
  have ks := k.server
  have kf := k.full hc
  simp only [Board.dataPos, Board.serverPos, Board.fullPos, hi] at kd ks kf
  rw [kd, ks, kf, h1, h2, h3]
  exact (report_agrees h r hm).1

/-- **C63, after the end of the node**: the channels agree but for the state; the server metrics have a state of a node that is up. -/
theorem C63_ended (h : Boards dbg n0 (n, b)) (hr : b.reports ≠ []) (hc : b.full.closed = true) :
    b.full.val.state = .shutdown ∧ b.server.val.state ≠ .shutdown ∧
    Agrees { b.full.val with state := b.server.val.state } b.data.val b.server.val := by
  have k := h.inv
  obtain ⟨hi, kf⟩ := k.ended hc
  have hi : b.stage = .idle := hi
  obtain ⟨r, hm, h1, h2, h3⟩ := at_some hr n0.eng.cfg.id
  have kd := k.data
  have ks := k.server
  simp only [Board.dataPos, Board.serverPos, Board.fullPos, hi] at kd ks kf
  obtain ⟨ha, hs⟩ := report_agrees h r hm
  rw [kd, ks, kf, h1, h2, h3]
  refine ⟨rfl, fun he => hs (ha.state ▸ he), ⟨ha.id, ha.vote, rfl, ha.leader, ha.mem, ha.last, ha.applied, ha.snapshot, ha.purged, ha.replication⟩⟩

/-- **C63, the order.** Who has seen the metrics of a report finds, then or later, data metrics and server metrics of this report or a later one. That is
what the comment `core/raft_core.rs:607-610` says. -/
theorem C63_order (h : Boards dbg n0 s) (hl : Relation.ReflTransGen (BStep dbg) s s') :
    ∃ i j k, i ≤ j ∧ j ≤ k ∧ k ≤ s'.2.reports.length ∧
      (s.2.full.val = fullAt n0.eng.cfg.id s'.2.reports i ∨ s.2.full.val = (fullAt n0.eng.cfg.id s'.2.reports i).ended) ∧
      s'.2.server.val = serverAt s'.2.reports j ∧ s'.2.data.val = dataAt s'.2.reports k := by
  have h' : Boards dbg n0 s' := by
    induction hl with
    | refl => exact h
    | tail _ hs ih => exact ih.next hs
  have k := h.inv
  have k' := h'.inv
  obtain ⟨⟨l, hp⟩, _, _, gf⟩ := grows_trans hl
  have p := s.2.pos_le
  have p' := s'.2.pos_le
  have hat := (at_append (rs := s.2.reports) (l := l) (k := s.2.fullPos) (by omega) n0.eng.cfg.id).2.2
  rw [hp] at hat
  refine ⟨s.2.fullPos, s'.2.serverPos, s'.2.dataPos, by omega, by omega, by omega, ?_, k'.server, k'.data⟩
  rw [hat]
  cases hc : s.2.full.closed with
  | false => exact Or.inl (k.full hc)
  | true => exact Or.inr (k.ended hc).2

/-- **C63, the data metrics are not ahead by more than one report.** -/
theorem C63_ahead (h : Boards dbg n0 s) : ∃ i k, i ≤ k ∧ k ≤ i + 1 ∧
    (s.2.full.val = fullAt n0.eng.cfg.id s.2.reports i ∨ s.2.full.val = (fullAt n0.eng.cfg.id s.2.reports i).ended) ∧
    s.2.data.val = dataAt s.2.reports k := by
  have k := h.inv
  have p := s.2.pos_le
  refine ⟨s.2.fullPos, s.2.dataPos, by omega, by omega, ?_, k.data⟩
  cases hc : s.2.full.closed with
  | false => exact Or.inl (k.full hc)
  | true => exact Or.inr (k.ended hc).2

/-- **C63, only changes.** Two values that follow each other on the channel of the data metrics, or of the server metrics, are different: a receiver is not
woken for nothing. -/
theorem C63_changes (h : Boards dbg n0 s) : (∀ i a b, s.2.data.values[i]? = some a → s.2.data.values[i + 1]? = some b → a ≠ b) ∧
    (∀ i a b, s.2.server.values[i]? = some a → s.2.server.values[i + 1]? = some b → a ≠ b) := by
  have hch : ∀ {α : Type} {l : List α}, List.IsChain (· ≠ ·) l → ∀ i a b, l[i]? = some a → l[i + 1]? = some b → a ≠ b := by
    intro α l hl i a b ha hb
    obtain ⟨h1, rfl⟩ := List.getElem?_eq_some_iff.1 ha
    obtain ⟨h2, rfl⟩ := List.getElem?_eq_some_iff.1 hb
    exact List.isChain_iff_getElem.1 hl i h2
  exact ⟨hch h.inv.dataNew, hch h.inv.serverNew⟩

/-- **C63, one channel.** Between two reports the node and the metrics channel are a process of C53, so what is proved there holds. -/
theorem C63_refines (h : Boards dbg n0 (n, b)) (hi : b.stage = .idle) : Reporting dbg n0 (n, b.full) := by
  have := h.refines
  unfold Refines at this
  simp only [hi] at this
  exact this

end

/-! ## Concrete cases -/

theorem boards_run {dbg : Bool} {n0 n n' : Node} {b : Board} (h : Boards dbg n0 (n, b)) (hi : b.stage = .idle) (hc : b.full.closed = false)
    (hr : Node.Run dbg n n') : Boards dbg n0 (n', b) := by
  induction hr with
  | refl => exact h
  | step ev _ ho hs ih => exact .next ih (.step ev hi hc ho hs)

/-- times of a report -/
def t63 : Times := ⟨some 3, some 37, none⟩

/-- the first report of a node, and one after it has become the leader, sent in three steps -/
def b63 : Board := ((((Board.init 1).begin (report (Node.fresh Demo.cfg 0).eng none t63) false).next.next.next).begin
  (report adds.eng (adds.eng.leader.map (·.progress.vp.vector)) t63) false).next.next.next
/-- the node ends: the report, and the state -/
def b63e : Board := (b63.begin (report adds.eng none t63) true).next.next.next.next

theorem b63_boards : Boards false (Node.fresh Demo.cfg 0) (adds, b63) := by
  have h0 : Boards false (Node.fresh Demo.cfg 0) (Node.fresh Demo.cfg 0, .init 1) := .start
  have h1 := h0.next (.first t63 rfl rfl)
  have h2 := ((h1.next (.send (by decide))).next (.send (by decide))).next (.send (by decide))
  have h3 : Boards false (Node.fresh Demo.cfg 0) (adds, _) := boards_run h2 rfl rfl (run_of_allOk .refl (by decide +kernel))
  have h4 := h3.next (.flush t63 rfl rfl)
  exact ((h4.next (.send (by simp [Board.begin]))).next (.send (by simp [Board.begin, Board.next]))).next (.send (by simp [Board.begin, Board.next]))

theorem b63e_boards : Boards false (Node.fresh Demo.cfg 0) (adds, b63e) := by
  have h1 := b63_boards.next (.stop t63 rfl rfl)
  exact (((h1.next (.send (by simp [Board.begin]))).next (.send (by simp [Board.begin, Board.next]))).next (.send (by simp [Board.begin, Board.next]))).next
    (.send (by simp [Board.begin, Board.next]))

/-- **C63 is false**: a leader that has shut down is a leader in the server metrics. -/
theorem C63_false : ¬ C63_statement := by
  intro h
  have := (h false _ adds b63e b63e_boards rfl (by simp [b63e, Board.begin, Board.next, b63])).state
  have hs : b63e.server.val.state = .as .leader ∧ b63e.full.val.state = .shutdown := by decide +kernel
  rw [hs.1, hs.2] at this
  cases this

/-- and it names itself -/
example : b63e.server.val.currentLeader = some 1 ∧ b63e.server.closed = true := by decide +kernel
/-- the leader: three values on each channel; when it ends the server metrics do not change -/
example : b63.data.ver = 2 ∧ b63.server.ver = 2 ∧ b63.full.ver = 2 ∧ b63e.data.ver = 3 ∧ b63e.server.ver = 2 ∧ b63e.full.ver = 4 := by decide +kernel
example : Agrees b63.full.val b63.data.val b63.server.val := C63_agree_partial b63_boards rfl (by simp [b63, Board.begin, Board.next]) (by decide +kernel)
/-- before the first report the server metrics have the id 0 -/
example : (Board.init 1).server.val.id = 0 ∧ (Board.init 1).full.val.id = 1 := by decide

end Openraft.Props
