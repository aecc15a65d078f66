import Verif.Runtime.Metrics
import Verif.Props.ValidProps

/-!
# C53: what a node reports about itself is true, and `Wait` tells it

`Reporting` is a process from its start: the node takes any allowed steps and publishes its metrics at any moments. `Asking` is a process
together with one call of `Wait::metrics`, polled at any moments.
-/

set_option autoImplicit false

namespace Openraft.Props
open Openraft.Engine Openraft.Runtime Openraft.Runtime.Demo
open Openraft.Rt (Watch Waiter WEv wstep wrun)
open Openraft.Engine.Demo (lid m3 v2 i1 i2)

/-! ## Metrics to compare with -/

/-- `Metric`, `metrics/metric.rs:13-24` -/
inductive Metric where
  | term (t : Nat)
  | vote (v : Vote)
  | lastLogIndex (i : Option Nat)
  | applied (l : Option LogId)
  | appliedIndex (i : Option Nat)
  | snapshot (l : Option LogId)
  | purged (l : Option LogId)

/-- `raft_metrics >= expect`, `metrics/metric.rs:63-79`, `Condition::GE` of `metrics/wait.rs` -/
def atLeast : Metric → Metrics → Bool
  | .term t, m => decide (t ≤ m.term)
  | .vote v, m => decide (v ≤ m.vote)
  | .lastLogIndex i, m => decide (i ≤ m.lastLogIndex)
  | .applied l, m => decide (l ≤ m.lastApplied)
  | .appliedIndex i, m => decide (i ≤ m.lastApplied.map (·.index))
  | .snapshot l, m => decide (l ≤ m.snapshot)
  | .purged l, m => decide (l ≤ m.purged)

/-! ## Reports -/

variable {dbg : Bool} {cfg : Cfg} {old : List Resp} {n0 n : Runtime.Node} {w : Watch Metrics} {f : Metrics → Bool} {t : Waiter Metrics}

/-- **C53, the server state.** The field `server_state`, which only some handlers update, says in every state of every life what the node
does: it leads, it asks for votes, or else whether it is a voter of the effective membership. -/
theorem C53_server_state (h : Life dbg cfg old n) :
    (n.eng.st.server = .leader ↔ n.eng.leader.isSome = true) ∧
    (n.eng.st.server = .candidate ↔ n.eng.leader = none ∧ n.eng.candidate.isSome = true) ∧
    (n.eng.st.server = .follower ↔ n.eng.leader = none ∧ n.eng.candidate = none ∧ n.eng.st.ms.effective.mem.isVoter n.eng.cfg.id = true) ∧
    (n.eng.st.server = .learner ↔ n.eng.leader = none ∧ n.eng.candidate = none ∧ n.eng.st.ms.effective.mem.isVoter n.eng.cfg.id = false) := by
  obtain ⟨g0, a0, s0, c0, P, S, hi, _⟩ := h.valid
  have hp := hi.flow.inv.pj
  have hs := h.srv
  unfold SrvOk Eng.voterState RState.isVoter at hs
  cases hl : n.eng.leader with
  | some l => simp [(hp.lead l hl).srv]
  | none =>
    rw [hs hl]
    cases hc : n.eng.candidate with
    | some c => simp
    | none => cases hv : n.eng.st.ms.effective.mem.isVoter n.eng.cfg.id <;> simp

/-- **C53, a report stays true.** Everything a process has published holds now, however many steps later: the node's term is at least the
reported one, its state machine has applied at least the reported entry (by id and by index), its snapshot is at least the reported one,
its log is purged at least as far. -/
theorem C53_report_true (hl : Life dbg cfg old n0) (h : Reporting dbg n0 (n, w)) : ∀ m ∈ w.values,
    m.id = n.eng.cfg.id ∧ m.term ≤ n.eng.st.vote.data.leaderId.term ∧
    m.lastApplied ≤ n.sm.applied ∧ nextIndex m.lastApplied ≤ nextIndex n.sm.applied ∧
    m.snapshot ≤ n.sm.snap.lastLogId ∧ nextIndex m.purged ≤ nextIndex n.rd.purged := by
  intro m hm
  have ht := (h.inv hl).tells m hm
  exact ⟨ht.id, ht.term, ht.applied.1, ht.applied.2, ht.snapshot, ht.purged⟩

/-- **C53, the reported vote is durable**: it is not above the vote on disk, now and after any number of crashes. Missing: the vote
`(0, 0, committed)` with which `initialize` writes its entry is never stored (`engine/engine_impl.rs:186-207`); that it is not reported
before the vote of the election that follows is stored is not proved. -/
theorem C53_vote_durable_partial (hl : Life dbg cfg old n0) (h : Reporting dbg n0 (n, w)) {n' : Runtime.Node}
    (hlat : Later dbg n n') :
    ∀ m ∈ w.values, m.vote ≤ n'.disk.vote ∨ m.vote = ⟨⟨0, 0⟩, true⟩ := by
  intro m hm
  rcases ((h.inv hl).tells m hm).vote with h1 | h1
  · exact Or.inl (le_trans h1 (C06_disk_forward (h.life hl).any hlat))
  · exact Or.inr h1

/-- **C53, the fields of a report agree.** For everything a process publishes after the initial value, the last one at shutdown excepted:
a leader that is a voter names itself as the current leader, and a node that is a member names itself only if it leads; a candidate names
no leader; `Follower` and `Learner` say whether the node is a voter of the reported membership; the current leader is a voter of it;
nothing is applied or purged beyond the last log entry; no snapshot is beyond what is applied; only a leader reports replication. -/
theorem C53_coherent (hl : Life dbg cfg old n0) (h : Reporting dbg n0 (n, w)) : ∀ m ∈ w.sent, m.state ≠ .shutdown →
    (m.state = .as .leader → m.mem.mem.isVoter m.id = true → m.currentLeader = some m.id) ∧
    (m.currentLeader = some m.id → m.mem.mem.contains m.id = true → m.state = .as .leader) ∧
    (m.state = .as .candidate → m.currentLeader = none) ∧
    (m.state = .as .follower → m.mem.mem.isVoter m.id = true) ∧ (m.state = .as .learner → m.mem.mem.isVoter m.id = false) ∧
    (∀ x, m.currentLeader = some x → m.mem.mem.isVoter x = true) ∧ m.vote.leaderId.term ≤ m.term ∧
    (∀ a, m.lastApplied = some a → ∃ i, m.lastLogIndex = some i ∧ a.index ≤ i) ∧
    (∀ a, m.purged = some a → ∃ i, m.lastLogIndex = some i ∧ a.index ≤ i) ∧
    m.snapshot ≤ m.lastApplied ∧ (m.replication.isSome = true → m.state = .as .leader) := by
  intro m hm hs
  rcases (h.inv hl).coherent m hm with hc | hc
  · have hidx : ∀ o : Option LogId, nextIndex o ≤ after? m.lastLogIndex → ∀ a, o = some a → ∃ i, m.lastLogIndex = some i ∧ a.index ≤ i := by
      rintro o ho a rfl
      cases hi : m.lastLogIndex with
      | none => rw [hi] at ho; exact absurd ho (by simp [after?])
      | some i => rw [hi] at ho; exact ⟨i, rfl, by simpa [after?] using ho⟩
    refine ⟨hc.lead, hc.self, hc.cand, hc.follower, hc.learner, hc.voter, hc.term, hidx _ hc.applied, hidx _ hc.purged, hc.snapshot, fun hr => ?_⟩
    obtain ⟨v, hv⟩ := Option.isSome_iff_exists.1 hr
    exact hc.repl v hv
  · exact absurd hc.1 hs

/-- **C53, reports do not go back**: of two published values the later one has a term, an applied entry (by id and by index) and a purged
index that are not smaller. -/
theorem C53_forward (hl : Life dbg cfg old n0) (h : Reporting dbg n0 (n, w)) : w.values.Pairwise fun m m' =>
    m.term ≤ m'.term ∧ m.lastApplied ≤ m'.lastApplied ∧ nextIndex m.lastApplied ≤ nextIndex m'.lastApplied ∧
    nextIndex m.purged ≤ nextIndex m'.purged :=
  (h.inv hl).order.imp fun h => ⟨h.term, h.applied.1, h.applied.2, h.purged⟩

/-- **C53, shutdown**: the state `Shutdown` is published exactly by a process that ended, as its last value. -/
theorem C53_shutdown (hl : Life dbg cfg old n0) (h : Reporting dbg n0 (n, w)) :
    (w.closed = true → w.val.state = .shutdown) ∧ (w.closed = false → ∀ m ∈ w.values, m.state ≠ .shutdown) :=
  ⟨(h.inv hl).last, (h.inv hl).up⟩

/-! ## Wait -/

/-- **C53, `Wait`: what it returns.** For any channel and any test, a call that began with a receiver of the channel and was polled at any
moments, between any sends: `Ok m` has passed the test and was published; a timeout is with a published value that failed the test;
`ShuttingDown` only if the sender is gone and the last value fails the test. -/
theorem C53_wait_result {α : Type} (f : α → Bool) (w : Watch α) (timeoutAt seen : Nat) (hs : seen ≤ w.ver) (evs : List (WEv α)) :
    (∀ m, (wrun f (w, .start timeoutAt seen) evs).2.at_ = .done (.ok m) → f m = true ∧ m ∈ (wrun f (w, .start timeoutAt seen) evs).1.values) ∧
    (∀ m, (wrun f (w, .start timeoutAt seen) evs).2.at_ = .done (.timeout m) → f m = false ∧ m ∈ (wrun f (w, .start timeoutAt seen) evs).1.values) ∧
    ((wrun f (w, .start timeoutAt seen) evs).2.at_ = .done .shuttingDown →
      (wrun f (w, .start timeoutAt seen) evs).1.closed = true ∧ f (wrun f (w, .start timeoutAt seen) evs).1.val = false) := by
  have hi := Rt.WInv.run evs (s := (w, Waiter.start timeoutAt seen)) (f := f) (.start hs)
  exact ⟨hi.ok, hi.timeout, hi.down⟩

/-- **C53, `Wait`: no wakeup is lost.** Wherever the call is, if the current value passes the test and stays, two polls before the deadline
are enough for the call to return it; closing the channel does not matter. -/
theorem C53_wait_wakes {α : Type} (f : α → Bool) (w : Watch α) (timeoutAt seen : Nat) (hs : seen ≤ w.ver) (evs : List (WEv α)) (now1 now2 : Nat)
    (h1 : now1 < timeoutAt) (h2 : now2 < timeoutAt) (hn : ∀ r, (wrun f (w, .start timeoutAt seen) evs).2.at_ ≠ .done r)
    (hf : f (wrun f (w, .start timeoutAt seen) evs).1.val = true) :
    (wrun f (w, .start timeoutAt seen) (evs ++ [.poll now1, .poll now2])).2.at_ =
      .done (.ok (wrun f (w, .start timeoutAt seen) evs).1.val) := by
  have hi := Rt.WInv.run evs (s := (w, Waiter.start timeoutAt seen)) (f := f) (.start hs)
  have hd : ∀ (evs : List (WEv α)) (s : Watch α × Waiter α), (wrun f s evs).2.timeoutAt = s.2.timeoutAt := by
    intro evs
    induction evs with
    | nil => intro s; rfl
    | cons ev evs ih =>
      intro s
      refine (ih (wstep f s ev)).trans ?_
      cases ev with
      | send a => simp only [wstep]; split <;> rfl
      | close => rfl
      | poll now =>
        simp only [wstep]
        unfold Waiter.poll
        split <;> (repeat' split) <;> rfl
  have hd := hd evs (w, Waiter.start timeoutAt seen)
  have hsplit : wrun f (w, Waiter.start timeoutAt seen) (evs ++ [.poll now1, .poll now2]) =
      wstep f (wstep f (wrun f (w, Waiter.start timeoutAt seen) evs) (.poll now1)) (.poll now2) := by simp [wrun]
  rw [hsplit]
  generalize wrun f (w, Waiter.start timeoutAt seen) evs = s at hi hd hn hf ⊢
  obtain ⟨w', t⟩ := s
  have hd : t.timeoutAt = timeoutAt := hd
  cases ha : t.at_ with
  | done r => exact absurd ha (hn r)
  | asks =>
    have h3 : t.poll f w' now1 = { t with at_ := .done (.ok w'.val) } := by
      unfold Waiter.poll; rw [ha]; simp only; rw [if_pos hf]
    simp only [wstep, h3]
    rfl
  | sleeps latest =>
    obtain ⟨k1, _, k3⟩ := hi.sleeps latest ha
    have hne : t.seen ≠ w'.ver := by
      intro he
      have hf : f w'.val = true := hf
      rw [k3 he, k1] at hf; cases hf
    have h3 : t.poll f w' now1 = { t with seen := w'.ver, at_ := .asks } := by
      unfold Waiter.poll; rw [ha]; simp only
      rw [if_neg (by omega), if_pos hne]
    simp only [wstep, h3]
    unfold Waiter.poll
    simp only
    rw [if_pos hf]

/-- **A timeout does not say that the condition was not met.** The value that passes the test is published before the deadline; the call is
polled next after it: `select_biased!` looks at the delay first. -/
theorem C53_wait_timeout_false : ∃ (f : Nat → Bool) (w : Watch Nat) (evs : List (WEv Nat)),
    evs = [.poll 1, .send 5, .poll 10] ∧ (wrun f (w, .start 10 0) evs).2.at_ = .done (.timeout 0) ∧
    f (wrun f (w, .start 10 0) (evs.take 2)).1.val = true :=
  ⟨fun x => decide (5 ≤ x), ⟨0, [], false⟩, _, rfl, by decide, by decide⟩

/-- the value is published, the next poll before the deadline sees it: two polls -/
example : (wrun (fun x => decide (5 ≤ x)) ((⟨0, [], false⟩ : Watch Nat), .start 10 0) ([.poll 1, .send 3, .poll 2, .poll 3, .send 5] ++ [.poll 8, .poll 9])).2.at_ =
    .done (.ok 5) := by decide

/-- the sender is gone and the last value does not pass -/
example : (wrun (fun x => decide (5 ≤ x)) ((⟨0, [], false⟩ : Watch Nat), .start 10 0) [.poll 1, .send 3, .close, .poll 2, .poll 3, .poll 4]).2.at_ =
    .done .shuttingDown := by decide

/-! ## Wait on a node -/

/-- **C53, `Wait::applied_index_at_least`.** When it returns `Ok`, the state machine of the node has applied the index, and the reported
last log index is at least the index ("this also implies `last_log_id >= index`", `metrics/wait.rs:152`). -/
theorem C53_wait_applied (hl : Life dbg cfg old n0) {i : Nat} (h : Asking dbg (atLeast (.appliedIndex (some i))) n0 (n, w) t) {m : Metrics}
    (hd : t.at_ = .done (.ok m)) :
    (∃ a, n.sm.applied = some a ∧ i ≤ a.index) ∧ ∃ j, m.lastLogIndex = some j ∧ i ≤ j := by
  obtain ⟨hr, hw⟩ := h.inv hl
  obtain ⟨h1, h2⟩ := hw.ok m hd
  have h1 : (some i : Option Nat) ≤ m.lastApplied.map (·.index) := of_decide_eq_true h1
  cases ha : m.lastApplied with
  | none => rw [ha] at h1; exact absurd h1 (by simp [OptOrd.not_some_le_none'])
  | some a =>
    rw [ha] at h1
    have h1 : i ≤ a.index := h1
    have ht := (hr.tells m h2).applied.2
    rw [ha] at ht
    refine ⟨?_, ?_⟩
    · cases hs : n.sm.applied with
      | none => rw [hs] at ht; exact absurd ht (by simp)
      | some b => rw [hs] at ht; exact ⟨b, rfl, by simp at ht; omega⟩
    · have hsent : m ∈ w.sent := by
        rcases List.mem_cons.1 h2 with h3 | h3
        · exfalso
          rw [h3, hr.begins] at ha; cases ha
        · exact h3
      have key : ∀ m' : Metrics, Coherent m' → m'.lastApplied = some a → ∃ j, m'.lastLogIndex = some j ∧ i ≤ j := by
        intro m' hc he
        have h4 := hc.applied
        rw [he] at h4
        cases hi : m'.lastLogIndex with
        | none => rw [hi] at h4; exact absurd h4 (by simp [after?])
        | some j => rw [hi] at h4; exact ⟨j, rfl, by simp [after?] at h4; omega⟩
      rcases hr.coherent m hsent with hc | ⟨_, m0, hc, rfl⟩
      · exact key m hc ha
      · exact key m0 hc ha

/-! ## Concrete cases -/

/-- publish -/
theorem shows {dbg : Bool} {n0 n : Runtime.Node} {w : Watch Metrics} (h : Reporting dbg n0 (n, w)) (hc : w.closed = false := by rfl) :
    Reporting dbg n0 (n, w.send (flushMetrics n.eng)) := .next h (.flush hc)

/-- a follower before the build of an old snapshot ends, and after -/
def built0 : Runtime.Node := back false
def built1 : Runtime.Node := runTo false (back false) ([([], .build 0)] ++ rounds 1)

/-- the channel of the follower: the initial value, the first report, one before and one after -/
def builtW : Watch Metrics :=
  (((⟨.initial 1, [], false⟩ : Watch Metrics).send (reportWith (Node.fresh Demo.cfg 0 true).eng none)).send (flushMetrics built0.eng)).send (flushMetrics built1.eng)

theorem built_reporting : Reporting false (Node.fresh Demo.cfg 0 true) (built1, builtW) := by
  have h0 : Reporting false (Node.fresh Demo.cfg 0 true) (Node.fresh Demo.cfg 0 true, ⟨.initial 1, [], false⟩) := .start
  have h1 := Reporting.next h0 (.first rfl)
  have h2 : Reporting false (Node.fresh Demo.cfg 0 true) (built0, _) := h1.run rfl (run_of_allOk .refl (by decide +kernel))
  have h3 := shows h2
  have h4 : Reporting false (Node.fresh Demo.cfg 0 true) (built1, _) := h3.run rfl (run_of_allOk .refl (by decide +kernel))
  exact shows h4

/-- what the follower publishes: it follows node 2, has applied four entries, purged them; nothing of it is trivial -/
example : (builtW.sent.map fun m => (m.state, m.currentLeader, m.lastApplied, m.purged)) =
      [(.as .learner, none, none, none), (.as .follower, some 2, some (lid 1 2 3), some (lid 1 2 3)),
       (.as .follower, some 2, some (lid 1 2 3), some (lid 1 2 3))] ∧
    (builtW.sent.map fun m => (m.vote, m.term, m.lastLogIndex)) = [(⟨⟨0, 0⟩, false⟩, 0, none), (v2, 1, some 3), (v2, 1, some 3)] := by
  decide +kernel

/-- **The reported snapshot can go back**, in a release build: the snapshot that was being built when a newer one was installed is
reported when it is ready, although it is older (`core/raft_core.rs:1457-1472`). A debug build aborts instead. -/
theorem C53_snapshot_back : ∃ (w : Watch Metrics) (n : Runtime.Node) (m m' : Metrics), Reporting false (Node.fresh Demo.cfg 0 true) (n, w) ∧
    [m, m'] <:+ w.sent ∧ m'.snapshot < m.snapshot ∧ m'.snapshot < m'.purged ∧ n.sm.snap.lastLogId = m.snapshot :=
  ⟨builtW, built1, flushMetrics built0.eng, flushMetrics built1.eng, built_reporting, ⟨[reportWith (Node.fresh Demo.cfg 0 true).eng none], rfl⟩,
    by decide +kernel, by decide +kernel, by decide +kernel⟩

theorem asking_run {dbg : Bool} {f : Metrics → Bool} {n0 n n' : Runtime.Node} {w : Watch Metrics} {t : Waiter Metrics} (h : Asking dbg f n0 (n, w) t)
    (hc : w.closed = false) (hr : Node.Run dbg n n') : Asking dbg f n0 (n', w) t := by
  induction hr with
  | refl => exact h
  | step ev _ ho hs ih => exact .next ih (.step ev hc ho hs)

/-- a call that waits for index 3 on this follower and gets it -/
example : ∃ t m, Asking false (atLeast (.appliedIndex (some 3))) (Node.fresh Demo.cfg 0 true) (built1, builtW) t ∧ t.at_ = .done (.ok m) := by
  have h0 : Reporting false (Node.fresh Demo.cfg 0 true) (Node.fresh Demo.cfg 0 true, ⟨.initial 1, [], false⟩) := .start
  have h1 : Asking false (atLeast (.appliedIndex (some 3))) (Node.fresh Demo.cfg 0 true) _ _ := .poll 0 (.begin 10 0 h0 (Nat.le_refl _))
  have h2 := Asking.next h1 (.first rfl)
  have h3 : Asking false _ (Node.fresh Demo.cfg 0 true) (built0, _) _ := asking_run h2 rfl (run_of_allOk .refl (by decide +kernel))
  have h4 := Asking.next h3 (.flush rfl)
  have h5 : Asking false _ (Node.fresh Demo.cfg 0 true) (built1, _) _ := asking_run h4 rfl (run_of_allOk .refl (by decide +kernel))
  have h6 := Asking.next h5 (.flush rfl)
  exact ⟨_, flushMetrics built1.eng, .poll 2 (.poll 1 h6), by decide +kernel⟩

end Openraft.Props
