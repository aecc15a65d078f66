import Verif.Runtime.AddLearner
import Verif.Props.MetricsProps
import Verif.Props.ClientProps
import Verif.Props.CommitProps
import Verif.Props.AbortProps

/-!
# C59: a blocking `add_learner` returns when the learner is up to date

The documentation: "If blocking is `true`, this function blocks until the leader believes the logs on the new node is up to date, i.e.,
ready to join the cluster, as a voter, by calling `change_membership`" (`raft/impl_raft_blocking_write.rs:113-118`).
-/

set_option autoImplicit false

namespace Openraft.Props
open Openraft.Engine Openraft.Runtime Openraft.Runtime.Demo
open Openraft.Cluster (Payload)
open Openraft.Rt (Watch Waiter)
open Openraft.Engine.Demo (lid m3 v2)

/-! ## Specification -/

/-- the report is one of a leader, `id` is a node of its membership, and the log that the leader believes `id` to have ends at most
`threshold` entries before the end of its own -/
def UpToDate (threshold : Nat) (id : NodeId) (x : Metrics) : Prop :=
  ∃ r y, x.replication = some r ∧ x.mem.mem.contains id = true ∧ (id, y) ∈ r ∧ after? x.lastLogIndex ≤ nextIndex y + threshold

/-- **C59.** When a blocking `add_learner` for another node returns `Ok`, then the process has reported, with the membership of the call or
a later one in effect, that it is the leader and the learner up to date. -/
def C59_statement : Prop := ∀ (dbg : Bool) (cfg : Cfg) (old : List Resp) (n0 : Runtime.Node) (threshold : Nat) (id : NodeId) (log : LogId)
    (m : Membership) (s : Runtime.Node × Watch Metrics) (t : Waiter Metrics) (a : Ent),
  Life dbg cfg old n0 → Adding dbg threshold id log m n0 s t → m.contains id = true → id ≠ cfg.id →
  addLearner true cfg.id id ⟨log, .membership m⟩ t = some a → ∃ x ∈ s.2.values, some log ≤ x.mem.logId ∧ UpToDate threshold id x

variable {dbg : Bool} {cfg : Cfg} {old : List Resp} {n0 n : Runtime.Node} {threshold : Nat} {id : NodeId} {log : LogId} {m : Membership}
  {s : Runtime.Node × Watch Metrics} {t : Waiter Metrics}

theorem lookup_mem {α : Type} {k : Nat} {v : α} {l : List (Nat × α)} (h : l.lookup k = some v) : (k, v) ∈ l := by
  induction l with
  | nil => cases h
  | cons x l ih =>
    obtain ⟨a, b⟩ := x
    rw [List.lookup_cons] at h
    split at h
    · next hk => cases h; have : k = a := by simpa using hk
                 subst this; simp
    · exact List.mem_cons_of_mem _ (ih h)

theorem lookup_some {α : Type} {k : Nat} {l : List (Nat × α)} (h : k ∈ l.map (·.1)) : ∃ v, l.lookup k = some v := by
  cases hl : l.lookup k with
  | some v => exact ⟨v, rfl⟩
  | none =>
    rw [List.lookup_eq_none_iff] at hl
    obtain ⟨x, hx, rfl⟩ := List.mem_map.1 h
    have := hl x hx
    simp at this

/-- what the check looks at: the lag in positions -/
theorem lag_le {x : Option LogId} {last : Option Nat} : replicationLag (x.map (·.index)) last ≤ threshold ↔ after? last ≤ nextIndex x + threshold := by
  unfold replicationLag
  rw [after_last]
  omega

/-! ## What a return says -/

/-- **C59, what is left.** A blocking call that returns was told so by a report of this process that is not older than the membership of
the call, or the node shut down, or the deadline is over. The report was one of
* a leader to which the learner is up to date (the property);
* a node for whose membership the learner is gone;
* a node that reported no replication: not a leader.

Missing for C59: the other cases, in which the call returns `Ok` all the same (`C59_false`, `C59_removed`, `C59_shutdown`). -/
theorem C59_returns_partial (hl : Life dbg cfg old n0) (h : Adding dbg threshold id log m n0 s t) (hid : id ≠ cfg.id) {a : Ent}
    (hr : addLearner true cfg.id id ⟨log, .membership m⟩ t = some a) :
    a = ⟨log, .membership m⟩ ∧
    ((∃ x ∈ s.2.values, some log ≤ x.mem.logId ∧ UpToDate threshold id x ∧
        ∃ s1, Reporting dbg n0 s1 ∧ Relation.ReflTransGen (RepStep dbg) s1 s ∧ s1.1.eng.leader.isSome ∧ x = flushMetrics s1.1.eng) ∨
     (∃ x ∈ s.2.values, some log ≤ x.mem.logId ∧ (x.mem.mem.contains id = false ∨ x.replication = none)) ∨
     (t.at_ = .done .shuttingDown ∧ s.2.closed = true) ∨ ∃ x, t.at_ = .done (.timeout x)) := by
  obtain ⟨_, hw⟩ := h.asking.inv hl
  unfold addLearner at hr
  rw [if_neg (by decide), if_neg (fun k => hid k.symm)] at hr
  split at hr
  · next r ht =>
    refine ⟨(Option.some.inj hr).symm, ?_⟩
    cases r with
    | timeout x => exact Or.inr (Or.inr (Or.inr ⟨x, ht⟩))
    | shuttingDown => exact Or.inr (Or.inr (Or.inl ⟨ht, (hw.down ht).1⟩))
    | ok x =>
      obtain ⟨h1, h2⟩ := hw.ok x ht
      unfold learnerTest checkUpToDate at h1
      split at h1
      · cases h1
      · next hlog =>
        have hlog : some log ≤ x.mem.logId := not_lt.1 hlog
        split at h1
        · next hc => exact Or.inr (Or.inl ⟨x, h2, hlog, Or.inl hc⟩)
        · next hc =>
          split at h1
          · next hrep => exact Or.inr (Or.inl ⟨x, h2, hlog, Or.inr hrep⟩)
          · next r hrep =>
            split at h1
            · cases h1
            · next y hy =>
              split at h1
              · next hlag =>
                refine Or.inl ⟨x, h2, hlog, ⟨r, y, hrep, by simpa using hc, lookup_mem hy, (lag_le).1 hlag⟩, ?_⟩
                obtain ⟨s1, k1, k2, rfl⟩ := h.reporting.made x h2 r hrep
                refine ⟨s1, k1, k2, ?_, rfl⟩
                unfold flushMetrics reportWith at hrep
                cases hlead : s1.1.eng.leader with
                | none => rw [hlead] at hrep; cases hrep
                | some l => rfl
              · cases h1
  · cases hr

/-- **The learner told the leader so.** In every execution of the engine, what a leader reports of a node other than itself is what that
node answered to this leader. -/
theorem C59_told {g0 : Gh} {e0 e : Eng} {is : List Input} (h0 : Started dbg g0 e0) (h : Engine.CRun dbg e0 is e)
    {r : List (NodeId × Option LogId)} (hr : (flushMetrics e).replication = some r) {y : LogId} (hy : (id, some y) ∈ r) (hid : id ≠ e0.cfg.id) :
    ∃ l sess, e.leader = some l ∧ Input.replProgress sess id (.matching (some y)) ∈ is ∧ sess.vote = ⟨l.vote.leaderId, true⟩ := by
  have hinv := h.inv h0.cinv
  unfold flushMetrics reportWith at hr
  cases hl : e.leader with
  | none => rw [hl] at hr; cases hr
  | some l =>
    rw [hl] at hr
    have hr : l.progress.vp.vector = r := Option.some.inj hr
    subst hr
    obtain ⟨_, ht, _⟩ := hinv.k.clk l hl
    rcases ht.from' _ hy with h1 | ⟨z, h1, h2⟩
    · cases h1
    · cases Option.some.inj h1
      rcases h2 with ⟨sess, h2, h3⟩ | ⟨io, _, _, _, h2⟩
      · exact ⟨l, sess, rfl, h2, h3⟩
      · exact absurd h2 hid

/-! ## When the call keeps waiting -/

/-- **C59, the other way.** In a life whose inputs are safe, a report of the loop that is not older than the membership of the call keeps
the call waiting only if the node leads, the learner is a node of the membership, and the leader believes it to be more than `threshold`
entries behind: the case of a learner whose replication "is not reported yet" (`raft/mod.rs:796-799`) does not occur. -/
theorem C59_waits (h : SafeLife cfg old n) (hlog : some log ≤ n.eng.st.ms.effective.logId)
    (hw : learnerTest threshold id log (flushMetrics n.eng) = false) :
    ∃ l x, n.eng.leader = some l ∧ n.eng.st.ms.effective.mem.contains id = true ∧ (id, x) ∈ l.progress.vp.vector ∧
      nextIndex x + threshold < nextIndex n.eng.st.lastLogId := by
  unfold learnerTest checkUpToDate at hw
  rw [if_neg (show ¬ (flushMetrics n.eng).mem.logId < some log from not_lt.2 hlog)] at hw
  split at hw
  · cases hw
  · next hc =>
    have hc : n.eng.st.ms.effective.mem.contains id = true := by
      rw [Bool.not_eq_false] at hc; exact hc
    split at hw
    · cases hw
    · next r hrep =>
      unfold flushMetrics reportWith at hrep
      cases hl : n.eng.leader with
      | none => rw [hl] at hrep; cases hrep
      | some l =>
        rw [hl] at hrep
        have hrep : l.progress.vp.vector = r := Option.some.inj hrep
        subst hrep
        obtain ⟨x, hx⟩ := lookup_some ((h.ln.lead l hl).prog id |>.2 (Or.inr hc))
        rw [hx] at hw
        simp only at hw
        split at hw
        · cases hw
        · next hlag =>
          exact ⟨l, x, rfl, hc, lookup_mem hx, by
            have := mt (lag_le (last := n.eng.st.lastLogId.map (·.index))).2 hlag
            rw [after_last] at this
            omega⟩

/-- **A call does not sleep past what it waits for.** If the current report is one of the loop with the membership of the call, and the
node does not lead, or the learner is gone, or the leader believes it to be at most `threshold` entries behind, then the call returns when
it is polled twice before its deadline. -/
theorem C59_wakes (hl : Life false cfg old n0) (h : Adding false threshold id log m n0 s t) (hs : SafeLife cfg old n)
    (hv : s.2.val = flushMetrics n.eng) (hlog : some log ≤ n.eng.st.ms.effective.logId)
    (hdone : n.eng.leader = none ∨ n.eng.st.ms.effective.mem.contains id = false ∨
      ∀ l x, n.eng.leader = some l → (id, x) ∈ l.progress.vp.vector → nextIndex n.eng.st.lastLogId ≤ nextIndex x + threshold)
    (hn : ∀ r, t.at_ ≠ .done r) {now1 now2 : Nat} (h1 : now1 < t.timeoutAt) (a : Ent) :
    addLearner true cfg.id id a ((t.poll (learnerTest threshold id log) s.2 now1).poll (learnerTest threshold id log) s.2 now2) = some a := by
  have ht : learnerTest threshold id log s.2.val = true := by
    rw [hv]
    by_contra hc
    obtain ⟨l, x, k1, k2, k3, k4⟩ := C59_waits hs hlog (by simpa using hc)
    rcases hdone with hd | hd | hd
    · rw [hd] at k1; cases k1
    · rw [hd] at k2; cases k2
    · have := hd l x k1 k3; omega
  have := (h.asking.inv hl).2.wakes ht hn (now2 := now2) h1
  unfold addLearner
  rw [if_neg (by decide), this]
  split <;> rfl

/-! ## Concrete cases -/

/-- node 1 leads, adds node 4 as a learner with the entry at 3, which is replicated to node 3, committed and applied -/
def addEvs : List (List LogId × Ev) := leadEvs ++ settle ++
  [([], .msg 34 (.replProgress ⟨vl26, some (lid 1 2 0)⟩ 3 (.matching (some (lid 2 1 2)))))] ++ settle ++
  [([], .change 36 60 (.addNodes [(4, 4)]) true)] ++ settle ++
  [([], .msg 37 (.replProgress ⟨vl26, some (lid 2 1 3)⟩ 3 (.matching (some (lid 2 1 3)))))] ++ settle ++ settle

/-- the membership with node 4 -/
def m59 : Membership := { m3 with nodes := m3.nodes ++ [(4, 4)] }

/-- the node then -/
def adds : Runtime.Node := runTo false (Node.fresh Demo.cfg 0) addEvs

/-- node 4 has the log: it answers the leader -/
def fillEvs : List (List LogId × Ev) := [([], .msg 40 (.replProgress ⟨vl26, some (lid 2 1 3)⟩ 4 (.matching (some (lid 2 1 3)))))] ++ settle
/-- or: leader 3 of a later term appends to the log of node 1 -/
def oustEvs : List (List LogId × Ev) :=
  [(leadB, .msg 60 (.appendReq 9 ⟨⟨3, 3⟩, true⟩ (some (lid 2 1 3)) [⟨lid 3 3 4, .blank⟩] (some (lid 3 3 4))))] ++ settle ++ settle
/-- or: another caller removes node 4 again -/
def dropEvs : List (List LogId × Ev) := [([], .change 41 61 (.removeNodes [4]) true)] ++ settle

def fills : Runtime.Node := runTo false adds fillEvs
def ousts : Runtime.Node := runTo false adds oustEvs
def drops : Runtime.Node := runTo false adds dropEvs

/-- the channel when the call begins to wait, and when the node has gone on to `n` and reported -/
def w59 : Watch Metrics :=
  ((⟨.initial 1, [], false⟩ : Watch Metrics).send (reportWith (Node.fresh Demo.cfg 0).eng none)).send (flushMetrics adds.eng)

theorem adding_run {n n' : Runtime.Node} {w : Watch Metrics} (h : Adding dbg threshold id log m n0 (n, w) t)
    (hc : w.closed = false) (hr : Node.Run dbg n n') : Adding dbg threshold id log m n0 (n', w) t := by
  induction hr with
  | refl => exact h
  | step ev _ ho hs ih => exact .next ih (.step ev hc ho hs)

/-- the core has answered the call, and the node has reported -/
theorem adds_adding : Adding false 0 4 (lid 2 1 3) m59 (Node.fresh Demo.cfg 0) (adds, w59)
    ((Waiter.start 1000 0).poll (learnerTest 0 4 (lid 2 1 3)) w59 50) := by
  have h0 : Reporting false (Node.fresh Demo.cfg 0) (Node.fresh Demo.cfg 0, ⟨.initial 1, [], false⟩) := .start
  have h1 := Reporting.next h0 (.first rfl)
  have h2 : Reporting false (Node.fresh Demo.cfg 0) (adds, _) := h1.run rfl (run_of_allOk .refl (by decide +kernel))
  have h3 := shows h2
  exact .poll 50 (.begin 60 1000 0 h3 (Nat.zero_le _) (by decide +kernel))

/-- the call after the node has gone on by `evs` and reported: two more polls -/
theorem adds_then {evs : List (List LogId × Ev)} (h : allOk false adds evs = true) :
    Adding false 0 4 (lid 2 1 3) m59 (Node.fresh Demo.cfg 0) (runTo false adds evs, w59.send (flushMetrics (runTo false adds evs).eng))
      ((((Waiter.start 1000 0).poll (learnerTest 0 4 (lid 2 1 3)) w59 50).poll (learnerTest 0 4 (lid 2 1 3))
        (w59.send (flushMetrics (runTo false adds evs).eng)) 70).poll (learnerTest 0 4 (lid 2 1 3))
        (w59.send (flushMetrics (runTo false adds evs).eng)) 71) :=
  .poll 71 (.poll 70 (.next (adding_run adds_adding rfl (run_of_allOk .refl h)) (.flush rfl)))

-- the leader reports node 4 with nothing; the call sleeps
example : (flushMetrics adds.eng).replication = some [(1, some (lid 2 1 3)), (3, some (lid 2 1 3)), (2, none), (4, none)] ∧
    (flushMetrics adds.eng).lastLogIndex = some 3 ∧
    addLearner true 1 4 ⟨lid 2 1 3, .membership m59⟩ ((Waiter.start 1000 0).poll (learnerTest 0 4 (lid 2 1 3)) w59 50) = none := by decide +kernel

/-- decide `UpToDate` -/
def upB (threshold : Nat) (id : NodeId) (x : Metrics) : Bool :=
  match x.replication with
  | none => false
  | some r => x.mem.mem.contains id && r.any fun p => p.1 == id && decide (after? x.lastLogIndex ≤ nextIndex p.2 + threshold)

theorem upB_iff {x : Metrics} : UpToDate threshold id x ↔ upB threshold id x = true := by
  unfold UpToDate upB
  cases hr : x.replication with
  | none => simp
  | some r =>
    simp only [Bool.and_eq_true, List.any_eq_true, beq_iff_eq, decide_eq_true_eq]
    constructor
    · rintro ⟨r', y, h1, h2, h3, h4⟩
      cases h1
      exact ⟨h2, (id, y), h3, rfl, h4⟩
    · rintro ⟨h2, ⟨i, y⟩, h3, rfl, h4⟩
      exact ⟨r, y, rfl, h2, h3, h4⟩

/-- **C59 is false**: the leader is replaced before the learner has anything; the call returns `Ok`, and no report of this process says that
the learner is up to date. -/
theorem C59_false : ¬ C59_statement := by
  intro h
  obtain ⟨x, h1, _, h2⟩ := h false Demo.cfg [] _ 0 4 (lid 2 1 3) m59 _ _ ⟨lid 2 1 3, .membership m59⟩ (.fresh 0 _)
    (adds_then (evs := oustEvs) (by decide +kernel)) (by decide) (by decide) (by decide +kernel)
  have hall : ((w59.send (flushMetrics ousts.eng)).values.all fun x => !upB 0 4 x) = true := by decide +kernel
  have := List.all_eq_true.1 hall x h1
  rw [upB_iff.1 h2] at this
  cases this

/-- **The learner is removed while its caller waits**: the call returns `Ok` with the membership in which it is a learner. -/
theorem C59_removed : ∃ s t, Adding false 0 4 (lid 2 1 3) m59 (Node.fresh Demo.cfg 0) s t ∧
    addLearner true 1 4 ⟨lid 2 1 3, .membership m59⟩ t = some ⟨lid 2 1 3, .membership m59⟩ ∧
    s.1.eng.leader.isSome = true ∧ s.1.eng.st.ms.effective.mem.contains 4 = false ∧ ∀ x ∈ s.2.values, ¬ UpToDate 0 4 x := by
  refine ⟨_, _, adds_then (evs := dropEvs) (by decide +kernel), by decide +kernel, by decide +kernel, by decide +kernel, ?_⟩
  intro x h1 h2
  have hall : ((w59.send (flushMetrics drops.eng)).values.all fun x => !upB 0 4 x) = true := by decide +kernel
  have := List.all_eq_true.1 hall x h1
  rw [upB_iff.1 h2] at this
  cases this

/-- the channel of the node that shuts down while the call waits -/
def w59d : Watch Metrics := { (w59.send (reportWith adds.eng none)).send (reportWith adds.eng none).ended with closed := true }

/-- **The node shuts down while the caller waits**: the call returns `Ok`. -/
theorem C59_shutdown : ∃ t, Adding false 0 4 (lid 2 1 3) m59 (Node.fresh Demo.cfg 0) (adds, w59d) t ∧
    addLearner true 1 4 ⟨lid 2 1 3, .membership m59⟩ t = some ⟨lid 2 1 3, .membership m59⟩ ∧
    w59d.val.state = .shutdown ∧ ∀ x ∈ w59d.values, ¬ UpToDate 0 4 x := by
  refine ⟨_, .poll 71 (.poll 70 (.next adds_adding (.stop rfl))), by decide +kernel, by decide +kernel, ?_⟩
  intro x h1 h2
  have hall : (w59d.values.all fun x => !upB 0 4 x) = true := by decide +kernel
  have := List.all_eq_true.1 hall x h1
  rw [upB_iff.1 h2] at this
  cases this

/-- the learner answers: the call returns, and the first case of the theorem holds -/
example : addLearner true 1 4 ⟨lid 2 1 3, .membership m59⟩
      ((((Waiter.start 1000 0).poll (learnerTest 0 4 (lid 2 1 3)) w59 50).poll (learnerTest 0 4 (lid 2 1 3))
        (w59.send (flushMetrics fills.eng)) 70).poll (learnerTest 0 4 (lid 2 1 3)) (w59.send (flushMetrics fills.eng)) 71) =
      some ⟨lid 2 1 3, .membership m59⟩ ∧ allOk false adds fillEvs = true ∧ upB 0 4 (flushMetrics fills.eng) = true := by decide +kernel
/-- the same call by the theorem: what it returns comes from a report -/
example : ∃ x ∈ (w59.send (flushMetrics fills.eng)).values, some (lid 2 1 3) ≤ x.mem.logId ∧ UpToDate 0 4 x :=
  ⟨flushMetrics fills.eng, by simp [Watch.values, Watch.send], by decide +kernel, upB_iff.2 (by decide +kernel)⟩

theorem adds_safe : SafeLife Demo.cfg [] adds := safe_of_allSafe (.fresh 0 _) (by decide +kernel) (by decide +kernel)
theorem ousts_safe : SafeLife Demo.cfg [] ousts := safe_of_allSafe adds_safe (by decide +kernel) (by decide +kernel)

/-- why the call waits on the leader: node 4 is four entries behind -/
example : ∃ l x, adds.eng.leader = some l ∧ adds.eng.st.ms.effective.mem.contains 4 = true ∧ (4, x) ∈ l.progress.vp.vector ∧
    nextIndex x + 0 < nextIndex adds.eng.st.lastLogId :=
  C59_waits (threshold := 0) (log := lid 2 1 3) adds_safe (by decide +kernel) (by decide +kernel)

/-- the leader is replaced: the call, which sleeps, returns -/
example (a : Ent) : addLearner true Demo.cfg.id 4 a
    ((((Waiter.start 1000 0).poll (learnerTest 0 4 (lid 2 1 3)) w59 50).poll (learnerTest 0 4 (lid 2 1 3))
        (w59.send (flushMetrics ousts.eng)) 70).poll (learnerTest 0 4 (lid 2 1 3)) (w59.send (flushMetrics ousts.eng)) 71) = some a :=
  C59_wakes (.fresh 0 _) (.next (adding_run adds_adding rfl (run_of_allOk (evs := oustEvs) .refl (by decide +kernel))) (.flush rfl)) ousts_safe
    (Watch.val_send _ _) (by decide +kernel) (Or.inl (Option.isNone_iff_eq_none.1 (by decide +kernel)))
    (fun r hr => by
      have : (((Waiter.start 1000 0).poll (learnerTest 0 4 (lid 2 1 3)) w59 50).at_ = .sleeps (flushMetrics adds.eng)) := by decide +kernel
      rw [this] at hr; cases hr) (by decide +kernel) a

/-- a leader of five reports what node 3 answered -/
example : ∃ l sess, t57.leader = some l ∧
    Input.replProgress sess 3 (.matching (some (lid 1 1 3))) ∈ w57.map (·.2.2) ++ [i57] ∧ sess.vote = ⟨l.vote.leaderId, true⟩ := by
  obtain ⟨r, hr⟩ := Option.isSome_iff_exists.1 (show (flushMetrics t57).replication.isSome = true by decide +kernel)
  have hm : ((flushMetrics t57).replication.map fun r => decide ((3, some (lid 1 1 3)) ∈ r)) = some true := by decide +kernel
  rw [hr] at hm
  exact C59_told (started_fresh _ _) t57_run hr (of_decide_eq_true (Option.some.inj hm)) (by decide)

end Openraft.Props
