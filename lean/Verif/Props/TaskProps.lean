import Verif.Runtime.TaskRead
import Verif.Props.SendProps

/-!
# C55: a leader and its replication tasks
-/

set_option autoImplicit false

namespace Openraft.Props
open Openraft.Engine Openraft.Runtime Openraft.Runtime.Demo
open Openraft.Engine.Demo (lid m3 v2)
open Openraft.Repl (Inflight)
open Openraft.Engine.Eng (ReplResult)

variable {cfg : Cfg} {old : List Resp} {c : Team}

/-! ## The claims -/

/-- **C55**: in the life of a node with its replication tasks, the node lives as in `SafeLife`. What `SafeLife` assumes of the
reports of replication tasks (`InputSafe`) holds of the reports of these tasks. -/
theorem C55_node_lives (h : TeamLife cfg old c) : SafeLife cfg old c.n := h.inv.1

/-- **C55**: the node takes every report of a task. -/
theorem C55_report_taken (h : TeamLife cfg old c) (now : Nat) (t : NodeId) : ∃ c', c.step false (.report now t) = .ok c' := by
  obtain ⟨hl, hi, g0, a0, s0, c0, P, S, hr, _, hkn⟩ := h.all
  simp only [Team.step]
  split
  · exact ⟨_, rfl⟩
  · next k hk =>
    split
    · exact ⟨_, rfl⟩
    · next r rs hrs =>
      split
      · obtain ⟨n', h1, _⟩ := take_total (ev := .msg now (.replProgress k.sess t r)) hr hl.ln (hkn.report_ok hi hr.flow.inv hk hrs) (fun _ => hi.report_safe hr.flow.inv hk hrs) (by simp)
        rw [h1]
        exact ⟨_, rfl⟩
      · exact ⟨_, rfl⟩

/-- the requests with entries or a snapshot that a task has or is about to get, and the results of snapshots: in its channel, as
its next action, being sent, in commands that wait -/
def owed (c : Team) (t : NodeId) (k : Task) : Nat :=
  (k.inbox.filter (· ≠ .committed)).length + (if k.action = none ∨ k.action = some .committed then 0 else 1) + (if k.sending = none then 0 else 1) +
    (asked c.n c.n.done).countP fun x => decide (x.1 = t ∧ x.2 ≠ .none)

theorem inflight_of_asked {l : Leader} {t : NodeId} {k : Task} (h : Suits c.n.eng c.n.pending l t k) (he : k.ended = false) :
    (k.hold (reqs t c.n.pending)).length ≤ 1 := by
  obtain ⟨_, F, _, h3⟩ := h
  exact (h3 he).fit.len

theorem TeamLife.suits (h : TeamLife cfg old c) {t : NodeId} {k : Task} (hk : c.task t = some k) (hm : c.n.eng.sessionMatch k.sess = true) :
    ∃ l, c.n.eng.leader = some l ∧ Suits c.n.eng c.n.pending l t k := by
  obtain ⟨hl, hi⟩ := h.inv
  obtain ⟨⟨g0, a0, s0, c0, P, S, hr⟩, _⟩ := hl.life.inv
  obtain ⟨l, h1, _⟩ := (sessionMatch_iff (hi.tk t k hk).2.1).1 hm
  refine ⟨l, h1, ?_⟩
  rcases hi.lead l h1 with ⟨_, a2⟩ | ⟨_, _, _, _, _, _, _, _, _, b6⟩
  · exact a2 t k hk hm
  · have := (b6 t k hk).noMatch hr.flow.inv
    rw [hm] at this; cases this

/-- **C55**: the debug assertions of `process_event` hold for the tasks of the session in force: an event with payload finds no
other action with payload, the result of a snapshot finds one being sent, and another event finds none. -/
theorem C55_event_taken (h : TeamLife cfg old c) {t : NodeId} {k : Task} (hk : c.task t = some k) (hm : c.n.eng.sessionMatch k.sess = true) :
    ∃ k', k.recv true = .ok k' := by
  obtain ⟨l, _, _, F, _, h3⟩ := TeamLife.suits h hk hm
  cases he : k.ended with
  | true => exact ⟨k, by unfold Task.recv; rw [if_pos he]; rfl⟩
  | false => exact (h3 he).recv_ok

/-- **C55**: sending and handling the answer does not abort a task. -/
theorem C55_round_done {k : Task} {snap : Option LogId} {a : Ans} (ha : AnsOk k a) : ∃ k', k.act snap a = .ok k' := act_total ha

/-- **C55**: while a leader has something in flight for the target of a running task of the session in force, either the task
has it to do, or a command that waits will give it to the task, or reports wait for the leader: no request is lost. -/
theorem C55_no_request_lost (h : TeamLife cfg old c) {t : NodeId} {k : Task} {l : Leader} (hk : c.task t = some k) (hm : c.n.eng.sessionMatch k.sess = true)
    (hl : c.n.eng.leader = some l) (he : k.ended = false) (hf : (l.progress.ent t).inflight ≠ .none) :
    k.reports ≠ [] ∨ (∃ d, (k.action = some d ∨ d ∈ k.inbox) ∧ d ≠ .committed) ∨ k.sending ≠ none ∨ ∃ q, Cmd.replicate t q ∈ c.n.pending := by
  obtain ⟨l', h1, _, F, h2, h3⟩ := TeamLife.suits h hk hm
  rw [hl] at h1; cases h1
  by_cases hr : k.reports = []
  · right
    rw [hr] at h2
    cases h2
    have hb := h3 he
    have hne : k.hold (reqs t c.n.pending) ≠ [] := by
      intro hz
      have := hb.fit
      rw [hz] at this
      cases hx : (l.progress.ent t).inflight with
      | none => exact hf hx
      | logs p q => rw [hx] at this; cases this
      | snapshot x => rw [hx] at this; rcases this with ⟨_, h⟩ | ⟨_, h, _⟩ <;> cases h
    obtain ⟨d, hd⟩ := List.exists_mem_of_ne_nil _ hne
    have pay : ∀ d : Data, d.payload = true → d ≠ .committed := by intro d h1 h2; subst h2; cases h1
    unfold Task.hold at hd
    simp only [List.mem_append, List.mem_filter, List.mem_map, List.mem_flatMap, Option.mem_toList] at hd
    rcases hd with ((⟨h4, h5⟩ | ⟨x, h4, _⟩) | ⟨h4, h5⟩) | ⟨q, h4, _⟩
    · exact Or.inl ⟨d, Or.inl h4, pay d h5⟩
    · right; left; rw [h4]; simp
    · exact Or.inl ⟨d, Or.inr h4, pay d h5⟩
    · exact Or.inr (Or.inr ⟨q, mem_reqs h4⟩)
  · exact Or.inl hr

/-- **C55**: a task of the session in force has at most one request with payload. -/
theorem C55_one_request (h : TeamLife cfg old c) {t : NodeId} {k : Task} (hk : c.task t = some k) (hm : c.n.eng.sessionMatch k.sess = true)
    (he : k.ended = false) : owed c t k ≤ 1 := by
  obtain ⟨l, _, hs⟩ := TeamLife.suits h hk hm
  have h1 := inflight_of_asked hs he
  unfold Task.hold at h1
  simp only [List.length_append, List.length_map] at h1
  have pay : ∀ d : Data, d.payload = decide (d ≠ .committed) := by intro d; cases d <;> rfl
  have e1 : (k.inbox.filter Data.payload).length = (k.inbox.filter (· ≠ .committed)).length := by
    rw [show Data.payload = fun d => decide (d ≠ .committed) from funext pay]
  have e2 : (k.action.toList.filter Data.payload).length = if k.action = none ∨ k.action = some .committed then 0 else 1 := by
    cases hx : k.action with
    | none => rfl
    | some d => cases d <;> rfl
  have e3 : k.sending.toList.length = if k.sending = none then 0 else 1 := by
    cases hx : k.sending with
    | none => rfl
    | some d => rfl
  have e4 : ((reqs t c.n.pending).flatMap Data.of).length = (asked c.n c.n.done).countP fun x => decide (x.1 = t ∧ x.2 ≠ .none) := by
    show ((reqs t c.n.pending).flatMap Data.of).length = List.countP _ (c.n.pending.filterMap _)
    unfold reqs
    induction c.n.pending with
    | nil => rfl
    | cons x xs ih =>
      rw [List.filterMap_cons, List.filterMap_cons]
      cases x with
      | replicate t' q =>
        simp only [Cmd.req]
        by_cases ht : t' = t
        · rw [if_pos ht]
          simp only [List.flatMap_cons, List.length_append, List.countP_cons, ih, ht]
          cases q <;> simp [Data.of] <;> omega
        · rw [if_neg ht]
          simp only [List.countP_cons, ih]
          simp [ht]
      | _ => exact ih
  unfold owed
  rw [← e1, ← e2, ← e3, ← e4]
  omega

/-- **C55**: a task of the session in force that is about to send a range finds all of its entries in the log it reads. So the
read succeeds with every hint and every limit of the storage: `logs.first().unwrap()` and the debug assertion hold, the entries
are consecutive and begin after `prev_log_id`, and the last one is the one before the end of the range that is reported as
matching if the target answers with success. -/
theorem C55_entries_there (h : TeamLife cfg old c) {t : NodeId} {k : Task} {p q : Option LogId} (hk : c.task t = some k)
    (hm : c.n.eng.sessionMatch k.sess = true) (he : k.ended = false) (ha : k.action = some (.logs p q)) :
    (∃ x, q = some x ∧ (nextIndex p ≤ x.index → ∃ e ∈ c.n.rd.entries, e.id = x) ∧ ∀ i, nextIndex p ≤ i → i ≤ x.index → ∃ e ∈ c.n.rd.entries, e.id.index = i) ∧
    ∀ dbg hint lim, ∃ logs r, readRange dbg c.n.rd.entries hint lim p q = .ok (logs, p, r) ∧
      (∀ j e, logs[j]? = some e → e ∈ c.n.rd.entries ∧ e.id.index = nextIndex p + j) ∧ nextIndex r = nextIndex p + logs.length ∧
      (nextIndex p < nextIndex q → hint ≠ some 0 → logs ≠ []) ∧ TOk c (.act t (.matched r)) := by
  obtain ⟨hl, hi, g0, a0, s0, c0, P, S, hr, hav, hkn⟩ := h.all
  obtain ⟨l, h1, _⟩ := (sessionMatch_iff (hi.tk t k hk).2.1).1 hm
  obtain ⟨hmem, F, hline, hb⟩ := hi.suits hr.flow.inv hk hm h1
  obtain ⟨⟨x, r1, r2, r3⟩, r4, _⟩ := read_ready hr hav hl.ln h1 (hi.tk t k hk).1 hmem hline (hb he) ha
  have hfo := hline.fok (hi.inf l h1 t (hi.tk t k hk).1)
  have hF := ((hb he).logs ha).1
  have hle : nextIndex p ≤ nextIndex q := (hfo p q hF).2.2.2
  refine ⟨⟨x, r1, r2, r3⟩, fun dbg hint lim => ?_⟩
  subst r1
  obtain ⟨logs, r, e1, e2, e3, e4, e5, e6⟩ := readRange_ok r4 hle r3 dbg hint lim
  refine ⟨logs, r, e1, e2, e3, fun hx => e6 (by simp only [nextIndex_some] at hx; omega), fun k' hk' => ?_⟩
  rw [hk] at hk'; cases hk'
  refine ⟨?_, fun _ p' q' m hx hy => ?_⟩
  · unfold AnsOk
    rw [ha]
    exact ⟨by omega, e4⟩
  · rw [ha] at hx; cases hx; cases hy
    exact e5

/-- **C55**: a report of a task that was replaced changes nothing. -/
theorem C55_late_report (h : TeamLife cfg old c) {now : Nat} {s : Session} {t : NodeId} {r : ReplResult} (hs : s ∈ c.past t) :
    c.step false (.late now s t r) = .ok c := by
  obtain ⟨hl, hi⟩ := h.inv
  obtain ⟨⟨g0, a0, s0, c0, P, S, hr⟩, _⟩ := hl.life.inv
  have hm := (hi.past t s hs).noMatch hr.flow.inv
  have ho : EvOk c.n (.msg now (.replProgress s t r)) := by
    show InputOk c.n.eng (.replProgress s t r)
    cases r with
    | matching m => intro hx; rw [hm] at hx; cases hx
    | conflict x => intro hx; rw [hm] at hx; cases hx
    | failed => intro hx; rw [hm] at hx; cases hx
  obtain ⟨n', h1, _⟩ := take_total (ev := .msg now (.replProgress s t r)) hr hl.ln ho (fun _ hx => by rw [hm] at hx; cases hx) (by simp)
  simp only [Team.step]
  rw [if_pos hs, h1]
  have := late_same hm h1
  subst this; rfl

/-! ## The hypotheses can be met -/

/-- decide `AnsOk` -/
def ansB (k : Task) (a : Ans) : Bool :=
  match k.action, a with
  | some (.logs p q), .matched m => decide (nextIndex p ≤ nextIndex m ∧ nextIndex m ≤ nextIndex q)
  | some (.logs p _), .conflict => match p with
    | none => false
    | some x => decide (nextIndex k.matching ≤ x.index)
  | some .committed, .conflict => decide (k.matching ≠ none)
  | some .committed, .tooLarge => false
  | _, _ => true

theorem ansB_ok {k : Task} {a : Ans} (h : ansB k a = true) : AnsOk k a := by
  unfold ansB at h
  unfold AnsOk
  split at h
  · next h1 => rw [h1]; exact of_decide_eq_true h
  · next p _ h1 =>
    rw [h1]
    cases p with
    | none => cases h
    | some x => exact ⟨x, rfl, of_decide_eq_true h⟩
  · next h1 => rw [h1]; exact of_decide_eq_true h
  · cases h
  · split <;> first | trivial | (exfalso; simp_all)

/-- decide `AnsFrom` -/
def fromB (n : Runtime.Node) (k : Task) (a : Ans) : Bool :=
  match k.action, a with
  | some (.logs p _), .matched m => decide (m = p) || n.rd.entries.any fun e => decide (m = some e.id)
  | _, _ => true

theorem fromB_ok {n : Runtime.Node} {k : Task} {a : Ans} (h : fromB n k a = true) : AnsFrom n k a := by
  rintro p q m h1 rfl
  unfold fromB at h
  rw [h1] at h
  simpa using h

/-- decide `TOk` -/
def tokB (lead : List LogId) (c : Team) : TEv → Bool
  | .node ev => evB lead c.n ev && safeB c.n ev && match ev with | .msg _ (.replProgress _ _ _) => false | _ => true
  | .act t a => match c.task t with
    | none => true
    | some k => ansB k a && fromB c.n k a
  | _ => true

theorem tokB_ok {lead : List LogId} {ev : TEv} (h : tokB lead c ev = true) : TOk c ev := by
  cases ev with
  | node ev =>
    simp only [tokB, Bool.and_eq_true] at h
    refine ⟨evB_ok h.1.1, safeB_ok h.1.2, ?_⟩
    rintro now s t r rfl
    cases h.2
  | act t a =>
    intro k hk
    simp only [tokB, hk, Bool.and_eq_true] at h
    exact ⟨ansB_ok h.1, fun _ => fromB_ok h.2⟩
  | _ => trivial

/-- the state after a step, the old one if it stops -/
def teamAfter (c : Team) (ev : TEv) : Team :=
  match c.step false ev with
  | .ok c' => c'
  | .error _ => c

theorem teamAfter_ok {ev : TEv} (h : stops (c.step false ev) = none) : c.step false ev = .ok (teamAfter c ev) := by
  unfold teamAfter
  cases h1 : c.step false ev with
  | ok x => rfl
  | error x => rw [h1] at h; cases h

/-- steps in a row -/
def teamTo (c : Team) : List (List LogId × TEv) → Team
  | [] => c
  | (_, ev) :: evs => teamTo (teamAfter c ev) evs

/-- every step is allowed -/
def teamOk (c : Team) : List (List LogId × TEv) → Bool
  | [] => true
  | (lead, ev) :: evs => tokB lead c ev && decide (stops (c.step false ev) = none) && apart c.n (teamAfter c ev).n && teamOk (teamAfter c ev) evs

theorem life_of_teamOk {evs : List (List LogId × TEv)} (h0 : TeamLife cfg old c) (h : teamOk c evs = true) : TeamLife cfg old (teamTo c evs) := by
  induction evs generalizing c with
  | nil => exact h0
  | cons x evs ih =>
    obtain ⟨lead, ev⟩ := x
    simp only [teamOk, Bool.and_eq_true, decide_eq_true_eq] at h
    exact ih (.step ev h0 (tokB_ok h.1.1.1) (teamAfter_ok h.1.1.2) h.1.2) h.2

/-- the same events, with the reports of the tasks of node 1 made by these tasks -/
def teamEvs (evs : List (List LogId × Ev)) : List (List LogId × TEv) :=
  evs.flatMap fun x => match x.2 with
    | .msg now (.replProgress _ t (.matching m)) => [([], TEv.recv t), ([], .recv t), ([], .act t (.matched m)), (x.1, .report now t)]
    | ev => [(x.1, .node ev)]

/-- the leader of `led` with its tasks -/
def ledTeam : Team := teamTo ⟨Node.fresh Demo.cfg 0, fun _ => none, fun _ => []⟩ (teamEvs ledEvs)
theorem ledTeam_life : TeamLife Demo.cfg [] ledTeam := life_of_teamOk (.fresh 0 _) (by decide +kernel)


/-- the task of a node -/
def ledTask (t : NodeId) : Runtime.Task := (ledTeam.task t).getD (.new ⟨⟨⟨0, 0⟩, false⟩, none⟩ none)
theorem ledTask_some : ledTeam.task 2 = some (ledTask 2) ∧ ledTeam.task 3 = some (ledTask 3) := by
  constructor
  · unfold ledTask
    cases h : ledTeam.task 2 with
    | none => exact absurd h (by decide +kernel)
    | some k => rfl
  · unfold ledTask
    cases h : ledTeam.task 3 with
    | none => exact absurd h (by decide +kernel)
    | some k => rfl

-- node 2 has a range in flight that its task has not taken from the channel yet
example : (ledTask 2).inbox.head? = some (.logs none (some (lid 2 1 2))) ∧
    (ledTeam.n.eng.leader.map fun l => (l.progress.ent 2).inflight) = some (.logs none (some (lid 2 1 2))) := by decide +kernel

example : ∃ k', (ledTask 2).recv true = .ok k' := C55_event_taken ledTeam_life ledTask_some.1 (by decide +kernel)
example : owed ledTeam 2 (ledTask 2) ≤ 1 := C55_one_request ledTeam_life ledTask_some.1 (by decide +kernel) (by decide +kernel)
example : owed ledTeam 2 (ledTask 2) = 1 ∧ owed ledTeam 3 (ledTask 3) = 0 := by decide +kernel

example : (ledTask 2).reports ≠ [] ∨ (∃ d, ((ledTask 2).action = some d ∨ d ∈ (ledTask 2).inbox) ∧ d ≠ .committed) ∨ (ledTask 2).sending ≠ none ∨
    ∃ q, Cmd.replicate 2 q ∈ ledTeam.n.pending := by
  obtain ⟨l, hl⟩ := Option.isSome_iff_exists.1 (show ledTeam.n.eng.leader.isSome = true by decide +kernel)
  refine C55_no_request_lost ledTeam_life ledTask_some.1 (by decide +kernel) hl (by decide +kernel) ?_
  have : (ledTeam.n.eng.leader.map fun l => decide ((l.progress.ent 2).inflight ≠ .none)) = some true := by decide +kernel
  rw [hl] at this
  simpa using this

/-- node 2 takes the first two entries only, then the rest; the reports wait -/
def ackEvs : List (List LogId × TEv) := [([], .recv 2), ([], .act 2 (.matched (some (lid 1 2 1)))), ([], .act 2 (.matched (some (lid 2 1 2))))]
def ackTeam : Team := teamTo ledTeam ackEvs
theorem ackTeam_life : TeamLife Demo.cfg [] ackTeam := life_of_teamOk ledTeam_life (by decide +kernel)

example : (ackTeam.task 2).map (·.reports) = some [.matching (some (lid 1 2 1)), .matching (some (lid 2 1 2))] := by decide +kernel
example : ∃ c', ackTeam.step false (.report 210 2) = .ok c' := C55_report_taken ackTeam_life 210 2
example : SafeLife Demo.cfg [] (teamTo ackTeam [([], .report 210 2), ([], .report 211 2)]).n :=
  C55_node_lives (life_of_teamOk ackTeam_life (by decide +kernel))

/-- node 2 is about to be sent its range -/
def readTeam : Team := teamTo ledTeam [([], .recv 2)]
theorem readTeam_life : TeamLife Demo.cfg [] readTeam := life_of_teamOk ledTeam_life (by decide +kernel)

/-- its task -/
def readTask : Runtime.Task := (readTeam.task 2).getD (.new ⟨⟨⟨0, 0⟩, false⟩, none⟩ none)
theorem readTask_some : readTeam.task 2 = some readTask := by
  unfold readTask
  cases h : readTeam.task 2 with
  | none => exact absurd h (by decide +kernel)
  | some k => rfl

-- with a hint of two entries: the first two
example : (∃ logs r, readRange true readTeam.n.rd.entries (some 2) 10 none (some (lid 2 1 2)) = .ok (logs, none, r) ∧ logs ≠ [] ∧ TOk readTeam (.act 2 (.matched r))) ∧
    ((readRange true readTeam.n.rd.entries (some 2) 10 none (some (lid 2 1 2))).toOption.map fun x => (x.1.map (·.id), x.2.2)) =
      some ([lid 1 2 0, lid 1 2 1], some (lid 1 2 1)) := by
  obtain ⟨logs, r, h1, _, _, h2, h3⟩ := (C55_entries_there readTeam_life readTask_some (by decide +kernel) (by decide +kernel)
    (p := none) (q := some (lid 2 1 2)) (by decide +kernel)).2 true (some 2) 10
  exact ⟨⟨logs, r, h1, h2 (by decide +kernel) (by decide), h3⟩, by decide +kernel⟩

/-- node 2 cannot be reached; the leader builds a snapshot and purges its log, and sends the snapshot -/
def snapTeamEvs : List (List LogId × TEv) := [([], .recv 2), ([], .act 2 .error), ([], .node (.msg 201 .snapshotCmd)), ([], .node .run), ([], .node .sm),
  ([], .node (.build 0)), ([], .node (.note 202)), ([], .node .run), ([], .node .run), ([], .node (.msg 203 (.purgeCmd 2))), ([], .report 204 2),
  ([], .node .run), ([], .node (.msg 205 .initiate)), ([], .node .run), ([], .node .run), ([], .recv 2), ([], .recv 2), ([], .recv 2), ([], .act 2 .error),
  ([], .snap 2 (.installed none)), ([], .recv 2), ([], .act 2 .error)]
def snapTeam : Team := teamTo ledTeam snapTeamEvs
theorem snapTeam_life : TeamLife Demo.cfg [] snapTeam := life_of_teamOk ledTeam_life (by decide +kernel)

-- the task reports the last log id of the snapshot, and the leader takes it
example : (snapTeam.task 2).map (·.reports) = some [.matching (some (lid 2 1 3))] := by decide +kernel
example : ∃ c', snapTeam.step false (.report 210 2) = .ok c' := C55_report_taken snapTeam_life 210 2

/-- node 4 is added: all tasks are replaced while one of them has a request -/
def moreEvs : List (List LogId × TEv) := [([], .recv 2), ([], .node (.change 36 52 (.addNodes [(4, 4)]) true)), ([], .node .run), ([], .node .run), ([], .node .run),
  ([], .node .run), ([], .node .run), ([], .node .run)]
def moreTeam : Team := teamTo ledTeam moreEvs
theorem moreTeam_life : TeamLife Demo.cfg [] moreTeam := life_of_teamOk ledTeam_life (by decide +kernel)

example : (moreTeam.task 4).isSome = true ∧ (moreTeam.past 2).length = 1 := by decide +kernel

-- the old task of node 2 reports late
example : moreTeam.step false (.late 220 ⟨⟨⟨2, 1⟩, true⟩, some (lid 1 2 0)⟩ 2 (.matching (some (lid 2 1 2)))) = .ok moreTeam :=
  C55_late_report moreTeam_life (by decide +kernel)

/-! ## What breaks it -/

/-- a client writes, and the task of node 3 takes the request -/
def wroteEvs : List (List LogId × TEv) := [([], .node (.write 36 51 (.normal 8))), ([], .node .run), ([], .node .run), ([], .node .run), ([], .node .run),
  ([], .node .run), ([], .node .run), ([], .recv 3), ([], .recv 3), ([], .recv 3)]
def wroteTeam : Team := teamTo ledTeam wroteEvs
theorem wroteTeam_life : TeamLife Demo.cfg [] wroteTeam := life_of_teamOk ledTeam_life (by decide +kernel)

/-- node 2 leads with vote 3; its log has another entry at index 4 -/
def otherLog : List LogId := [lid 1 2 0, lid 1 2 1, lid 2 1 2, lid 2 1 3, lid 3 2 4]
def other : Vote := ⟨⟨3, 2⟩, true⟩

/-- it sends this entry -/
def oustedEvs : List (List LogId × TEv) := [(otherLog, .node (.msg 300 (.appendReq 60 other (some (lid 2 1 3)) [⟨lid 3 2 4, .normal 9⟩] none))), ([], .node .run),
  ([], .node .run), ([], .node .run), ([], .node .run), ([], .node .run)]
/-- it asks whether the entry is there -/
def emptiedEvs : List (List LogId × TEv) := [(otherLog, .node (.msg 300 (.appendReq 60 other (some (lid 3 2 4)) [] none))), ([], .node .run), ([], .node .run),
  ([], .node .run)]

/-- **C55, a negative result**: `C55_entries_there` needs the session to be in force. A leader that is ousted does not stop its
tasks (`become_following`, `engine/handler/vote_handler/mod.rs:222-233`, emits no command for it): a task that has a request left reads
what the new leader put in place of the entries and sends it with the old vote (F3, `C28_false`). -/
theorem C55_ousted_reads_other :
    ∃ (c : Team) (k : Runtime.Task), TeamLife Demo.cfg [] c ∧ c.task 3 = some k ∧ k.ended = false ∧ k.sess.vote = ⟨⟨2, 1⟩, true⟩ ∧ c.n.eng.sessionMatch k.sess = false ∧
      k.action = some (.logs (some (lid 2 1 3)) (some (lid 2 1 4))) ∧
      readRange true c.n.rd.entries none 10 (some (lid 2 1 3)) (some (lid 2 1 4)) = .ok ([⟨lid 3 2 4, .normal 9⟩], some (lid 2 1 3), some (lid 3 2 4)) := by
  have hl : TeamLife Demo.cfg [] (teamTo wroteTeam oustedEvs) := life_of_teamOk wroteTeam_life (by decide +kernel)
  cases h : (teamTo wroteTeam oustedEvs).task 3 with
  | none => exact absurd h (by decide +kernel)
  | some k =>
    have e : k = ((teamTo wroteTeam oustedEvs).task 3).getD (.new ⟨⟨⟨0, 0⟩, false⟩, none⟩ none) := by rw [h]; rfl
    exact ⟨_, k, hl, h, by rw [e]; decide +kernel, by rw [e]; decide +kernel, by rw [e]; decide +kernel, by rw [e]; decide +kernel, by decide +kernel⟩

/-- **C55, a negative result**: if the entries were truncated and nothing is in their place, the task panics
(`logs.first()…unwrap()`, `replication/mod.rs:400`). -/
theorem C55_ousted_panics :
    ∃ (c : Team) (k : Runtime.Task), TeamLife Demo.cfg [] c ∧ c.task 3 = some k ∧ k.ended = false ∧ c.n.eng.sessionMatch k.sess = false ∧
      k.action = some (.logs (some (lid 2 1 3)) (some (lid 2 1 4))) ∧
      readRange false c.n.rd.entries none 10 (some (lid 2 1 3)) (some (lid 2 1 4)) = .error .unreachable := by
  have hl : TeamLife Demo.cfg [] (teamTo wroteTeam emptiedEvs) := life_of_teamOk wroteTeam_life (by decide +kernel)
  cases h : (teamTo wroteTeam emptiedEvs).task 3 with
  | none => exact absurd h (by decide +kernel)
  | some k =>
    have e : k = ((teamTo wroteTeam emptiedEvs).task 3).getD (.new ⟨⟨⟨0, 0⟩, false⟩, none⟩ none) := by rw [h]; rfl
    exact ⟨_, k, hl, h, by rw [e]; decide +kernel, by rw [e]; decide +kernel, by rw [e]; decide +kernel, by decide +kernel⟩

/-- **C55, a negative result**: if a request without entries (`Data::Committed`) is answered with `PayloadTooLarge`, the task sends
it again as a request with payload (`replication/mod.rs:292-298`); its success is reported, and `RaftCore` panics in
`Inflight::ack`, as nothing is in flight. -/
theorem C55_too_large_aborts :
    ∃ (c c1 c2 c3 : Team), TeamLife Demo.cfg [] c ∧ c.step false (.recv 3) = .ok c1 ∧ (c1.task 3).bind (·.action) = some .committed ∧
      c1.step false (.act 3 .tooLarge) = .ok c2 ∧ c2.step false (.act 3 (.matched (some (lid 2 1 3)))) = .ok c3 ∧
      c3.step false (.report 210 3) = .error (.panic .unreachable) := by
  refine ⟨ledTeam, teamAfter ledTeam (.recv 3), teamAfter (teamAfter ledTeam (.recv 3)) (.act 3 .tooLarge),
    teamAfter (teamAfter (teamAfter ledTeam (.recv 3)) (.act 3 .tooLarge)) (.act 3 (.matched (some (lid 2 1 3)))), ledTeam_life,
    teamAfter_ok (by decide +kernel), by decide +kernel, teamAfter_ok (by decide +kernel), teamAfter_ok (by decide +kernel), stops_some (by decide +kernel)⟩

/-- a life of a node with its tasks in which a rebuild of the tasks may be issued while another one waits in the queue -/
inductive TeamLoose (cfg : Cfg) : Team → Prop
  | fresh (now : Nat) (persist : Bool) : TeamLoose cfg ⟨Node.fresh cfg now persist, fun _ => none, fun _ => []⟩
  | step {c c' : Team} (ev : TEv) : TeamLoose cfg c → TOk c ev → c.step false ev = .ok c' → TeamLoose cfg c'

/-- all steps go through -/
def looseOk (c : Team) : List (List LogId × TEv) → Bool
  | [] => true
  | (lead, ev) :: evs => tokB lead c ev && decide (stops (c.step false ev) = none) && looseOk (teamAfter c ev) evs

theorem loose_of_looseOk {evs : List (List LogId × TEv)} (h0 : TeamLoose cfg c) (h : looseOk c evs = true) : TeamLoose cfg (teamTo c evs) := by
  induction evs generalizing c with
  | nil => exact h0
  | cons x evs ih =>
    obtain ⟨lead, ev⟩ := x
    simp only [looseOk, Bool.and_eq_true, decide_eq_true_eq] at h
    exact ih (.step ev h0 (tokB_ok h.1.1) (teamAfter_ok h.1.2)) h.2

/-- the session of the membership with node 4 -/
def sess4 : Session := ⟨⟨⟨2, 1⟩, true⟩, some (lid 2 1 3)⟩

/-- node 1 follows node 2, then becomes a candidate; its vote is written but it has not been notified. A refused vote request has its
answer wait for that; node 1 is granted by nodes 2 and 3 and leads: the rebuild of the tasks waits behind the answer, and a change of the
membership issues another. Then the notifications come; the tasks of the first rebuild have the session of the second. The first task of node 2
fails; it reports after the second rebuild, and the leader sends the second task another request; that task gets both, fails the first and
is done with the second. -/
def twiceEvs : List (List LogId × TEv) :=
  ([lid 1 2 0, lid 1 2 1], TEv.node (.msg 1 (.appendReq 7 v2 none [⟨lid 1 2 0, .membership m3⟩, ⟨lid 1 2 1, .blank⟩] (some (lid 1 2 1))))) ::
  ([.node .run, .node .run, .node .run, .node .flush, .node (.note 3), .node (.note 3), .node (.note 4), .node .run, .node .run, .node .run, .node .run, .node .sm,
    .node (.note 5), .node (.msg 6 .electCmd), .node .run, .node .run, .node .run, .node (.msg 9 (.voteReq 9 ⟨⟨1, 3⟩, false⟩ none)), .node .run,
    .node (.msg 8 (.voteResp 2 ⟨⟨2, 1⟩, false⟩ none true ⟨⟨2, 1⟩, false⟩)), .node (.msg 8 (.voteResp 3 ⟨⟨2, 1⟩, false⟩ none true ⟨⟨2, 1⟩, false⟩)), .node .run,
    .node (.change 36 52 (.addNodes [(4, 4)]) true), .node (.note 12), .node (.note 12), .node (.note 12), .node .run, .node .run, .node .run, .node .run,
    .node .run, .node .run, .recv 2, .act 2 .error, .node .run, .node .run, .node .run, .node .run, .node .run, .late 40 sess4 2 .failed,
    .node (.write 41 53 (.normal 8)), .node .run, .node .run, .node .run, .node .run, .recv 2, .act 2 .error, .recv 2, .act 2 (.matched (some (lid 2 1 4))),
    .report 50 2] : List TEv).map fun ev => ([], ev)

/-- **C55, a negative result**: `C55_report_taken` needs that no rebuild of the tasks is issued while another waits (`apart` in
`TeamLife`). Both rebuilds give their tasks the session of the membership in force when they are executed; then a late report of a replaced
task is not recognised, and `RaftCore` can panic in `Inflight::ack`. In the code the answers to vote requests come through the channel of the
notifications (`core/raft_core.rs:1102`), behind the one for the node's own vote; here they are taken at any time. -/
theorem C55_needs_apart :
    ∃ c : Team, TeamLoose Demo.cfg c ∧ sess4 ∈ c.past 2 ∧ c.n.eng.sessionMatch sess4 = true ∧ (c.task 2).map (·.sess) = some sess4 ∧
      c.step false (.report 51 2) = .error (.panic .unreachable) :=
  ⟨teamTo ⟨Node.fresh Demo.cfg 0, fun _ => none, fun _ => []⟩ twiceEvs, loose_of_looseOk (.fresh 0 _) (by decide +kernel), by decide +kernel,
    by decide +kernel, by decide +kernel, stops_some (by decide +kernel)⟩

end Openraft.Props
