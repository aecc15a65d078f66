import Verif.Runtime.Clients

/-!
# C26: what clients are answered

`CRun` (`Verif/Runtime/Clients.lean`) is a run of a node since its last start, with a record `q` of the requests
it got (caller and payload) and a record `ap` of the entries its state machine applied. `replies` of a
node is the record of its answers: a caller with the applied entry, or with an error.
-/

set_option autoImplicit false

namespace Openraft.Props
open Openraft Openraft.Engine Openraft.Runtime Openraft.Engine.Demo Openraft.Runtime.Demo
open Openraft.Cluster (Payload)

variable {dbg : Bool} {cfg : Cfg} {old : List Resp} {n0 n n' : Node} {q : List (Nat × Option Payload)} {ap : List Ent}

/-- **C26**: a caller that is answered with an entry asked for the payload of that entry, and the state
machine applied that entry. For every interleaving of requests, messages of peers, elections, truncations,
snapshots and completions since the last start of the node.

Partial: a message is one that a peer can send, and `elect` is not called on a node that is a leader
(`EvOk`); see `C26_elect_on_leader` for that case. -/
theorem C26_own_entry_partial (hl : Life dbg cfg old n0) (hs : Born n0) (hr : CRun dbg n0 q ap n) :
    ∀ tx x, (tx, some x) ∈ n.replies → (tx, some x.payload) ∈ q ∧ x ∈ ap := by
  obtain ⟨_, _, _, _, _, _, _, h⟩ := hr.inv hl hs
  exact h.said

/-- **C26**: a caller is answered at most once; with `C26_own_entry_partial`, a caller that gets an error is
never told a success, and the other way round. Partial: as `C26_own_entry_partial`. -/
theorem C26_once_partial (hl : Life dbg cfg old n0) (hs : Born n0) (hr : CRun dbg n0 q ap n) (hq : (q.map (·.1)).Nodup) :
    (n.replies.map (·.1)).Nodup ∧ ∀ c ∈ n.clients, c.2 ∉ n.replies.map (·.1) := by
  obtain ⟨_, _, _, _, _, _, _, h⟩ := hr.inv hl hs
  obtain ⟨l, h1, h2⟩ := h.once
  have h3 : (n.clients.map (·.2) ++ n.replies.map (·.1)).Nodup := h1.nodup_iff.1 (hq.sublist h2)
  rw [List.nodup_append] at h3
  refine ⟨h3.2.1, fun c hc hm => ?_⟩
  exact h3.2.2 c.2 (List.mem_map.2 ⟨c, hc, rfl⟩) c.2 hm rfl

/-- **C26**: as long as a caller waits and no command is left to be executed, the entry it asked for is in
the log at the index it waits for, unless the state machine was told to go beyond that index. So a caller
whose entry was removed before it was committed does not wait any more. Partial: as
`C26_own_entry_partial`. -/
theorem C26_waiting_partial (hl : Life dbg cfg old n0) (hs : Born n0) (hr : CRun dbg n0 q ap n)
    (hd : n.done = n.eng.out.length) {i tx : Nat} (hm : (i, tx) ∈ n.clients) :
    ∃ x : Ent, x.id.index = i ∧ (tx, some x.payload) ∈ q ∧ (x ∈ n.rd.entries ∨ i < nextIndex n.eng.st.committed) := by
  obtain ⟨g0, _, _, _, P, S, hi, h⟩ := hr.inv hl hs
  obtain ⟨x, hx⟩ := h.wait i tx hm
  have h1 := hx.track
  rw [hd, List.take_length, List.drop_length] at h1
  have h2 := hi.split
  rw [hd, List.take_length] at h2
  refine ⟨x, hx.idx, hx.mem, ?_⟩
  rcases h1 with h1 | h1
  · right
    have h3 : (g0.runs n.eng.out).com = n.eng.st.committed := hi.flow.inv.lm.log.com
    rw [h3, hx.idx] at h1
    exact h1
  · left
    rw [hi.d.rd, ← h2]; exact h1

/-- **C26**: a caller whose index is truncated gets an error in that step. -/
theorem C26_truncated {s : LogId} (hc : n.head = some (.truncate s)) (hr : n.step dbg .run = .ok n') :
    ∀ i tx, (i, tx) ∈ n.clients → s.index ≤ i → (tx, none) ∈ n'.replies ∧ ∀ j, (j, tx) ∈ n'.clients → j < s.index := by
  intro i tx hm hi
  simp only [Node.step, Node.run1, hc] at hr
  rw [if_pos (by rfl)] at hr
  simp only [out_bind, out_pure] at hr
  obtain ⟨n1, h1, hr⟩ := hr
  subst hr
  obtain ⟨_, _, _, _, _, h6⟩ := CInv.exec_keep h1
  rcases h6 with ⟨s', hs', h7, h8⟩ | ⟨hn, _⟩
  · cases hs'
    refine ⟨?_, fun j hj => ?_⟩
    · show _ ∈ n1.replies
      rw [h8]
      exact List.mem_append_right _ (List.mem_map.2 ⟨(i, tx), List.mem_filter.2 ⟨hm, by simpa using hi⟩, rfl⟩)
    · have hj : (j, tx) ∈ n1.clients := hj
      rw [h7] at hj
      simpa using (List.mem_filter.1 hj).2
  · exact absurd rfl (hn s)

/-! ## a concrete run -/

/-- the requests of a list of events -/
def askedBy (dbg : Bool) (n : Node) : List (List LogId × Ev) → List (Nat × Option Payload)
  | [] => []
  | (_, ev) :: evs => asked n ev ++ askedBy dbg (Runtime.Demo.after dbg n ev) evs

/-- the entries applied in a list of events -/
def appliedBy (dbg : Bool) (n : Node) : List (List LogId × Ev) → List Ent
  | [] => []
  | (_, ev) :: evs => (Runtime.Demo.after dbg n ev).sm.hist.drop n.sm.hist.length ++ appliedBy dbg (Runtime.Demo.after dbg n ev) evs

theorem crun_of_allOk {evs : List (List LogId × Ev)} (h0 : CRun dbg n0 q ap n) (h : Runtime.Demo.allOk dbg n evs = true) :
    CRun dbg n0 (q ++ askedBy dbg n evs) (ap ++ appliedBy dbg n evs) (Runtime.Demo.runTo dbg n evs) := by
  induction evs generalizing n q ap with
  | nil => simpa [askedBy, appliedBy, Runtime.Demo.runTo] using h0
  | cons x evs ih =>
    obtain ⟨lead, ev⟩ := x
    simp only [Runtime.Demo.allOk, Bool.and_eq_true, decide_eq_true_eq] at h
    have := ih (.step ev h0 (evB_ok h.1.1) (Runtime.Demo.after_ok h.1.2)) h.2
    simpa only [askedBy, appliedBy, Runtime.Demo.runTo, List.append_assoc] using this

/-- commands, completions and notifications until nothing is left -/
def settle : List (List LogId × Ev) :=
  runs 4 ++ [([], .flush), ([], .flush), ([], .note 2), ([], .note 2), ([], .note 2), ([], .note 2)] ++ runs 4 ++
  [([], .flush), ([], .sm), ([], .note 2)]

/-- the log of leader 2 -/
def leadA : List LogId := [lid 1 2 0, lid 1 2 1]
/-- the vote of node 1 in term 2, as a candidate and as a leader -/
def vc26 : Vote := ⟨⟨2, 1⟩, false⟩
def vl26 : Vote := ⟨⟨2, 1⟩, true⟩
/-- the log of leader 3 -/
def leadB : List LogId := [lid 1 2 0, lid 1 2 1, lid 2 1 2, lid 2 1 3, lid 3 3 4]

/-- Node 1 gets two entries of leader 2, then it becomes leader itself. -/
def leadEvs : List (List LogId × Ev) :=
  [(leadA, .msg 1 (.appendReq 7 v2 none [⟨lid 1 2 0, .membership m3⟩, ⟨lid 1 2 1, .blank⟩] (some (lid 1 2 1))))] ++ settle ++ settle ++
  [([], .msg 30 .electCmd)] ++ runs 3 ++ [([], .note 31), ([], .note 31), ([], .msg 32 (.voteResp 3 vc26 none true vc26))] ++ runs 9 ++
  [([], .note 33), ([], .note 33), ([], .note 33)]

/-- Two clients write. The first entry is replicated, committed and applied; the second one is replaced by
an entry of leader 3. -/
def twoEvs : List (List LogId × Ev) :=
  leadEvs ++ [([], .write 34 50 (.normal 7))] ++ settle ++
  [([], .msg 35 (.replProgress ⟨vl26, some (lid 1 2 0)⟩ 3 (.matching (some (lid 2 1 2)))))] ++ settle ++ [([], .msg 35 .initiate)] ++ settle ++
  [([], .msg 35 (.replProgress ⟨vl26, some (lid 1 2 0)⟩ 3 (.matching (some (lid 2 1 3)))))] ++ settle ++
  [([], .write 36 51 (.normal 8))] ++ settle ++
  [(leadB, .msg 60 (.appendReq 9 ⟨⟨3, 3⟩, true⟩ (some (lid 2 1 3)) [⟨lid 3 3 4, .blank⟩] (some (lid 3 3 4))))] ++ settle ++ settle

/-- the node after these events -/
def two : Node := runTo true (Node.fresh Demo.cfg 0) twoEvs

theorem two_run : CRun true (Node.fresh Demo.cfg 0) (askedBy true (Node.fresh Demo.cfg 0) twoEvs)
    (appliedBy true (Node.fresh Demo.cfg 0) twoEvs) two := by
  have := crun_of_allOk (dbg := true) (evs := twoEvs) (.refl (n0 := Node.fresh Demo.cfg 0)) (by decide +kernel)
  rwa [List.nil_append, List.nil_append] at this

/-- a started node -/
theorem fresh_life (dbg : Bool) : Life dbg Demo.cfg [] (Node.fresh Demo.cfg 0) := .fresh 0 _

-- one caller is told its entry, the other one an error
example : two.replies = [(50, some ⟨lid 2 1 3, .normal 7⟩), (51, none)] ∧ two.clients = [] := by decide +kernel
-- what the first theorem says of this run
example : (50, some (.normal 7)) ∈ askedBy true (Node.fresh Demo.cfg 0) twoEvs ∧
    (⟨lid 2 1 3, .normal 7⟩ : Ent) ∈ appliedBy true (Node.fresh Demo.cfg 0) twoEvs :=
  C26_own_entry_partial (fresh_life true) (Born.fresh _ _ _) two_run 50 ⟨lid 2 1 3, .normal 7⟩ (by decide +kernel)
-- the second one
example : (two.replies.map (·.1)).Nodup :=
  (C26_once_partial (fresh_life true) (Born.fresh _ _ _) two_run (by decide +kernel)).1

/-- the same node before its entry is replicated -/
def waitEvs : List (List LogId × Ev) := leadEvs ++ [([], .write 34 50 (.normal 7))] ++ settle
def waits : Node := runTo true (Node.fresh Demo.cfg 0) waitEvs

example : waits.clients = [(3, 50)] ∧ waits.done = waits.eng.out.length ∧ ⟨lid 2 1 3, .normal 7⟩ ∈ waits.rd.entries := by decide +kernel
example : ∃ q ap, CRun true (Node.fresh Demo.cfg 0) q ap waits ∧
    ∃ x : Ent, x.id.index = 3 ∧ (50, some x.payload) ∈ q ∧ (x ∈ waits.rd.entries ∨ 3 < nextIndex waits.eng.st.committed) := by
  have h := crun_of_allOk (dbg := true) (evs := waitEvs) (.refl (n0 := Node.fresh Demo.cfg 0)) (by decide +kernel)
  exact ⟨_, _, h, C26_waiting_partial (n := waits) (fresh_life true) (Born.fresh _ _ _) h (by decide +kernel) (by decide +kernel)⟩

/-- the node when the truncation is the next command -/
def cuts : Node := runTo true (Node.fresh Demo.cfg 0) (twoEvs.take 146)

example : cuts.head = some (.truncate (lid 2 1 4)) ∧ cuts.clients = [(4, 51)] ∧
    (∃ n', cuts.step true .run = .ok n' ∧ n'.clients = [] ∧ (51, none) ∈ n'.replies) := by
  refine ⟨by decide +kernel, by decide +kernel, _, Runtime.Demo.after_ok (by decide +kernel), by decide +kernel, by decide +kernel⟩

/-! ## a caller that waits for ever -/

theorem crun_trans {q' : List (Nat × Option Payload)} {ap' : List Ent} (h : CRun dbg n0 q ap n) (h' : CRun dbg n q' ap' n') :
    CRun dbg n0 (q ++ q') (ap ++ ap') n' := by
  induction h' with
  | refl => simpa using h
  | step ev _ ho hs ih => rw [← List.append_assoc, ← List.append_assoc]; exact .step ev ih ho hs

theorem run_of_crun (h : CRun dbg n0 q ap n) : Node.Run dbg n0 n := by
  induction h with
  | refl => exact .refl
  | step ev _ ho hs ih => exact .step ev ih ho hs

/-- A leader writes an entry, then it gets a snapshot of the next leader that goes beyond its log. -/
def clientLostEvs : List (List LogId × Ev) :=
  leadEvs ++ [([], .write 34 50 (.normal 7))] ++ runs 4 ++
  [([], .msg 60 (.snapReq 8 ⟨⟨3, 3⟩, true⟩ ⟨some (lid 3 3 9), ⟨some (lid 1 2 0), m3⟩, 5⟩))] ++ settle ++ settle

/-- the node after these events -/
def clientLost : Node := runTo true (Node.fresh Demo.cfg 0) clientLostEvs

theorem clientLost_run : CRun true (Node.fresh Demo.cfg 0) [(50, some (.normal 7))]
    (appliedBy true (Node.fresh Demo.cfg 0) clientLostEvs) clientLost := by
  have := crun_of_allOk (dbg := true) (evs := clientLostEvs) (.refl (n0 := Node.fresh Demo.cfg 0)) (by decide +kernel)
  rw [List.nil_append, List.nil_append] at this
  have h : askedBy true (Node.fresh Demo.cfg 0) clientLostEvs = [(50, some (.normal 7))] := by decide +kernel
  rw [h] at this
  exact this

/-- **C26** does not hold for a snapshot: the caller's entry at index 3 is gone from the log and from the
state machine's input, all commands and IO are done, and whatever happens then in this process the caller is
never answered, neither with an entry nor with an error. (`install_full_snapshot`,
`following_handler/mod.rs:279-330`, truncates only when the log has a different entry at the index of the
snapshot; `client_resp_channels` loses entries only by applying them, `raft_core.rs:776`, and by truncation,
`:1724`.) -/
theorem C26_never_answered :
    clientLost.done = clientLost.eng.out.length ∧ clientLost.pend = [] ∧ clientLost.rx = [] ∧ clientLost.rd.entries = [] ∧
    clientLost.sm.applied = some (lid 3 3 9) ∧
    ∀ q' ap' n', CRun true clientLost q' ap' n' → (50 :: q'.map (·.1)).Nodup →
      (3, 50) ∈ n'.clients ∧ 50 ∉ n'.replies.map (·.1) := by
  refine ⟨by decide +kernel, by decide +kernel, by decide +kernel, by decide +kernel, by decide +kernel, fun q' ap' n' hr hq => ?_⟩
  have h1 : Stuck 3 50 clientLost := by
    refine ⟨by decide +kernel, by decide +kernel, fun l es hm => ?_⟩
    have : clientLost.rx = [] := by decide +kernel
    rw [this] at hm
    cases hm
  obtain ⟨_, _, _, _, _, _, hi, _⟩ := clientLost_run.inv (fresh_life true) (Born.fresh _ _ _)
  have h2 := (h1.run hi (run_of_crun hr)).mem
  refine ⟨h2, ?_⟩
  have h3 := C26_once_partial (fresh_life true) (Born.fresh _ _ _) (crun_trans clientLost_run hr) (by simpa using hq)
  exact h3.2 _ h2

/-! ## `elect` on a leader -/

/-- the events do not stop the node -/
def noStops (dbg : Bool) (n : Node) : List (List LogId × Ev) → Bool
  | [] => true
  | (_, ev) :: evs => decide (Runtime.Demo.stops (n.step dbg ev) = none) && noStops dbg (Runtime.Demo.after dbg n ev) evs

/-- A node of a cluster of one is initialized and becomes leader; then `elect` is called, and a client writes
before the vote for the next term is saved. -/
def electEvs : List (List LogId × Ev) :=
  [([], .msg 1 (.init 7 m1))] ++ settle ++ settle ++
  [([], .msg 5 .electCmd)] ++ runs 3 ++ [([], .write 6 50 (.normal 7))] ++ runs 2 ++ [([], .note 7), ([], .note 7)] ++ runs 5 ++
  [([], .note 7), ([], .note 7), ([], .note 7)] ++ runs 5 ++
  [([], .flush), ([], .flush), ([], .flush), ([], .note 7), ([], .note 7), ([], .note 7)] ++ runs 5 ++ [([], .note 7)]

/-- the node after these events -/
def elects : Node := runTo false (Node.fresh Demo.cfg 0) electEvs

/-- **C26** does not hold in a release build when `elect` is called on a leader (`ExternalCommand::Elect`,
`raft_core.rs`, only asks whether the node is a voter): the leader takes a request at index 2 after it asked
for votes, then it establishes itself again with the log it had before, and appends its blank entry at
index 2 too, without a truncation. The blank entry is committed, and the caller would be answered with it. -/
theorem C26_elect_on_leader :
    noStops false (Node.fresh Demo.cfg 0) electEvs = true ∧
    askedBy false (Node.fresh Demo.cfg 0) electEvs = [(50, some (.normal 7))] ∧
    elects.clients = [(2, 50)] ∧ elects.eng.st.committed = some (lid 2 1 2) ∧
    .append ⟨⟨1, 1⟩, true⟩ [⟨lid 1 1 2, .normal 7⟩] ∈ elects.eng.out ∧
    .append ⟨⟨2, 1⟩, true⟩ [⟨lid 2 1 2, .blank⟩] ∈ elects.eng.out ∧
    (∀ s, .truncate s ∉ elects.eng.out) ∧
    (elects.answer [⟨lid 2 1 2, .blank⟩]).replies = [(50, some ⟨lid 2 1 2, .blank⟩)] := by
  refine ⟨by decide +kernel, by decide +kernel, by decide +kernel, by decide +kernel, by decide +kernel, by decide +kernel, fun s hs => ?_, by decide +kernel⟩
  have h : (elects.eng.out.all fun c => match c with | .truncate _ => false | _ => true) = true := by decide +kernel
  have := List.all_eq_true.1 h _ hs
  simp at this

end Openraft.Props
