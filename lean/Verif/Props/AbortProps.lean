import Verif.Runtime.Worker
import Verif.Engine.Transfer
import Verif.Props.ClientProps

/-!
# C35, C45: the inputs that abort a node, and that no other does
-/

set_option autoImplicit false

namespace Openraft.Props
open Openraft.Engine Openraft.Runtime Openraft.Runtime.Demo
open Openraft.Engine.Demo (cfg lid m3 v2 okB okB_ok)
open Openraft.Repl (Panic)

/-! ## C35: leadership is handed over -/

/-- **C35** in full, for a release build: a node that is told to take over and goes on from there does not abort when
it handles a notification. -/
def C35_statement : Prop :=
  ∀ (cfg : Cfg) (n n1 n2 : Node) (t now now' : Nat) (v : Vote) (target : NodeId), Node.Run false (Node.fresh cfg t) n →
    EvOk n (.msg now (.handleTransfer v target)) → n.step false (.msg now (.handleTransfer v target)) = .ok n1 →
    Node.Run false n1 n2 → ∃ n3, n2.step false (.note now') = .ok n3

/-- A learner that is told to take over stands for election, and cannot count its own vote: the progress of
a candidate has the voters only (`Candidate::new`, `proposer/candidate.rs:45-60`) and `grant_by` expects the node
to be there. `HandleTransferLeader` (`core/raft_core.rs:1247-1259`) does not ask whether the node is a voter, as
`ExternalCommand::Elect` does (`:1264-1272`). This holds of every state. -/
theorem C35_learner_aborts {e : Eng} {now now' : Nat} {v : Vote} (last : Option LogId) (hv : e.st.vote.data = v)
    (hc : e.st.ms.effective.mem.contains e.cfg.id = true) (hn : e.st.ms.effective.mem.isVoter e.cfg.id = false) :
    ∃ e1, e.input false now (.handleTransfer v e.cfg.id) = .ok e1 ∧
      e1.input false now' (.voteResp e.cfg.id (nextVote v e.cfg.id) last true (nextVote v e.cfg.id)) =
        .error .unreachable := by
  obtain ⟨e1, h1, h2, h3, h4, h5, h6, h7, h8⟩ :=
    Eng.elect_ok (e := { e with st := { e.st with vote := e.st.vote.disable } }) (now := now) hc
  have hd : e.st.vote.disable.data = v := by rw [← hv]; rfl
  simp only [hd] at h2 h3
  refine ⟨e1, ?_, ?_⟩
  · show e.coreHandleTransfer false now v e.cfg.id = _
    unfold Eng.coreHandleTransfer
    rw [if_pos hv, if_pos rfl]
    exact h1
  · have hcf : e1.cfg.id = e.cfg.id := by rw [h4]
    have := Eng.self_vote_aborts (now := now') h2 rfl (last := last) (by
      show (VecProgress.new e.st.ms.effective.mem.configs [] false).index e1.cfg.id = none
      rw [hcf]
      cases hx : (VecProgress.new e.st.ms.effective.mem.configs [] false).index e.cfg.id with
      | none => rfl
      | some k =>
        obtain ⟨q, hq⟩ := index_some hx
        have hmem : e.cfg.id ∈ Openraft.VecProgress.ids (VecProgress.new e.st.ms.effective.mem.configs [] false).vector :=
          List.mem_map.2 ⟨_, List.mem_of_getElem? hq, rfl⟩
        rw [Eng.covers_cand, hn] at hmem
        cases hmem)
    rw [hcf] at this
    exact this

/-- node 1 is a learner -/
def mLearn : Membership := ⟨[[2, 3]], [(1, 0), (2, 0), (3, 0)]⟩

/-- Node 1, a learner, follows leader 2, which then tells it to take over. -/
def learnEvs : List (List LogId × Ev) :=
  [(leadA, .msg 1 (.appendReq 7 v2 none [⟨lid 1 2 0, .membership mLearn⟩, ⟨lid 1 2 1, .blank⟩] (some (lid 1 2 1))))] ++ settle ++ settle ++
  [([], .msg 30 (.handleTransfer v2 1))] ++ runs 3 ++ [([], .note 31)]

/-- the node when the answer to its own vote request arrives -/
def learns (dbg : Bool) : Node := runTo dbg (Node.fresh Demo.cfg 0) learnEvs

theorem learns_run (dbg : Bool) : Node.Run dbg (Node.fresh Demo.cfg 0) (learns dbg) :=
  run_of_allOk .refl (by cases dbg <;> decide +kernel)

/-- **C35 is false**: from its first start a node comes to a state in which the answer to its own vote request
aborts it, in release and in debug builds. -/
theorem C35_learner_run (dbg : Bool) :
    ∃ n, Node.Run dbg (Node.fresh Demo.cfg 0) n ∧ n.step dbg (.note 32) = .error (.panic .unreachable) :=
  ⟨learns dbg, learns_run dbg, stops_some (by cases dbg <;> decide +kernel)⟩

/-- the learner before and after the message that tells it to take over -/
def learns0 : Node := runTo false (Node.fresh Demo.cfg 0) (learnEvs.take 35)
@[inherit_doc learns0] def learns1 : Node := after false learns0 (.msg 30 (.handleTransfer v2 1))
@[inherit_doc learns0] def learns2 : Node := runTo false learns1 (learnEvs.drop 36)

theorem C35_false : ¬ C35_statement := fun h => by
  obtain ⟨n3, h3⟩ := h Demo.cfg learns0 learns1 learns2 0 30 32 v2 1 (run_of_allOk .refl (by decide +kernel))
    (evB_ok (lead := []) (by decide +kernel)) (after_ok (by decide +kernel)) (run_of_allOk .refl (by decide +kernel))
  have : stops (learns2.step false (.note 32)) = some (.panic .unreachable) := by decide +kernel
  rw [h3] at this
  cases this

-- the state in which the learner is told to take over meets the hypotheses of `C35_learner_aborts`
example : let e := learns0.eng
    e.st.vote.data = v2 ∧ e.st.ms.effective.mem.contains e.cfg.id = true ∧ e.st.ms.effective.mem.isVoter e.cfg.id = false := by
  decide +kernel

/-- **C35**, the part that holds: a message of another leader than the one the node follows changes nothing; a node
that is not the target only gives up its lease; the target, if it has a record in its membership, stands for
election with a new vote of its own that it saves and sends together with its last log id.
Missing: the target must be a voter, otherwise it aborts (`C35_false`). -/
theorem C35_transfer_partial {e : Eng} {now : Nat} {v : Vote} {target : NodeId} :
    (e.st.vote.data ≠ v → e.input false now (.handleTransfer v target) = .ok e) ∧
    (e.st.vote.data = v → e.cfg.id ≠ target → ∃ e1, e.input false now (.handleTransfer v target) = .ok e1 ∧
      e1 = { e with st := { e.st with vote := { e.st.vote with lease := 0, enabled := false } } }) ∧
    (e.st.vote.data = v → e.cfg.id = target → e.st.ms.effective.mem.contains target = true →
      ∃ e1, e.input false now (.handleTransfer v target) = .ok e1 ∧
        e1.st.vote.data = ⟨⟨v.leaderId.term + 1, target⟩, false⟩ ∧ e.st.vote.data < e1.st.vote.data ∧
        e1.st.logIds = e.st.logIds ∧ e1.leader = e.leader ∧
        e1.out = e.out ++ [.saveVote e1.st.vote.data, .sendVote e1.st.vote.data e.st.lastLogId] ∧
        ∃ c, e1.candidate = some c ∧ c.vote = e1.st.vote.data ∧ c.mem = e.st.ms.effective.mem) := by
  refine ⟨fun h => ?_, fun h h' => ?_, fun h h' hc => ?_⟩
  · show e.coreHandleTransfer false now v target = _
    unfold Eng.coreHandleTransfer
    rw [if_neg h]; rfl
  · refine ⟨_, ?_, rfl⟩
    show e.coreHandleTransfer false now v target = _
    unfold Eng.coreHandleTransfer
    rw [if_pos h, if_neg h']; rfl
  · subst h'
    obtain ⟨e1, h1, h2, h3, h4, h5, h6, h7, h8⟩ :=
      Eng.elect_ok (e := { e with st := { e.st with vote := e.st.vote.disable } }) (now := now) hc
    have hd : e.st.vote.disable.data = v := by rw [← h]; rfl
    simp only [hd] at h2 h3 h8
    refine ⟨e1, ?_, h3, ?_, h7, h5, ?_, _, h2, ?_, rfl⟩
    · show e.coreHandleTransfer false now v e.cfg.id = _
      unfold Eng.coreHandleTransfer
      rw [if_pos h, if_pos rfl]
      exact h1
    · rw [h3, ← h]
      exact Eng.vote_lt_new (v := e.st.vote.data) e.cfg.id
    · rw [h3]; exact h8
    · rw [h3]; rfl

/-- Node 1, a voter, follows leader 2. -/
def takeEvs : List (List LogId × Ev) :=
  [(leadA, .msg 1 (.appendReq 7 v2 none [⟨lid 1 2 0, .membership m3⟩, ⟨lid 1 2 1, .blank⟩] (some (lid 1 2 1))))] ++ settle ++ settle

/-- the node after that -/
def takes : Node := runTo false (Node.fresh Demo.cfg 0) takeEvs

-- the three cases
example : takes.eng.st.vote.data = v2 ∧ takes.eng.st.vote.data ≠ ⟨⟨1, 3⟩, true⟩ ∧ takes.eng.cfg.id = 1 ∧
    takes.eng.st.ms.effective.mem.contains 1 = true ∧ takes.eng.candidate.isNone = true := by decide +kernel
example : ∃ e1, takes.eng.input false 20 (.handleTransfer v2 1) = .ok e1 ∧ e1.st.vote.data = ⟨⟨2, 1⟩, false⟩ ∧
    e1.candidate.isSome = true := by
  obtain ⟨e1, h1, h2, _, _, _, _, c, h3, _⟩ := (C35_transfer_partial (e := takes.eng) (now := 20) (v := v2) (target := 1)).2.2
    (by decide +kernel) (by decide +kernel) (by decide +kernel)
  exact ⟨e1, h1, h2, by rw [h3]; rfl⟩

/-! ## C45: no input aborts a node -/

/-- **C45**, the part that is proved: in a release build, whatever happened to a node from its first start, over
any number of crashes, taking the next message, client write, membership change, notification, disk completion,
state machine command or finished snapshot does not abort it. The messages are those that other nodes can send
(`EvOk`) and meet what their senders guarantee (`EvSafe`): a granted vote comes from a voter, an answer to a
replication request is about a request that was sent, and no learner is told to take over (`C35_false`).
Missing: executing a queued command (`ev = .run`), see C34 and C42. -/
theorem C45_no_abort_partial {cfg : Cfg} {old : List Resp} {n : Node} {ev : Ev} (h : SafeLife cfg old n)
    (ho : EvOk n ev) (hs : EvSafe n ev) (hne : ev ≠ .run) : ∃ n', n.step false ev = .ok n' := by
  by_cases h1 : ev = .sm
  · subst h1
    obtain ⟨g0, a0, s0, c0, P, S, hi, hq⟩ := h.life.queued
    exact hi.smStep_total hq
  · obtain ⟨⟨g0, a0, s0, c0, P, S, hi⟩, _⟩ := h.life.inv
    obtain ⟨n', k, _⟩ := take_total hi h.ln ho hs ⟨hne, h1⟩
    exact ⟨n', k⟩

/-- **C45** for the state machine worker, release and debug builds: the entries that it is told to apply are in
the log whenever it comes to them, however late that is. -/
theorem C45_worker {dbg : Bool} {cfg : Cfg} {old : List Resp} {n : Node} (h : Life dbg cfg old n) :
    ∃ n', n.step dbg .sm = .ok n' := by
  obtain ⟨g0, a0, s0, c0, P, S, hi, hq⟩ := h.queued
  exact hi.smStep_total hq

/-- **C45** for start-up: a node can be restarted after a crash at any moment, if the state machine is not behind
what the log was purged up to (`Fits`). -/
theorem C45_restart {dbg : Bool} {cfg : Cfg} {old : List Resp} {n : Node} (k now : Nat) (h : Life dbg cfg old n)
    (hf : Fits (n.crashDisk k) n.sm.reboot) : ∃ n', restart false now cfg (n.crashDisk k) n.sm = .ok n' := by
  obtain ⟨⟨g0, a0, s0, c0, P, S, hi⟩, _⟩ := h.inv
  obtain ⟨n', k1, _⟩ := restart_total (now := now) (cfg := cfg) (hi.crash_ok k) hf
  exact ⟨n', k1⟩

/-- decide `EvSafe` -/
def safeB (n : Node) : Ev → Bool
  | .msg _ (.handleTransfer v target) => decide (n.eng.st.vote.data = v → n.eng.cfg.id = target → n.eng.st.ms.effective.mem.isVoter n.eng.cfg.id = true)
  | .msg _ (.voteResp target _ _ _ _) => n.eng.st.ms.effective.mem.isVoter target
  | .msg _ (.replProgress s target (.matching m)) => s.vote.committed && n.eng.st.ms.effective.mem.isVoter target &&
      match n.eng.leader with
      | none => true
      | some l => decide ((l.progress.ent target).inflight ≠ .none ∧ nextIndex m ≤ nextIndex n.eng.st.lastLogId)
  | .msg _ (.replProgress s target .failed) => s.vote.committed && n.eng.st.ms.effective.mem.isVoter target
  | .msg _ (.replProgress _ _ _) | .msg _ (.hbProgress _ _ _) | .msg _ (.localIO _) => false
  | _ => true

theorem safeB_ok {n : Node} {ev : Ev} (h : safeB n ev = true) : EvSafe n ev := by
  cases ev with
  | msg now i =>
    intro _
    cases i with
    | handleTransfer v target =>
      have := of_decide_eq_true h
      exact this
    | voteResp target v last granted sender => exact fun _ _ _ _ => h
    | localIO io => cases h
    | replProgress s target r =>
      cases r with
      | matching m =>
        simp only [safeB, Bool.and_eq_true] at h
        refine fun _ => ⟨h.1.1, Or.inl h.1.2, fun l hl => ?_⟩
        have h2 := h.2
        rw [hl] at h2
        have := of_decide_eq_true h2
        exact this
      | conflict c => cases h
      | failed =>
        simp only [safeB, Bool.and_eq_true] at h
        exact fun _ => ⟨h.1, Or.inl h.2, fun _ _ => trivial⟩
    | hbProgress s target t => cases h
    | _ => trivial
  | _ => trivial

/-- all messages of a run are `EvSafe` -/
def allSafe (n : Node) : List (List LogId × Ev) → Bool
  | [] => true
  | (_, ev) :: evs => safeB n ev && allSafe (after false n ev) evs

theorem safe_of_allSafe {cfg : Cfg} {old : List Resp} {n : Node} {evs : List (List LogId × Ev)} (h0 : SafeLife cfg old n)
    (h : allOk false n evs = true) (hs : allSafe n evs = true) : SafeLife cfg old (runTo false n evs) := by
  induction evs generalizing n with
  | nil => exact h0
  | cons x evs ih =>
    obtain ⟨lead, ev⟩ := x
    simp only [allOk, Bool.and_eq_true, decide_eq_true_eq] at h
    simp only [allSafe, Bool.and_eq_true] at hs
    exact ih (.step ev h0 (evB_ok h.1.1) (safeB_ok hs.1) (after_ok h.1.2)) h.2 hs.2

/-- the run of `two` (a follower that becomes a leader, replicates, and is replaced) in a release build -/
def twoR : Node := runTo false (Node.fresh Demo.cfg 0) twoEvs

theorem twoR_safe : SafeLife Demo.cfg [] twoR :=
  safe_of_allSafe (.fresh 0 _) (by decide +kernel) (by decide +kernel)

-- the replaced leader takes a vote request, and it can be restarted
example : ∃ n', twoR.step false (.msg 90 (.voteReq 11 ⟨⟨9, 2⟩, false⟩ (some (lid 3 3 4)))) = .ok n' :=
  C45_no_abort_partial twoR_safe (evB_ok (lead := []) (by decide +kernel)) (safeB_ok (by decide +kernel)) (by simp)
example : ∃ n', restart false 100 Demo.cfg (twoR.crashDisk 0) twoR.sm = .ok n' :=
  C45_restart 0 100 twoR_safe.life (fitsB_ok (by decide +kernel))

/-- the run up to a moment in which the worker has entries to apply -/
def busy : Node := runTo false (Node.fresh Demo.cfg 0) (twoEvs.take 15)

-- a worker with something to apply
example : busy.smq ≠ [] ∧ ∃ n', busy.step false .sm = .ok n' :=
  ⟨by decide +kernel, C45_worker (SafeLife.life (cfg := Demo.cfg) (old := []) (safe_of_allSafe (.fresh 0 _) (by decide +kernel) (by decide +kernel)))⟩

end Openraft.Props
