import Verif.Engine.Role
import Verif.Runtime.Valid
import Verif.Runtime.ApplyReady
import Verif.Rt.Watch
import Verif.Props.EngineProps

/-!
# The metrics of a node

`RaftCore::report_metrics` and `RaftCore::main`: what a node publishes about itself, and the metrics channel.

Simplifications: `running_state`, `millis_since_quorum_ack`, `last_quorum_acked` and `heartbeat` are left out;
`RaftDataMetrics` and `RaftServerMetrics` are in `Runtime/Boards.lean`.
-/

set_option autoImplicit false

namespace Openraft.Runtime
open Openraft.Engine
open Openraft.Rt (Watch Waiter)

/-- `ServerState` as it is published: `core/server_state.rs:1-24` has also `Shutdown` -/
inductive Published where
  | as (s : ServerState)
  | shutdown
deriving DecidableEq, Repr

/-- `RaftMetrics`, `metrics/raft_metrics.rs:19-114` -/
structure Metrics where
  id : NodeId
  term : Nat
  vote : Vote
  lastLogIndex : Option Nat
  lastApplied : Option LogId
  snapshot : Option LogId
  purged : Option LogId
  state : Published
  currentLeader : Option NodeId
  mem : StoredMem
  replication : Option (List (NodeId × Option LogId))
deriving DecidableEq

/-- `RaftMetrics::new_initial`, `metrics/raft_metrics.rs:164-185` -/
def Metrics.initial (id : NodeId) : Metrics :=
  ⟨id, 0, ⟨⟨0, 0⟩, false⟩, none, none, none, none, .as .follower, none, .empty, none⟩

/-- `RaftCore::current_leader`, `core/raft_core.rs:697-721` -/
def leaderOf (e : Eng) : Option NodeId :=
  if e.st.vote.data.committed then
    let id := e.st.vote.data.leaderId.node
    if e.st.ms.effective.mem.isVoter id then some id else none
  else none

/-- `RaftCore::report_metrics`, `core/raft_core.rs:549-585`, with the argument `replication` -/
def reportWith (e : Eng) (replication : Option (List (NodeId × Option LogId))) : Metrics :=
  { id := e.cfg.id
    term := e.st.vote.data.leaderId.term
    vote := (e.st.io.prog.flushed.map (·.vote)).getD ⟨⟨0, 0⟩, false⟩
    lastLogIndex := e.st.lastLogId.map (·.index)
    lastApplied := e.st.io.applied
    snapshot := e.st.io.snapshot
    purged := e.st.io.purged
    state := .as e.st.server
    currentLeader := leaderOf e
    mem := e.st.ms.effective
    replication := replication }

/-- `RaftCore::flush_metrics`, `core/raft_core.rs:532-545` -/
def flushMetrics (e : Eng) : Metrics := reportWith e (e.leader.map (·.progress.vp.vector))

/-- the metrics of a node that ends: what was published last, with the state `Shutdown`, `core/raft_core.rs:239-245` -/
def Metrics.ended (m : Metrics) : Metrics := { m with state := .shutdown }

/-- what happens to a node and its metrics channel while the process is up -/
inductive RepStep (dbg : Bool) : Node × Watch Metrics → Node × Watch Metrics → Prop
  | step {n n' : Node} {w : Watch Metrics} (ev : Ev) : w.closed = false → EvOk n ev → n.step dbg ev = .ok n' → RepStep dbg (n, w) (n', w)
  /-- the first report, `core/raft_core.rs:262` -/
  | first {n : Node} {w : Watch Metrics} : w.closed = false → RepStep dbg (n, w) (n, w.send (reportWith n.eng none))
  /-- the head of the loop, `core/raft_core.rs:911` -/
  | flush {n : Node} {w : Watch Metrics} : w.closed = false → RepStep dbg (n, w) (n, w.send (flushMetrics n.eng))
  /-- the end of `RaftCore::main`, `core/raft_core.rs:227-245`; then the sender is dropped -/
  | stop {n : Node} {w : Watch Metrics} : w.closed = false →
      RepStep dbg (n, w) (n, { (w.send (reportWith n.eng none)).send (reportWith n.eng none).ended with closed := true })

/-- a process, from its start: a node and its metrics channel. The channel is made before the engine starts, `raft/mod.rs:248`. -/
inductive Reporting (dbg : Bool) (n0 : Node) : Node × Watch Metrics → Prop
  | start : Reporting dbg n0 (n0, ⟨.initial n0.eng.cfg.id, [], false⟩)
  | next {s s' : Node × Watch Metrics} : Reporting dbg n0 s → RepStep dbg s s' → Reporting dbg n0 s'

/-- a process and a call of `Wait::metrics` on it -/
inductive Asking (dbg : Bool) (f : Metrics → Bool) (n0 : Node) : Node × Watch Metrics → Waiter Metrics → Prop
  | begin {s : Node × Watch Metrics} (timeoutAt seen : Nat) : Reporting dbg n0 s → seen ≤ s.2.ver → Asking dbg f n0 s (.start timeoutAt seen)
  | next {s s' : Node × Watch Metrics} {t : Waiter Metrics} : Asking dbg f n0 s t → RepStep dbg s s' → Asking dbg f n0 s' t
  | poll {s : Node × Watch Metrics} {t : Waiter Metrics} (now : Nat) : Asking dbg f n0 s t → Asking dbg f n0 s (t.poll f s.2 now)

/-! ## The server state -/

section
variable {dbg : Bool} {g0 : Gh} {a0 : IOId} {s0 c0 : Option LogId} {P S : List Cmd} {n n' : Node} {ev : Ev}

/-- what is kept by the inputs of the engine and by changes of the recorded positions is kept by the steps of a node -/
theorem RInv.lifts {Q : Eng → Prop} (h : RInv g0 a0 s0 c0 P S n) (ho : EvOk n ev) (hr : n.step dbg ev = .ok n')
    (hrec : ∀ p x, Q { n.eng with st := { n.eng.st with io := { n.eng.st.io with prog := p, purged := x } } })
    (hin : ∀ now i e, InputOk n.eng i → n.eng.input dbg now i = .ok e → Q e) (hq : Q n.eng) : Q n'.eng := by
  by_cases h1 : ev = .run
  · subst h1
    rcases run_view hr with rfl | ⟨c, n1, _, _, h2, rfl⟩
    · exact hq
    · obtain ⟨p, x, h3, _⟩ := (exec_frame h2).eng
      show Q n1.eng
      rw [h3]; exact hrec p x
  · rcases (h.view ho h1 hr).2.2 with h2 | ⟨now, i, _, h3, _, h4⟩
    · rw [h2]; exact hq
    · exact hin now i _ h3 h4

theorem srv_step (h : RInv g0 a0 s0 c0 P S n) (hs : SrvOk n.eng) (ho : EvOk n ev) (hr : n.step dbg ev = .ok n') : SrvOk n'.eng :=
  h.lifts ho hr (fun _ _ => hs) (fun _ _ _ hi he => Eng.srv_input h.flow.inv hs hi he) hs

theorem Life.srv {cfg : Cfg} {old : List Resp} (h : Life dbg cfg old n) : SrvOk n.eng := by
  induction h with
  | fresh now persist => intro _; rfl
  | @step old n n' ev hl ho hr ih =>
    obtain ⟨⟨g0, a0, s0, c0, P, S, hi⟩, _⟩ := hl.inv
    exact srv_step hi ih ho hr
  | @crash old n n' k now hl hf hr ih =>
    obtain ⟨⟨g0, a0, s0, c0, P, S, hi⟩, _⟩ := hl.inv
    obtain ⟨st, store, s2, base, e, _, _, _, _, rfl, he, hst, _⟩ := restart_base (hi.crash_ok k) hf hr
    exact Eng.srv_startup hst he

/-! ## What only moves forward -/

theorem vote_mem_step (h : RInv g0 a0 s0 c0 P S n) (ho : EvOk n ev) (hr : n.step dbg ev = .ok n') : n.eng.st.vote.data ≤ n'.eng.st.vote.data :=
  h.lifts (Q := fun e => n.eng.st.vote.data ≤ e.st.vote.data) ho hr (fun _ _ => le_refl _)
    (fun _ _ _ hi he => Props.C06_vote_forward h.flow.inv hi he) (le_refl _)

theorem cfg_step (h : RInv g0 a0 s0 c0 P S n) (ho : EvOk n ev) (hr : n.step dbg ev = .ok n') : n'.eng.cfg = n.eng.cfg :=
  h.lifts (Q := fun e => e.cfg = n.eng.cfg) ho hr (fun _ _ => rfl) (fun _ _ _ _ he => (Eng.grow_input _ _ _ he).1) rfl

/-- what the state machine does moves forward -/
theorem sm_step (h : RInv g0 a0 s0 c0 P S n) (hr : n.step dbg ev = .ok n') :
    LeI n.sm.applied n'.sm.applied ∧ n.sm.snap.lastLogId ≤ n'.sm.snap.lastLogId := by
  have hid : n'.sm = n.sm → LeI n.sm.applied n'.sm.applied ∧ n.sm.snap.lastLogId ≤ n'.sm.snap.lastLogId := by
    intro he; rw [he]; exact ⟨LeI.refl _, le_refl _⟩
  cases ev with
  | run =>
    rcases run_view hr with rfl | ⟨c, n1, _, _, h2, rfl⟩
    · exact hid rfl
    · exact hid (exec_records h2).1
  | flush =>
    simp only [Node.step, out_pure] at hr
    subst hr
    refine hid ?_
    unfold Node.flush1
    split <;> rfl
  | sm =>
    simp only [Node.step, Node.smStep] at hr
    have hch := h.s.chain
    have hsn := h.s.snap
    split at hr
    · rw [out_pure] at hr; subst hr; exact hid rfl
    · next first last q hq =>
      split at hr
      · rw [out_pure] at hr; subst hr
        rw [hq] at hch
        exact ⟨⟨le_of_lt hch.2.1, Nat.le_succ_of_le hch.2.2.1⟩, le_refl _⟩
      · cases hr
    · next m io q hq =>
      rw [out_pure] at hr; subst hr
      rw [hq] at hch
      exact ⟨⟨le_of_lt hch.1, Nat.le_of_lt hch.2.1⟩, le_trans hsn (le_of_lt hch.1)⟩
    · next q hq =>
      rw [out_pure] at hr; subst hr
      exact hid rfl
  | build k =>
    simp only [Node.step, out_pure] at hr
    subst hr
    unfold Node.buildDone
    split
    · exact ⟨LeI.refl _, le_refl _⟩
    · next m hm =>
      refine ⟨LeI.refl _, ?_⟩
      show _ ≤ (if n.sm.snap.lastLogId ≤ m.lastLogId then m else n.sm.snap).lastLogId
      split
      · assumption
      · exact le_refl _
  | msg now i =>
    simp only [Node.step] at hr
    split at hr
    · simp only [out_bind, lift_ok, out_pure] at hr
      obtain ⟨e, he, rfl⟩ := hr
      exact hid rfl
    · rw [out_pure] at hr; subst hr; exact hid rfl
  | write now tx p =>
    simp only [Node.step] at hr
    split at hr
    · simp only [out_bind, lift_ok, out_pure] at hr
      obtain ⟨⟨i, e⟩, he, rfl⟩ := hr
      cases i <;> exact hid rfl
    · rw [out_pure] at hr; subst hr; exact hid rfl
  | change now tx c r =>
    simp only [Node.step] at hr
    split at hr
    · simp only [out_bind, lift_ok, out_pure] at hr
      obtain ⟨⟨i, e⟩, he, rfl⟩ := hr
      cases i <;> exact hid rfl
    · rw [out_pure] at hr; subst hr; exact hid rfl
  | note now =>
    simp only [Node.step] at hr
    split at hr
    · split at hr
      · rw [out_pure] at hr; subst hr; exact hid rfl
      · next x xs hx =>
        cases x with
        | applied last es =>
          simp only [Node.handle, out_bind, lift_ok, out_pure] at hr
          obtain ⟨e, he, rfl⟩ := hr
          exact hid (answer_rest es { n with rx := xs, eng := e }).2
        | _ =>
          simp only [Node.handle, out_bind, lift_ok, out_pure] at hr
          obtain ⟨e, he, rfl⟩ := hr
          exact hid rfl
    · rw [out_pure] at hr; subst hr; exact hid rfl

end

/-! ## What is reported, and what is -/

/-- the vote of the last accepted IO is the stored vote; only `initialize` writes with a vote that is not stored -/
def VoteAt (g : Gh) (a : IOId) : Prop := a.vote = g.vote ∨ g.vote = ⟨⟨0, 0⟩, false⟩ ∧ a.vote = ⟨⟨0, 0⟩, true⟩

theorem VoteAt.run {g : Gh} {a : IOId} {c : Cmd} (h : VoteAt g a) (hk : COk g a c) : VoteAt (g.run c) (lvl a c) := by
  have hmax : ∀ io : IOId, io.vote = a.vote → (max a io).vote = a.vote := by
    intro io hio
    rcases max_choice a io with h1 | h1
    · rw [h1]
    · rw [h1, hio]
  cases c with
  | append v es =>
    obtain ⟨x, h1, _, h2⟩ := hk
    show VoteAt (g.run (.append v es)) (lvl a (.append v es))
    simp only [lvl, h1]
    rcases h2 with h2 | ⟨h2, h3⟩
    · rcases h with h | h
      · exact Or.inl (h2.symm.trans h)
      · exact Or.inr ⟨h.1, h2.symm.trans h.2⟩
    · refine Or.inr ⟨?_, h3⟩
      rcases h with h | h
      · exact h.symm.trans h2
      · exact h.1
  | saveVote v => exact Or.inl rfl
  | updateIO w io =>
    show VoteAt g (max a io)
    unfold VoteAt
    rw [hmax io hk.1]; exact h
  | sm c =>
    cases c with
    | install m io =>
      have h1 := hmax io (by rw [show io = _ from hk])
      show (max a io).vote = _ ∨ _ ∧ (max a io).vote = _
      rw [h1]; exact h
    | _ => exact h
  | _ => exact h

theorem VoteAt.runs {g : Gh} {a : IOId} {cs : List Cmd} (h : VoteAt g a) (hk : COks g a cs) : VoteAt (g.runs cs) (lvls a cs) := by
  induction cs generalizing g a with
  | nil => exact h
  | cons c cs ih => exact ih (h.run hk.1) hk.2

theorem vote_bot (v : Vote) : (⟨⟨0, 0⟩, false⟩ : Vote) ≤ v := by
  rw [Vote.le_def]
  rcases eq_or_ne (⟨0, 0⟩ : LeaderId) v.leaderId with h | h
  · exact Or.inr ⟨h, fun h => by cases h⟩
  · refine Or.inl (lt_of_le_of_ne ?_ h)
    rw [LeaderId.le_def]
    rcases Nat.eq_zero_or_pos v.leaderId.term with h1 | h1
    · exact Or.inr ⟨h1.symm, Nat.zero_le _⟩
    · exact Or.inl h1

theorem vote_init {v : Vote} (h : v ≤ ⟨⟨0, 0⟩, true⟩) : v ≤ ⟨⟨0, 0⟩, false⟩ ∨ v = ⟨⟨0, 0⟩, true⟩ := by
  rcases lt_or_eq_of_le h with h | h
  · rcases h with h | ⟨h1, h2, _⟩
    · exact Or.inl (Or.inl h)
    · exact Or.inl (Or.inr ⟨h1, fun k => by rw [h2] at k; cases k⟩)
  · exact Or.inr h

theorem term_le {a b : LeaderId} (h : a ≤ b) : a.term ≤ b.term := by
  rw [LeaderId.le_def] at h
  omega

/-- what a node published is true of it -/
structure Tells (n : Node) (m : Metrics) : Prop where
  id : m.id = n.eng.cfg.id
  term : m.term ≤ n.eng.st.vote.data.leaderId.term
  vote : m.vote ≤ n.disk.vote ∨ m.vote = ⟨⟨0, 0⟩, true⟩
  applied : LeI m.lastApplied n.sm.applied
  snapshot : m.snapshot ≤ n.sm.snap.lastLogId
  purged : nextIndex m.purged ≤ nextIndex n.rd.purged

section
variable {dbg : Bool} {g0 : Gh} {a0 : IOId} {s0 c0 : Option LogId} {P S : List Cmd} {n n' : Node} {ev : Ev}

theorem Tells.report (h : RInv g0 a0 s0 c0 P S n) (hv : RecInv dbg a0 n) (ha : a0.vote = g0.vote) (r : Option (List (NodeId × Option LogId))) :
    Tells n (reportWith n.eng r) := by
  have hat := VoteAt.runs (Or.inl ha : VoteAt g0 a0) h.coks
  refine ⟨rfl, Nat.le_refl _, ?_, ?_, h.s.ioSnap, by show nextIndex n.eng.st.io.purged ≤ _; rw [hv.purged]⟩
  · show (n.eng.st.io.prog.flushed.map (·.vote)).getD ⟨⟨0, 0⟩, false⟩ ≤ _ ∨ _
    cases hf : n.eng.st.io.prog.flushed with
    | none =>
      left
      show (⟨⟨0, 0⟩, false⟩ : Vote) ≤ _
      exact vote_bot _
    | some f =>
      have h1 := (h.f.flushed f hf).1
      have h2 : f.vote ≤ (lvls a0 (P ++ S)).vote := by
        rcases h1 with h1 | h1
        · exact le_of_lt h1
        · exact le_of_eq h1.1
      rw [h.disk_vote]
      have hm : (reportWith n.eng r).vote = f.vote := by show (n.eng.st.io.prog.flushed.map (·.vote)).getD _ = _; rw [hf]; rfl
      rw [hm]
      show f.vote ≤ _ ∨ f.vote = _
      rcases hat with h3 | ⟨h3, h4⟩
      · left; rw [← h3]; exact h2
      · rw [h4] at h2
        rw [h3]
        exact vote_init h2
  · exact ⟨h.s.ioApp, (ComVal.le_iff h.oks h.s.ioAppV h.s.cur h.s.ioApp).next⟩

theorem Tells.initial (n : Node) : Tells n (.initial n.eng.cfg.id) :=
  ⟨rfl, Nat.zero_le _, Or.inl (vote_bot _), ⟨OptOrd.none_le' _, Nat.zero_le _⟩, OptOrd.none_le' _, Nat.zero_le _⟩

theorem purged_step {P' S' : List Cmd} (h : RInv g0 a0 s0 c0 P S n) (h' : RInv g0 a0 s0 c0 P' S' n') (hp : P ++ S <+: P' ++ S') :
    nextIndex n.rd.purged ≤ nextIndex n'.rd.purged := by
  obtain ⟨r, hr⟩ := hp
  have ho := h'.oks
  rw [← hr, Gh.oks_append] at ho
  have h1 := (Props.purges_of_oks ho.2).2
  rw [← Gh.runs_append, hr, ← h.d.rd, ← h'.d.rd] at h1
  exact h1

theorem Tells.step {m : Metrics} (ht : Tells n m) (h : RInv g0 a0 s0 c0 P S n) (ho : EvOk n ev) (hr : n.step dbg ev = .ok n') : Tells n' m := by
  obtain ⟨P', S', h', h1, h2⟩ := h.step ho hr
  have h3 := h.vote_step h' h2
  have h4 := Vote.leaderId_le_of_le (vote_mem_step h ho hr)
  obtain ⟨h5, h6⟩ := sm_step h hr
  refine ⟨by rw [cfg_step h ho hr]; exact ht.id, Nat.le_trans ht.term (term_le h4), ?_, ht.applied.trans h5, le_trans ht.snapshot h6,
    Nat.le_trans ht.purged (purged_step h h' h1)⟩
  rcases ht.vote with k | k
  · exact Or.inl (le_trans k h3)
  · exact Or.inr k

/-- the index after an index -/
def after? : Option Nat → Nat
  | none => 0
  | some i => i + 1

/-- the fields of a report agree with each other -/
structure Coherent (m : Metrics) : Prop where
  lead : m.state = .as .leader → m.mem.mem.isVoter m.id = true → m.currentLeader = some m.id
  self : m.currentLeader = some m.id → m.mem.mem.contains m.id = true → m.state = .as .leader
  cand : m.state = .as .candidate → m.currentLeader = none
  follower : m.state = .as .follower → m.mem.mem.isVoter m.id = true
  learner : m.state = .as .learner → m.mem.mem.isVoter m.id = false
  voter : ∀ x, m.currentLeader = some x → m.mem.mem.isVoter x = true
  term : m.vote.leaderId.term ≤ m.term
  applied : nextIndex m.lastApplied ≤ after? m.lastLogIndex
  snapshot : m.snapshot ≤ m.lastApplied
  purged : nextIndex m.purged ≤ after? m.lastLogIndex
  repl : ∀ v, m.replication = some v → m.state = .as .leader

theorem after_last (o : Option LogId) : after? (o.map (·.index)) = nextIndex o := by cases o <;> rfl

theorem Coherent.report (h : RInv g0 a0 s0 c0 P S n) (hv : RecInv dbg a0 n) (hs : SrvOk n.eng)
    {r : Option (List (NodeId × Option LogId))} (hr : ∀ v, r = some v → ∃ l, n.eng.leader = some l ∧ v = l.progress.vp.vector) :
    Coherent (reportWith n.eng r) := by
  have hp := h.flow.inv.pj
  have hlog := h.flow.inv.lm.log
  have hcl := hlog.com_le_last
  have hnl : n.eng.leader = none → n.eng.st.isLeader n.eng.cfg.id = false := hp.nolead
  have hrole : (∃ l, n.eng.leader = some l ∧ LeadOk n.eng l) ∨ n.eng.leader = none := by
    cases hl : n.eng.leader with
    | none => exact Or.inr rfl
    | some l => exact Or.inl ⟨l, rfl, hp.lead l hl⟩
  have hla : after? (reportWith n.eng r).lastLogIndex = nextIndex n.eng.st.lv.last := after_last _
  have hcom : (g0.runs n.eng.out).com = n.eng.st.lv.committed := hlog.com
  have hsrv : ∀ x, (reportWith n.eng r).state = .as x → n.eng.st.server = x := fun x hx => by injection hx
  have hlead : ∀ x, n.eng.st.server = x → x ≠ .leader → n.eng.leader = none := by
    intro x hx hne
    rcases hrole with ⟨l, _, hl⟩ | hl
    · exact absurd (hx.symm.trans hl.srv) hne
    · exact hl
  have hplain : ∀ x, n.eng.st.server = x → x = .follower ∨ x = .learner → n.eng.candidate = none ∧ x = n.eng.voterState := by
    intro x hx hor
    have h1 := hs (hlead x hx (by rcases hor with rfl | rfl <;> decide))
    rw [hx] at h1
    cases hc : n.eng.candidate with
    | none => rw [hc] at h1; exact ⟨rfl, h1⟩
    | some c => rw [hc] at h1; subst h1; rcases hor with h1 | h1 <;> cases h1
  refine ⟨?_, ?_, ?_, ?_, ?_, ?_, ?_, ?_, hv.snapApp, ?_, ?_⟩
  · intro h1 h2
    have h1 := hsrv _ h1
    have h2 : n.eng.st.ms.effective.mem.isVoter n.eng.cfg.id = true := h2
    show leaderOf n.eng = some n.eng.cfg.id
    rcases hrole with ⟨l, _, hl⟩ | hl
    · simp only [leaderOf, hl.com, hl.node, h2, if_true]
    · have h3 := hs hl
      rw [h1] at h3
      exfalso
      split at h3
      · cases h3
      · unfold Eng.voterState at h3
        split at h3 <;> cases h3
  · intro h1 h2
    have h1 : leaderOf n.eng = some n.eng.cfg.id := h1
    have h2 : n.eng.st.ms.effective.mem.contains n.eng.cfg.id = true := h2
    rcases hrole with ⟨l, _, hl⟩ | hl
    · show Published.as n.eng.st.server = _; rw [hl.srv]
    · exfalso
      have h3 := hnl hl
      unfold leaderOf at h1
      split at h1
      · next hcm =>
        dsimp only at h1
        split at h1
        · injection h1 with h1
          simp only [RState.isLeader, RState.isLeading, h2, h1, hcm, Bool.and_true, beq_self_eq_true] at h3
          cases h3
        · cases h1
      · cases h1
  · intro h1
    have h1 := hsrv _ h1
    have h2 := hlead _ h1 (by decide)
    have h3 := hs h2
    rw [h1] at h3
    show leaderOf n.eng = none
    cases hc : n.eng.candidate with
    | none =>
      rw [hc] at h3
      have h3 : ServerState.candidate = n.eng.voterState := h3
      unfold Eng.voterState at h3
      split at h3 <;> cases h3
    | some c =>
      simp [leaderOf, (hp.cand c hc).com]
  · intro h1
    obtain ⟨_, h2⟩ := hplain _ (hsrv _ h1) (Or.inl rfl)
    unfold Eng.voterState at h2
    split at h2
    · assumption
    · cases h2
  · intro h1
    obtain ⟨_, h2⟩ := hplain _ (hsrv _ h1) (Or.inr rfl)
    unfold Eng.voterState at h2
    split at h2
    · cases h2
    · next h3 => exact Bool.not_eq_true _ |>.mp h3
  · intro x h1
    have h1 : leaderOf n.eng = some x := h1
    show n.eng.st.ms.effective.mem.isVoter x = true
    unfold leaderOf at h1
    split at h1
    · dsimp only at h1
      split at h1
      · next h2 => cases h1; exact h2
      · cases h1
    · cases h1
  · show ((n.eng.st.io.prog.flushed.map (fun x : IOId => x.vote)).getD (⟨⟨0, 0⟩, false⟩ : Vote)).leaderId.term ≤ n.eng.st.vote.data.leaderId.term
    cases hf : n.eng.st.io.prog.flushed with
    | none => exact Nat.zero_le _
    | some f =>
      have h1 := (hv.prog h).2.1
      rw [hf, h.flow.acc] at h1
      have h2 : f ≤ lvls a0 n.eng.out := OptOrd.some_le_some'.1 h1
      have h3 : f.vote ≤ (lvls a0 n.eng.out).vote := by
        rcases h2 with h2 | h2
        · exact le_of_lt h2
        · exact le_of_eq h2.1
      rw [h.flow.vote] at h3
      exact term_le (Vote.leaderId_le_of_le h3)
  · rw [hla]
    show nextIndex n.eng.st.io.applied ≤ _
    refine Nat.le_trans (ComVal.le h.flow.oks (cs := n.eng.out) ?_).next (by rw [hcom]; exact hcl)
    rw [h.rest]; exact h.s.ioAppV.append
  · rw [hla]
    show nextIndex n.eng.st.io.purged ≤ _
    have h1 := h.flow.oks
    have h2 : (g0.runs n.eng.out).store.purged = n.eng.st.lv.lastPurged := hlog.stp
    rw [h.rest, Gh.oks_append] at h1
    have h3 := (Props.purges_of_oks h1.2).2
    rw [← Gh.runs_append, ← h.rest, h2, ← h.d.rd, ← hv.purged] at h3
    have := hlog.pn
    have := hlog.ord1
    have := hlog.ord2
    have := hlog.ord3
    omega
  · intro v hr'
    obtain ⟨l, hl, _⟩ := hr v hr'
    show Published.as n.eng.st.server = _
    rw [(hp.lead l hl).srv]

theorem Life.told {cfg : Cfg} {old : List Resp} (h : Life dbg cfg old n) :
    ∃ g0 a0 s0 c0 P S, RInv g0 a0 s0 c0 P S n ∧ RecInv dbg a0 n ∧ a0.vote = g0.vote := by
  induction h with
  | fresh now persist => exact ⟨_, _, _, _, _, _, RInv.fresh cfg now persist, RecInv.fresh cfg now persist, rfl⟩
  | @step old n n' ev _ ho hs ih =>
    obtain ⟨g0, a0, s0, c0, P, S, hi, hv, ha⟩ := ih
    obtain ⟨P', S', k1, _, _⟩ := hi.step ho hs
    exact ⟨g0, a0, s0, c0, P', S', k1, hv.step hi hs, ha⟩
  | @crash old n n' k now _ hf hr ih =>
    obtain ⟨g0, a0, s0, c0, P, S, hi, hv, _⟩ := ih
    obtain ⟨st, store, s2, base, e, h1, h2, h3, h4, h5, h6, _⟩ := restart_base (hi.crash_ok k) hf hr
    exact ⟨_, _, _, _, _, _, h3, RecInv.restarted (hi.crash_ok k) hf h2 h5 h6, rfl⟩

/-- the recorded applied position only moves forward -/
theorem applied_step (h : RInv g0 a0 s0 c0 P S n) (hv : RecInv dbg a0 n) (ho : EvOk n ev) (hr : n.step dbg ev = .ok n') :
    LeI n.eng.st.io.applied n'.eng.st.io.applied := by
  obtain ⟨P', S', h', ⟨r, h1⟩, _⟩ := h.step ho hr
  suffices hle : n.eng.st.io.applied ≤ n'.eng.st.io.applied by
    have h2 : ComVal g0 (P' ++ S') n.eng.st.io.applied := by rw [← h1]; exact h.s.ioAppV.append
    exact ⟨hle, (ComVal.le_iff h'.oks h2 h'.s.ioAppV hle).next⟩
  have hin : ∀ {now : Nat} {i : Input} {e : Eng}, Input.noReport i = true → n.eng.input dbg now i = .ok e →
      n.eng.st.io.applied ≤ e.st.io.applied := by
    intro now i e hni he
    have hst : e.reported = n.eng.reported := Eng.stay_input n.eng i hni e he
    exact le_of_eq (congrArg (·.2.2.2.1) hst).symm
  have hn := hv.noted
  cases ev with
  | run =>
    rcases run_view hr with rfl | ⟨c, n1, _, _, h2, rfl⟩
    · exact le_refl _
    · exact le_of_eq (exec_records h2).2.1.symm
  | flush =>
    simp only [Node.step, out_pure] at hr
    subst hr
    unfold Node.flush1
    split <;> exact le_refl _
  | sm => rw [smStep_eng hr]
  | build k =>
    simp only [Node.step, out_pure] at hr
    subst hr
    unfold Node.buildDone
    split <;> exact le_refl _
  | msg now i =>
    simp only [Node.step] at hr
    split at hr
    · next hc =>
      simp only [out_bind, lift_ok, out_pure] at hr
      obtain ⟨e, he, rfl⟩ := hr
      simp only [Bool.and_eq_true] at hc
      have hnr : Input.noReport i = true := by cases i <;> first | rfl | exact absurd hc.2 (by simp [external])
      exact hin hnr he
    · rw [out_pure] at hr; subst hr; exact le_refl _
  | write now tx p =>
    simp only [Node.step] at hr
    split at hr
    · simp only [out_bind, lift_ok, out_pure] at hr
      obtain ⟨⟨i, e⟩, he, rfl⟩ := hr
      have hw : n.eng.input dbg now (.write p) = .ok e := by simp only [Eng.input, he]; rfl
      cases i <;> exact hin rfl hw
    · rw [out_pure] at hr; subst hr; exact le_refl _
  | change now tx c r =>
    simp only [Node.step] at hr
    split at hr
    · simp only [out_bind, lift_ok, out_pure] at hr
      obtain ⟨⟨i, e⟩, he, rfl⟩ := hr
      have hw : n.eng.input dbg now (.change c r) = .ok e := by simp only [Eng.input, he]; rfl
      cases i <;> exact hin rfl hw
    · rw [out_pure] at hr; subst hr; exact le_refl _
  | note now =>
    simp only [Node.step] at hr
    split at hr
    · split at hr
      · rw [out_pure] at hr; subst hr; exact le_refl _
      · next x xs hx =>
        rw [hx] at hn
        cases x with
        | applied last es =>
          simp only [Node.handle, out_bind, lift_ok, out_pure] at hr
          obtain ⟨e, he, rfl⟩ := hr
          rw [(answer_frame es { n with rx := xs, eng := e }).1]
          rw [show ({ n with rx := xs, eng := e } : Node).eng = e from rfl, (Eng.applied_reports he).2.2]
          exact le_of_lt hn.1
        | localIO io =>
          simp only [Node.handle, out_bind, lift_ok, out_pure] at hr
          obtain ⟨e, he, rfl⟩ := hr
          exact le_of_eq (Eng.localIO_reports he).2.2.symm
        | selfVote v =>
          simp only [Node.handle, out_bind, lift_ok, out_pure] at hr
          obtain ⟨e, he, rfl⟩ := hr
          exact hin rfl he
        | built m =>
          simp only [Node.handle, out_bind, lift_ok, out_pure] at hr
          obtain ⟨e, he, rfl⟩ := hr
          exact le_of_eq (Eng.built_reports he).2.2.symm
        | installed io m =>
          simp only [Node.handle, out_bind, lift_ok, out_pure] at hr
          obtain ⟨e, he, rfl⟩ := hr
          exact le_of_lt (lt_of_lt_of_eq hn.1 (Eng.installed_reports he).2.2.symm)
    · rw [out_pure] at hr; subst hr; exact le_refl _

/-- a report is not behind an earlier one -/
structure NotBehind (m m' : Metrics) : Prop where
  term : m.term ≤ m'.term
  applied : LeI m.lastApplied m'.lastApplied
  purged : nextIndex m.purged ≤ nextIndex m'.purged

/-- what is true of a process -/
structure RepInv (dbg : Bool) (n : Node) (w : Watch Metrics) : Prop where
  node : ∃ g0 a0 s0 c0 P S, RInv g0 a0 s0 c0 P S n ∧ RecInv dbg a0 n ∧ a0.vote = g0.vote
  srv : SrvOk n.eng
  tells : ∀ m ∈ w.values, Tells n m
  coherent : ∀ m ∈ w.sent, Coherent m ∨ m.state = .shutdown ∧ ∃ m0, Coherent m0 ∧ m = m0.ended
  behind : ∀ m ∈ w.values, NotBehind m (flushMetrics n.eng)
  order : w.values.Pairwise NotBehind
  up : w.closed = false → ∀ m ∈ w.values, m.state ≠ .shutdown
  last : w.closed = true → w.val.state = .shutdown
  begins : w.first.lastApplied = none

theorem NotBehind.refl (m : Metrics) : NotBehind m m := ⟨Nat.le_refl _, LeI.refl _, Nat.le_refl _⟩

theorem send_values (w : Watch Metrics) (m : Metrics) : (w.send m).values = w.values ++ [m] := rfl

theorem RepInv.send {w : Watch Metrics} (h : RepInv dbg n w) (hc : w.closed = false) {m : Metrics}
    (hm : ∃ r, m = reportWith n.eng r ∧ ∀ v, r = some v → ∃ l, n.eng.leader = some l ∧ v = l.progress.vp.vector) : RepInv dbg n (w.send m) := by
  obtain ⟨r, rfl, hr⟩ := hm
  obtain ⟨g0, a0, s0, c0, P, S, hi, hv, ha⟩ := h.node
  have hnb : ∀ {x : Metrics}, NotBehind x (flushMetrics n.eng) → NotBehind x (reportWith n.eng r) := fun h => ⟨h.term, h.applied, h.purged⟩
  refine ⟨h.node, h.srv, ?_, ?_, ?_, ?_, ?_, fun hx => ?_, h.begins⟩
  · intro m hm
    rw [send_values] at hm
    rcases List.mem_append.1 hm with hm | hm
    · exact h.tells m hm
    · cases List.mem_singleton.1 hm; exact Tells.report hi hv ha r
  · intro m hm
    rcases List.mem_append.1 (show m ∈ w.sent ++ [_] from hm) with hm | hm
    · exact h.coherent m hm
    · cases List.mem_singleton.1 hm; exact Or.inl (Coherent.report hi hv h.srv hr)
  · intro m hm
    rw [send_values] at hm
    rcases List.mem_append.1 hm with hm | hm
    · exact h.behind m hm
    · cases List.mem_singleton.1 hm; exact ⟨Nat.le_refl _, LeI.refl _, Nat.le_refl _⟩
  · rw [send_values, List.pairwise_append]
    refine ⟨h.order, List.pairwise_singleton _ _, ?_⟩
    intro x hx y hy
    cases List.mem_singleton.1 hy; exact hnb (h.behind x hx)
  · intro _ m hm
    rw [send_values] at hm
    rcases List.mem_append.1 hm with hm | hm
    · exact h.up hc m hm
    · cases List.mem_singleton.1 hm; exact fun h => by cases h
  · have hx : w.closed = true := hx
    rw [hc] at hx; cases hx

theorem RepInv.next {s s' : Node × Watch Metrics} (h : RepInv dbg s.1 s.2) (hs : RepStep dbg s s') : RepInv dbg s'.1 s'.2 := by
  cases hs with
  | @step n n' w ev hc ho hr =>
    obtain ⟨g0, a0, s0, c0, P, S, hi, hv, ha⟩ := h.node
    obtain ⟨P', S', k1, k2, _⟩ := hi.step ho hr
    have h1 := applied_step hi hv ho hr
    have h2 := term_le (Vote.leaderId_le_of_le (vote_mem_step hi ho hr))
    have h3 := purged_step hi k1 k2
    have hv' := hv.step hi hr
    rw [← hv.purged, ← hv'.purged] at h3
    exact ⟨⟨g0, a0, s0, c0, P', S', k1, hv', ha⟩, srv_step hi h.srv ho hr, fun m hm => (h.tells m hm).step hi ho hr, h.coherent,
      fun m hm => ⟨Nat.le_trans (h.behind m hm).term h2, (h.behind m hm).applied.trans h1, Nat.le_trans (h.behind m hm).purged h3⟩, h.order, h.up, h.last, h.begins⟩
  | @first n w hc => exact h.send hc ⟨none, rfl, fun v hv => by cases hv⟩
  | @flush n w hc =>
    refine h.send hc ⟨_, rfl, fun v hv => ?_⟩
    cases hl : n.eng.leader with
    | none => rw [hl] at hv; cases hv
    | some l => rw [hl] at hv; exact ⟨l, rfl, (Option.some.inj hv).symm⟩
  | @stop n w hc =>
    have h1 : RepInv dbg n (w.send (reportWith n.eng none)) := h.send hc ⟨none, rfl, fun v hv => by cases hv⟩
    have ht := h1.tells (reportWith n.eng none) (by simp [Watch.values, Watch.send])
    have hb := h1.behind (reportWith n.eng none) (by simp [Watch.values, Watch.send])
    obtain ⟨g0, a0, s0, c0, P, S, hi, hv, ha⟩ := h.node
    have hval : ∀ m, m ∈ Watch.values { (w.send (reportWith n.eng none)).send (reportWith n.eng none).ended with closed := true } →
        m ∈ (w.send (reportWith n.eng none)).values ∨ m = (reportWith n.eng none).ended := by
      intro m hm
      simp only [Watch.values, Watch.send, List.mem_cons, List.mem_append, List.not_mem_nil, or_false] at hm ⊢
      tauto
    refine ⟨h.node, h.srv, ?_, ?_, ?_, ?_, fun hx => (by cases hx), fun _ => ?_, h.begins⟩
    · intro m hm
      rcases hval m hm with hm | rfl
      · exact h1.tells m hm
      · exact ⟨ht.id, ht.term, ht.vote, ht.applied, ht.snapshot, ht.purged⟩
    · intro m hm
      rcases List.mem_append.1 (show m ∈ (w.send (reportWith n.eng none)).sent ++ [_] from hm) with hm | hm
      · exact h1.coherent m hm
      · cases List.mem_singleton.1 hm
        exact Or.inr ⟨rfl, _, Coherent.report hi hv h.srv (r := none) (fun v hv => by cases hv), rfl⟩
    · intro m hm
      rcases hval m hm with hm | rfl
      · exact h1.behind m hm
      · exact ⟨Nat.le_refl _, LeI.refl _, Nat.le_refl _⟩
    · show ((w.send (reportWith n.eng none)).values ++ [(reportWith n.eng none).ended]).Pairwise NotBehind
      rw [List.pairwise_append]
      refine ⟨h1.order, List.pairwise_singleton _ _, ?_⟩
      intro x hx y hy
      cases List.mem_singleton.1 hy
      exact ⟨(h1.behind x hx).term, (h1.behind x hx).applied, (h1.behind x hx).purged⟩
    · show (Watch.val ((w.send (reportWith n.eng none)).send (reportWith n.eng none).ended)).state = .shutdown
      rw [Watch.val_send]; rfl

theorem Reporting.inv {cfg : Cfg} {old : List Resp} {n0 : Node} {s : Node × Watch Metrics} (hl : Life dbg cfg old n0) (h : Reporting dbg n0 s) :
    RepInv dbg s.1 s.2 := by
  induction h with
  | start =>
    have hval : ∀ m, m ∈ Watch.values (⟨.initial n0.eng.cfg.id, [], false⟩ : Watch Metrics) → m = .initial n0.eng.cfg.id := by
      intro m hm; simpa [Watch.values] using hm
    refine ⟨hl.told, hl.srv, ?_, fun m hm => (by cases hm), ?_, List.pairwise_singleton _ _, ?_, fun h => (by cases h), rfl⟩
    · intro m hm; cases hval m hm; exact Tells.initial n0
    · intro m hm; cases hval m hm; exact ⟨Nat.zero_le _, ⟨OptOrd.none_le' _, Nat.zero_le _⟩, Nat.zero_le _⟩
    · intro _ m hm; cases hval m hm; exact fun h => by cases h
  | next _ hs ih => exact ih.next hs

theorem Reporting.life {cfg : Cfg} {old : List Resp} {n0 : Node} {s : Node × Watch Metrics} (hl : Life dbg cfg old n0) (h : Reporting dbg n0 s) :
    Life dbg cfg old s.1 := by
  induction h with
  | start => exact hl
  | next _ hs ih =>
    cases hs with
    | step ev hc ho hr => exact ih.step ev ho hr
    | first hc => exact ih
    | flush hc => exact ih
    | stop hc => exact ih

theorem Reporting.run {n0 n n' : Node} {w : Watch Metrics} (h : Reporting dbg n0 (n, w)) (hc : w.closed = false) (hr : Node.Run dbg n n') :
    Reporting dbg n0 (n', w) := by
  induction hr with
  | refl => exact h
  | step ev _ ho hs ih => exact .next ih (.step ev hc ho hs)

theorem RepStep.sends {f : Metrics → Bool} {s s' : Node × Watch Metrics} {t : Waiter Metrics} (hs : RepStep dbg s s') (h : Rt.WInv f s.2 t) :
    Rt.WInv f s'.2 t := by
  have hsend : ∀ {w : Watch Metrics} (m : Metrics), w.closed = false → Rt.WInv f w t → Rt.WInv f (w.send m) t := by
    intro w m hc hw
    have := hw.step (.send m)
    simpa only [Rt.wstep, hc, Bool.false_eq_true, if_false] using this
  cases hs with
  | step ev hc ho hr => exact h
  | first hc => exact hsend _ hc h
  | flush hc => exact hsend _ hc h
  | @stop n w hc => exact (hsend (w := w.send _) _ hc (hsend _ hc h)).step .close

theorem Asking.inv {cfg : Cfg} {old : List Resp} {f : Metrics → Bool} {n0 : Node} {s : Node × Watch Metrics} {t : Waiter Metrics}
    (hl : Life dbg cfg old n0) (h : Asking dbg f n0 s t) : RepInv dbg s.1 s.2 ∧ Rt.WInv f s.2 t := by
  induction h with
  | begin timeoutAt seen hr hs => exact ⟨hr.inv hl, .start hs⟩
  | next _ hs ih => exact ⟨ih.1.next hs, hs.sends ih.2⟩
  | poll now _ ih => exact ⟨ih.1, ih.2.step (.poll now)⟩

end
end Openraft.Runtime
