import Verif.Engine.Sync
import Verif.Engine.InvStep
import Verif.Engine.Grow
import Verif.Pure.MemWf

/-!
# The time a leader reports as acknowledged by a quorum, and the log ids it counts as replicated

The parts of the code that read the leader's clock (`last_quorum_acked_time`) and that report the answer to a heartbeat
(`HeartbeatWorker`), and the invariant that ties the clock and the progress of a leader to the inputs that were handled.
-/

set_option autoImplicit false

namespace Openraft.Engine
open Openraft.Repl (Panic dassert Inflight)
open Openraft.Cluster (Payload)
open VecProgress (Track Small)

/-- `Leader::last_quorum_acked_time`, `proposer/leader.rs:198-220`: the own clock is set to `now`, then the granted time is read;
an unknown id is ignored -/
def Leader.lastQuorumAcked (l : Leader) (now : Nat) : Option Nat × Leader :=
  match l.clock.increaseTo l.vote.leaderId.node (some now) with
  | some c => (c.granted, { l with clock := c })
  | none => (l.clock.granted, l)

/-- `RaftCore::last_quorum_acked_time`, `core/raft_core.rs:728-731`, called by `report_metrics`, `core/raft_core.rs:550-556` -/
def Eng.lastQuorumAcked (e : Eng) (now : Nat) : Option Nat × Eng :=
  match e.leader with
  | some l => ((l.lastQuorumAcked now).1, { e with leader := some (l.lastQuorumAcked now).2 })
  | none => (none, e)

/-- what `HeartbeatWorker::run`, `core/heartbeat/worker.rs:85-109`, sends to `RaftCore` for the answer to the heartbeat of session `s`
sent to `target` at time `t`; `none` is a network error or a timeout. Every answer counts, also `HigherVote`. -/
def hbWorker (s : Session) (target : NodeId) (t : Nat) : Option AppendResp → Option Input
  | some _ => some (.hbProgress s target t)
  | none => none

/-- the heartbeat it sends, `core/heartbeat/worker.rs:78-83` -/
def hbRequest (tx : Nat) (s : Session) (committed : Option LogId) : Input := .appendReq tx s.vote none [] committed

/-! ## The inputs that have been handled -/

/-- the memberships in an input are sets and maps -/
def InWf : Input → Prop
  | .appendReq _ _ _ es _ => EntsOk WfM es
  | .snapReq _ _ m => WfM m.mem.mem
  | .init _ m => WfM m
  | .write p => PaysOk WfM [p]
  | .change c _ => c.Wf
  | _ => True

/-- a follower does not report less than it has reported to this leader before -/
def Grows (e : Eng) : Input → Prop
  | .replProgress s target (.matching m) => e.sessionMatch s = true → ∀ l, e.leader = some l → l.mt target ≤ m
  | _ => True

/-- an execution with the list of handled inputs; the metrics may be reported at any time -/
inductive CRun (dbg : Bool) (e0 : Eng) : List Input → Eng → Prop
  | nil : CRun dbg e0 [] e0
  | input {is : List Input} {e e' : Eng} (now : Nat) (i : Input) : CRun dbg e0 is e → InputOk e i → InWf i → Grows e i →
      e.input dbg now i = .ok e' → CRun dbg e0 (is ++ [i]) e'
  | metrics {is : List Input} {e : Eng} (now : Nat) : CRun dbg e0 is e → CRun dbg e0 is (e.lastQuorumAcked now).2

/-- node `n` answered a heartbeat of leader `i` sent at time `t` -/
def Beat (is : List Input) (i : LeaderId) (n : NodeId) (t : Nat) : Prop :=
  ∃ s, Input.hbProgress s n t ∈ is ∧ s.vote = ⟨i, true⟩

/-- node `n` reported to leader `i` that its log matches up to `x`; the leader's own report is the end of a local write -/
def Stored (me : NodeId) (is : List Input) (i : LeaderId) (n : NodeId) (x : LogId) : Prop :=
  (∃ s, Input.replProgress s n (.matching (some x)) ∈ is ∧ s.vote = ⟨i, true⟩) ∨
  (∃ io, Input.localIO io ∈ is ∧ io.last = some x ∧ io.vote = ⟨i, true⟩ ∧ n = me)

/-- the clock and the progress of a leader come from the inputs -/
def CRule (me : NodeId) (is : List Input) : PRule := fun i c v f =>
  Track (fun n t => ∃ x, t = some x ∧ (n = i.node ∨ Beat is i n x)) none c ∧
  Track (fun n m => ∃ x, m = some x ∧ Stored me is i n x) none v ∧
  ∀ e ∈ v.vector, e.2 = f e.1

variable {me : NodeId} {is : List Input}

theorem Beat.snoc {i : LeaderId} {n : NodeId} {t : Nat} {x : Input} (h : Beat is i n t) : Beat (is ++ [x]) i n t := by
  obtain ⟨s, h1, h2⟩ := h
  exact ⟨s, by simp [h1], h2⟩

theorem Stored.snoc {i : LeaderId} {n : NodeId} {m : LogId} {x : Input} (h : Stored me is i n m) : Stored me (is ++ [x]) i n m := by
  rcases h with ⟨s, h1, h2⟩ | ⟨io, h1, h2⟩
  · exact Or.inl ⟨s, by simp [h1], h2⟩
  · exact Or.inr ⟨io, by simp [h1], h2⟩

theorem CRule.snoc {i : LeaderId} {c : VecProgress (Option Nat)} {v : VecProgress (Option LogId)} {f : NodeId → Option LogId} {x : Input}
    (h : CRule me is i c v f) : CRule me (is ++ [x]) i c v f := by
  refine ⟨h.1.mono ?_, h.2.1.mono ?_, h.2.2⟩
  · rintro n t ⟨y, h1, h2⟩
    exact ⟨y, h1, h2.imp id Beat.snoc⟩
  · rintro n t ⟨y, h1, h2⟩
    exact ⟨y, h1, h2.snoc⟩

theorem none_le_nat (a : Option Nat) : none ≤ a := by cases a <;> trivial
theorem none_le_id (a : Option LogId) : none ≤ a := by cases a <;> trivial

theorem clockRule (me : NodeId) (is : List Input) : ClockRule WfM (CRule me is) where
  new := by
    intro m i hm
    refine ⟨VecProgress.track_new hm.sets, VecProgress.track_new hm.sets, ?_⟩
    intro e he
    simp only [VecProgress.new, List.mem_append, List.mem_map] at he
    rcases he with ⟨_, _, rfl⟩ | ⟨_, _, rfl⟩ <;> rfl
  upg := by
    intro m i c v f hm h
    refine ⟨VecProgress.track_upgrade hm.sets none_le_nat h.1, VecProgress.track_upgrade hm.sets none_le_id h.2.1, ?_⟩
    intro e he
    rw [VecProgress.upgrade_eq] at he
    have hn := (VecProgress.track_new (S := fun _ (_ : Option LogId) => False) (d := none) hm.sets)
    rcases VecProgress.updates_mem' hn.nodup e he with h1 | ⟨h1, h2⟩
    · have : (v.vector.map (·.1)).contains e.1 = true := by
        rw [List.contains_iff_mem]; exact List.mem_map_of_mem h1
      exact (h.2.2 e h1).trans (if_pos this).symm
    · have : ¬ (v.vector.map (·.1)).contains e.1 = true := by
        rw [List.contains_iff_mem, List.mem_map]
        rintro ⟨u, hu, he⟩
        exact h2 u hu he
      refine Eq.trans ?_ (if_neg this).symm
      simpa using hn.from' e h1

/-- the values of the progress after an update -/
theorem update_vals {v vp : VecProgress (Option LogId)} {f : NodeId → Option LogId} {n : NodeId} {m : Option LogId}
    (hn : (VecProgress.ids v.vector).Nodup) (h : ∀ e ∈ v.vector, e.2 = f e.1) (hu : v.update n m = some vp) :
    ∀ e ∈ vp.vector, e.2 = if e.1 = n then m else f e.1 := by
  intro e he
  rcases VecProgress.update_mem' hn hu e he with rfl | ⟨h1, h2⟩
  · simp
  · rw [if_neg h2]; exact h e h1

/-- the sender of an answer to a leader is the leader -/
theorem match_leader {g0 : Gh} {e : Eng} {l : Leader} {w : Vote} (h : EInv g0 e) (hl : e.leader = some l) (hm : e.voteMatch w = true) :
    w = ⟨l.vote.leaderId, true⟩ := by
  unfold Eng.voteMatch at hm
  split at hm
  · next hc =>
    rw [hl] at hm
    have : l.vote = w := by simpa using hm
    rw [this, ← hc]
  · cases hc : e.candidate with
    | none => rw [hc] at hm; simp at hm
    | some c => exact absurd hl (by rw [(h.pj.cand c hc).nl]; simp)

theorem sessionMatch_vote {e : Eng} {s : Session} (h : e.sessionMatch s = true) : e.voteMatch s.vote = true := by
  unfold Eng.sessionMatch at h
  exact (Bool.and_eq_true _ _ ▸ h).1

/-- what the counted log ids give for the committed log id: it is the leader's own and with one config of at most three voters a
majority has it -/
def ByQuorum (me : NodeId) (is : List Input) (configs : List (List NodeId)) (i : LeaderId) (x : LogId) : Prop :=
  x.leaderId = i ∧ ∀ vs, configs = [vs] → Small vs → ∀ T : Finset Nat,
    (∀ n ∈ vs, (∃ y, x ≤ y ∧ Stored me is i n y) → n ∈ T) → Spec.Majority vs.toFinset T

theorem some_le {x y : LogId} (h : some x ≤ some y) : x ≤ y := h

theorem counts {g0 : Gh} {e : Eng} {l : Leader} {n : NodeId} {m : Option LogId} {C : Option LogId → Prop} (h : EInv g0 e)
    (hl : e.leader = some l) (hp : (CRule me is).on l) (hm : ∀ x, m = some x → Stored me is l.vote.leaderId n x) (hg : l.mt n ≤ m)
    (hC : ∀ x, ByQuorum me is l.progress.vp.configs l.vote.leaderId x → C (some x)) : Counts (CRule me is) C e l n m := by
  intro vp hu
  have ht : Track (fun n m => ∃ x, m = some x ∧ Stored me is l.vote.leaderId n x) none vp := by
    refine VecProgress.track_update hp.2.1 ?_ ?_ hu
    · cases m with
      | none => exact Or.inl rfl
      | some x => exact Or.inr ⟨x, rfl, hm x rfl⟩
    · intro x hx
      have := hp.2.2 _ hx
      rw [show x = l.mt n from this]; exact hg
  refine ⟨⟨hp.1, ht, update_vals hp.2.1.nodup hp.2.2 hu⟩, ?_⟩
  intro x hx hs
  refine hC x ⟨?_, ?_⟩
  · have hv := (h.pj.lead l hl).vote
    rw [← hv] at hs
    simpa [Vote.isSameLeader] using (beq_iff_eq.1 hs).symm
  · intro vs hvs hsm T hT
    have hc : vp.configs = [vs] := by rw [(VecProgress.update_vector hu).1]; exact hvs
    refine ht.majority none_le_id hc hsm (by rw [hx]; simp) ?_
    rintro k hk ⟨y, hy, z, rfl, hz⟩
    rw [hx] at hy
    exact hT k hk ⟨z, some_le hy, hz⟩

theorem upOk {g0 : Gh} {e : Eng} {i : Input} {C : Option LogId → Prop} (h : EInv g0 e) (hi : i ∈ is) (hg : Grows e i)
    (hC : ∀ l, e.leader = some l → ∀ x, ByQuorum e.cfg.id is l.progress.vp.configs l.vote.leaderId x → C (some x)) :
    UpOk (CRule e.cfg.id is) C e i := by
  cases i with
  | hbProgress s target t =>
    intro hs l c hl hc hp
    refine ⟨VecProgress.track_increase hp.1 ⟨t, rfl, Or.inr ⟨s, hi, ?_⟩⟩ hc, hp.2⟩
    exact match_leader h hl (sessionMatch_vote hs)
  | replProgress s target r =>
    cases r with
    | matching m =>
      intro hs l hl hp
      refine counts h hl hp ?_ (hg hs l hl) (hC l hl)
      intro x hx
      subst hx
      exact Or.inl ⟨s, hi, match_leader h hl (sessionMatch_vote hs)⟩
    | conflict c => trivial
    | failed => trivial
  | localIO io =>
    intro _ hv l hl hn hp
    refine counts h hl hp ?_ (le_of_lt (not_le.1 hn)) (hC l hl)
    intro x hx
    exact Or.inr ⟨io, hi, hx, match_leader h hl hv, rfl⟩
  | _ => trivial

theorem inM {e : Eng} {i : Input} {P : PRule} {C C' : Option LogId → Prop} (h : KInv WfM P C' e) (hw : InWf i)
    (ha : ∀ tx v prev es lc, i = .appendReq tx v prev es lc → ∀ x, x ≤ lc → C x)
    (hs : ∀ tx v m, i = .snapReq tx v m → C m.lastLogId) : InM WfM C e i := by
  cases i with
  | appendReq tx v prev es lc => exact ⟨hw, ha _ _ _ _ _ rfl⟩
  | snapReq tx v m => exact ⟨hw, hs _ _ _ rfl⟩
  | init tx m => exact hw
  | write p => exact hw
  | change c r =>
    intro m hm
    unfold Eng.changeApply at hm
    split at hm
    · split at hm
      · next m' hm' =>
        cases hm
        exact Membership.wf_change h.eff hw hm'
      · cases hm
    · cases hm
  | _ => trivial

/-! ## Reading the clock -/

theorem Leader.lastQuorumAcked_same (l : Leader) (now : Nat) : LSame (some l) (some (l.lastQuorumAcked now).2) := by
  unfold Leader.lastQuorumAcked
  split <;> exact ⟨rfl, rfl, rfl, rfl⟩

theorem frame_lastQuorumAcked (e : Eng) (now : Nat) : Frame e (e.lastQuorumAcked now).2 := by
  unfold Eng.lastQuorumAcked
  cases hl : e.leader with
  | none => exact Frame.refl e
  | some l =>
    refine ⟨rfl, rfl, rfl, rfl, fun _ => rfl, rfl, ?_, [], by simp, by simp⟩
    rw [hl]
    exact l.lastQuorumAcked_same now

theorem lastQuorumAcked_on {l : Leader} (h : (CRule me is).on l) (now : Nat) :
    (CRule me is).on (l.lastQuorumAcked now).2 ∧ (l.lastQuorumAcked now).1 = (l.lastQuorumAcked now).2.clock.granted ∧
    (l.lastQuorumAcked now).2.clock.configs = l.clock.configs ∧ (l.lastQuorumAcked now).2.vote = l.vote := by
  unfold Leader.lastQuorumAcked
  split
  · next c hc =>
    refine ⟨⟨VecProgress.track_increase h.1 ⟨now, rfl, Or.inl rfl⟩ hc, h.2⟩, rfl, ?_, rfl⟩
    unfold VecProgress.increaseTo at hc
    split at hc
    · cases hc
    · split at hc
      · cases hc
      · split at hc
        · exact (VecProgress.update_vector hc).1
        · cases hc; rfl
  · exact ⟨h, rfl, rfl, rfl⟩

theorem k_lastQuorumAcked {M : Membership → Prop} {C : Option LogId → Prop} {e : Eng} (h : KInv M (CRule me is) C e) (now : Nat) :
    KInv M (CRule me is) C (e.lastQuorumAcked now).2 := by
  unfold Eng.lastQuorumAcked
  cases hl : e.leader with
  | none => exact h
  | some l => exact h.lead (l := (l.lastQuorumAcked now).2) (lastQuorumAcked_on (h.clk l hl) now).1 rfl {}

/-! ## Executions -/

/-- the whole invariant of an execution -/
structure CInv (g0 : Gh) (id : NodeId) (is : List Input) (e : Eng) : Prop where
  inv : EInv g0 e
  k : KInv WfM (CRule id is) (fun _ => True) e
  id : e.cfg.id = id
  sy : Sy e

theorem s_lastQuorumAcked {e : Eng} (h : Sy e) (now : Nat) : Sy (e.lastQuorumAcked now).2 := by
  unfold Eng.lastQuorumAcked
  cases hl : e.leader with
  | none => exact h
  | some l =>
    refine h.set rfl ?_
    have := h.lead l hl
    unfold Leader.lastQuorumAcked
    split
    · next c hc => exact ⟨this.1, (increaseTo_configs hc).trans this.2⟩
    · exact this

theorem CInv.input {dbg : Bool} {g0 : Gh} {id : NodeId} {e e' : Eng} {now : Nat} {i : Input} (h : CInv g0 id is e) (ho : InputOk e i)
    (hw : InWf i) (hg : Grows e i) (hr : e.input dbg now i = .ok e') : CInv g0 id (is ++ [i]) e' := by
  have hid := h.id
  subst hid
  refine ⟨Eng.inv_input h.inv ho hr, ?_, congrArg (fun c => c.id) (Eng.grow_input (dbg := dbg) (now := now) e i e' hr).1,
    Eng.s_input h.inv h.sy ho _ hr⟩
  have hk : KInv WfM (CRule e.cfg.id (is ++ [i])) (fun _ => True) e :=
    ⟨h.k.eff, h.k.com, h.k.cand, fun l hl => (h.k.clk l hl).snoc, trivial⟩
  exact Eng.k_input (clockRule _ _) hk (inM hk hw (fun _ _ _ _ _ _ _ _ => trivial) (fun _ _ _ _ => trivial))
    (upOk h.inv (by simp) hg (fun _ _ _ _ => trivial)) _ hr

theorem CRun.inv {dbg : Bool} {g0 : Gh} {e0 e : Eng} (h : CRun dbg e0 is e) (h0 : CInv g0 e0.cfg.id [] e0) : CInv g0 e0.cfg.id is e := by
  induction h with
  | nil => exact h0
  | input now i _ ho hw hg hr ih => exact ih.input ho hw hg hr
  | metrics now _ ih =>
    exact ⟨(frame_lastQuorumAcked _ now).inv ih.inv, k_lastQuorumAcked ih.k now, by rw [(frame_lastQuorumAcked _ now).cfg]; exact ih.id,
      s_lastQuorumAcked ih.sy now⟩

end Openraft.Engine
