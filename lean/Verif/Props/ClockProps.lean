import Verif.Engine.Acked
import Verif.Props.AnswerProps
import Verif.Props.EngineProps

/-!
# C24, C12: what a leader counts

`CRun dbg e0 is e` is an execution of one node in which the inputs `is` were handled. A leader reports a time as acknowledged
by a quorum, and commits a log id, only if a majority has reported it: `Beat` and `Stored` name these reports.
-/

set_option autoImplicit false

namespace Openraft.Props
open Openraft Openraft.Engine Openraft.Engine.Demo
open Openraft.VecProgress (Small)

variable {dbg : Bool} {g0 : Gh} {e0 e e' : Eng} {is : List Input}

/-- the state a node starts with: loaded without a role, its memberships are sets and maps, then `startup` -/
structure Started (dbg : Bool) (g0 : Gh) (e0 : Eng) : Prop where
  inv : EInv g0 e0
  start : ∃ (e : Eng) (now : Nat), e.leader = none ∧ e.candidate = none ∧ WfM e.st.ms.effective.mem ∧ WfM e.st.ms.committed.mem ∧
    e.startup dbg now = .ok e0

theorem Started.cinv (h : Started dbg g0 e0) : CInv g0 e0.cfg.id [] e0 := by
  obtain ⟨e, now, h1, h2, h3, h4, hr⟩ := h.start
  refine ⟨h.inv, ?_, rfl, ?_⟩
  · exact Eng.k_startup (clockRule _ _) ⟨h3, h4, fun c hc => (by rw [h2] at hc; cases hc), fun l hl => (by rw [h1] at hl; cases hl), trivial⟩ _ hr
  · unfold Eng.startup at hr
    split at hr
    · exact Eng.s_updateInternal (Sy.free h1 h2) (fun _ => h2) _ hr
    · rw [pure_ok] at hr; subst hr
      exact Sy.free h1 h2

theorem wfM_empty : WfM ⟨[], []⟩ := ⟨by simp, List.Pairwise.nil⟩

/-- a node without data -/
theorem started_fresh (cfg : Cfg) (now : Nat) : Started dbg Gh.empty (Eng.fresh cfg now) := by
  refine ⟨Eng.fresh_inv cfg now, Eng.fresh cfg now, now, rfl, rfl, wfM_empty, wfM_empty, ?_⟩
  rfl

/-- voters that have answered a heartbeat of leader `i` sent at time `t` or later; the node itself counts as well -/
def AckedSince (me : NodeId) (is : List Input) (i : LeaderId) (t : Nat) (n : NodeId) : Prop :=
  n = me ∨ ∃ t', t ≤ t' ∧ Beat is i n t'

/-- **C24**, the counting: with one config of at most three voters, a reported time `t` means that a majority of the voters of the
effective membership are the leader itself or have answered a heartbeat that this leader sent at `t` or later. -/
theorem C24_quorum_partial (h0 : Started dbg g0 e0) (h : CRun dbg e0 is e) {now t : Nat} (hr : (e.lastQuorumAcked now).1 = some t)
    {vs : List NodeId} (hc : e.st.ms.effective.mem.configs = [vs]) (hs : Small vs) :
    ∃ l, e.leader = some l ∧ ∀ T : Finset Nat, (∀ n ∈ vs, AckedSince e.cfg.id is l.vote.leaderId t n → n ∈ T) →
      Spec.Majority vs.toFinset T := by
  have hi := h.inv h0.cinv
  unfold Eng.lastQuorumAcked at hr
  cases hl : e.leader with
  | none => rw [hl] at hr; cases hr
  | some l =>
    rw [hl] at hr
    refine ⟨l, rfl, fun T hT => ?_⟩
    obtain ⟨k1, k2, k3, k4⟩ := lastQuorumAcked_on (hi.k.clk l hl) now
    have hcfg : (l.lastQuorumAcked now).2.clock.configs = [vs] := by rw [k3, (hi.sy.lead l hl).2, hc]
    have hg : (l.lastQuorumAcked now).2.clock.granted = some t := by rw [← k2]; exact hr
    have hn := (hi.inv.pj.lead l hl)
    refine k1.1.majority none_le_nat hcfg hs (by rw [hg]; simp) ?_
    rintro n hn' ⟨v, hv, x, rfl, hx⟩
    refine hT n hn' ?_
    rw [k4] at hx
    rcases hx with hx | hx
    · left
      rw [hx, hn.vote, hn.node]
    · right
      rw [hg] at hv
      exact ⟨x, hv, hx⟩

/-- **C12**, what is committed: if an input moves the committed position to `x`, it is a request of another leader, or this node is
the leader, `x` is its own log id, and with one config of at most three voters a majority of the voters of the effective membership
has reported to this leader that it stores `x` or more. -/
theorem C12_commit_partial (h0 : Started dbg g0 e0) (h : CRun dbg e0 is e) {now : Nat} {i : Input} (_ho : InputOk e i) (hw : InWf i)
    (hg : Grows e i) (hr : e.input dbg now i = .ok e') (hlt : e.st.committed < e'.st.committed) :
    ∃ x, e'.st.committed = some x ∧ (
      (∃ tx v prev es lc, i = .appendReq tx v prev es lc ∧ some x ≤ lc) ∨
      (∃ tx v m, i = .snapReq tx v m ∧ m.lastLogId = some x) ∨
      ∃ l, e.leader = some l ∧ x.leaderId = l.vote.leaderId ∧ ∀ vs, e.st.ms.effective.mem.configs = [vs] → Small vs →
        ∀ T : Finset Nat, (∀ n ∈ vs, (∃ y, x ≤ y ∧ Stored e.cfg.id (is ++ [i]) l.vote.leaderId n y) → n ∈ T) → Spec.Majority vs.toFinset T) := by
  have hi := h.inv h0.cinv
  have hk0 := hi.k
  rw [← hi.id] at hk0
  have hk : KInv WfM (CRule e.cfg.id (is ++ [i])) (fun c => c = e.st.committed ∨ c = none ∨ ∃ x, c = some x ∧ (
      (∃ tx v prev es lc, i = .appendReq tx v prev es lc ∧ some x ≤ lc) ∨
      (∃ tx v m, i = .snapReq tx v m ∧ m.lastLogId = some x) ∨
      ∃ l, e.leader = some l ∧ x.leaderId = l.vote.leaderId ∧ ∀ vs, e.st.ms.effective.mem.configs = [vs] → Small vs →
        ∀ T : Finset Nat, (∀ n ∈ vs, (∃ y, x ≤ y ∧ Stored e.cfg.id (is ++ [i]) l.vote.leaderId n y) → n ∈ T) → Spec.Majority vs.toFinset T)) e :=
    ⟨hk0.eff, hk0.com, hk0.cand, fun l hl => (hk0.clk l hl).snoc, Or.inl rfl⟩
  have := Eng.k_input (clockRule _ _) hk (inM hk hw ?_ ?_) (upOk hi.inv (by simp) hg ?_) _ hr
  · rcases this.cmt with hc | hc | hc
    · exact absurd hlt (by rw [show e'.st.committed = _ from hc]; exact lt_irrefl _)
    · exact absurd hlt (by rw [show e'.st.committed = _ from hc]; exact not_lt.2 (none_le_id _))
    · exact hc
  · intro tx v prev es lc hi x hx
    cases x with
    | none => exact Or.inr (Or.inl rfl)
    | some x => exact Or.inr (Or.inr ⟨x, rfl, Or.inl ⟨tx, v, prev, es, lc, hi, hx⟩⟩)
  · intro tx v m hi
    cases hm : m.lastLogId with
    | none => exact Or.inr (Or.inl rfl)
    | some x => exact Or.inr (Or.inr ⟨x, rfl, Or.inr (Or.inl ⟨tx, v, m, hi, hm⟩)⟩)
  · intro l hl x hx
    refine Or.inr (Or.inr ⟨x, rfl, Or.inr (Or.inr ⟨l, hl, hx.1, fun vs hvs => hx.2 vs ?_⟩)⟩)
    rw [(hi.sy.lead l hl).1]; exact hvs

/-- A debug build checks that a follower does not report less than before: there `Grows` holds by itself. -/
theorem grows_of_debug {now : Nat} {i : Input} (hr : e.input true now i = .ok e') : Grows e i := by
  cases i with
  | replProgress s target r =>
    cases r with
    | matching m =>
      intro hs l hl
      simp only [Eng.input, Eng.coreReplProgress] at hr
      rw [if_pos hs, bind_ok] at hr
      obtain ⟨l', hl', hr⟩ := hr
      have := Eng.unwrap_some hl'
      rw [hl] at this; cases this
      unfold Eng.rhUpdateProgress at hr
      rw [bind_ok] at hr
      obtain ⟨e1, he1, _⟩ := hr
      unfold Eng.rhUpdateMatching at he1
      rw [bind_ok] at he1
      obtain ⟨_, _, he1⟩ := he1
      rw [bind_ok] at he1
      obtain ⟨_, _, he1⟩ := he1
      rw [bind_ok] at he1
      obtain ⟨en, hen, _⟩ := he1
      unfold Repl.Entry.updateMatching at hen
      rw [bind_ok] at hen
      obtain ⟨_, _, hen⟩ := hen
      rw [bind_ok] at hen
      obtain ⟨_, h1, _⟩ := hen
      exact of_decide_eq_true (dassert_ok.1 h1 rfl)
    | conflict c => trivial
    | failed => trivial
  | _ => trivial

/-! ## executions from lists of inputs -/

instance (m : Membership) : Decidable (WfM m) :=
  decidable_of_iff ((∀ c ∈ m.configs, c.Pairwise (· < ·)) ∧ (BMap.keys m.nodes).Pairwise (· < ·)) ⟨fun h => ⟨h.1, h.2⟩, fun h => ⟨h.1, h.2⟩⟩

/-- decide `InWf` for the inputs used here -/
def wfB : Input → Bool
  | .init _ m => decide (WfM m)
  | .appendReq _ _ _ es _ => es.isEmpty
  | .snapReq _ _ m => decide (WfM m.mem.mem)
  | .write (.membership m) => decide (WfM m)
  | .change _ _ => false
  | _ => true

theorem wfB_ok {i : Input} (h : wfB i = true) : InWf i := by
  cases i with
  | init tx m =>
    have : WfM m := of_decide_eq_true h
    exact this
  | appendReq tx v prev es lc =>
    intro x hx
    rw [List.isEmpty_iff.1 h] at hx; cases hx
  | snapReq tx v m =>
    have : WfM m.mem.mem := of_decide_eq_true h
    exact this
  | write p =>
    intro m hm
    simp only [List.mem_singleton] at hm
    subst hm
    have : WfM m := of_decide_eq_true h
    exact this
  | change c r => cases h
  | _ => trivial

/-- the inputs are allowed, `wfB`, and do not abort the node -/
def countsB (e : Eng) : List (Nat × List LogId × Input) → Bool
  | [] => true
  | (t, lead, i) :: is => okB lead e i && wfB i && fine t e i && countsB (after t e i) is

theorem crun_of {is : List Input} {l : List (Nat × List LogId × Input)} (h0 : CRun true e0 is e) (h : countsB e l = true) :
    CRun true e0 (is ++ l.map (·.2.2)) (runTo e l) := by
  induction l generalizing e is with
  | nil => simpa [runTo] using h0
  | cons x l ih =>
    obtain ⟨t, lead, i⟩ := x
    simp only [countsB, Bool.and_eq_true] at h
    have hr := after_ok h.1.2
    have := ih (.input t i h0 (okB_ok h.1.1.1) (wfB_ok h.1.1.2) (grows_of_debug hr) hr) h.2
    simpa [runTo] using this

/-- leader 1 of three voters; its first entry is stored by it and node 2; node 2 answers the heartbeat sent at time 9 -/
def w24 : List (Nat × List LogId × Input) := [
  (1, [], .init 7 m3), (2, [], .voteResp 1 ⟨⟨1, 1⟩, false⟩ none true ⟨⟨1, 1⟩, false⟩),
  (3, [], .voteResp 2 ⟨⟨1, 1⟩, false⟩ none true ⟨⟨1, 1⟩, false⟩),
  (4, [], .localIO ⟨⟨⟨1, 1⟩, true⟩, some (lid 1 1 1)⟩),
  (10, [], .hbProgress ⟨⟨⟨1, 1⟩, true⟩, some (lid 0 0 0)⟩ 2 9)]
/-- the inputs -/
def is24 : List Input := w24.map (·.2.2)
/-- its state -/
def s24 : Eng := runTo (Eng.fresh Demo.cfg 0) w24
theorem s24_run : CRun true (Eng.fresh Demo.cfg 0) is24 s24 := crun_of (l := w24) (is := []) .nil (by decide +kernel)

example : (s24.lastQuorumAcked 11).1 = some 9 ∧ s24.st.ms.effective.mem.configs = [[1, 2, 3]] ∧
    ∃ l, s24.leader = some l ∧ ∀ T : Finset Nat, (∀ n ∈ [1, 2, 3], AckedSince s24.cfg.id is24 l.vote.leaderId 9 n → n ∈ T) →
      Spec.Majority [1, 2, 3].toFinset T :=
  have h : (s24.lastQuorumAcked 11).1 = some 9 := by decide +kernel
  have hc : s24.st.ms.effective.mem.configs = [[1, 2, 3]] := by decide +kernel
  ⟨h, hc, C24_quorum_partial (started_fresh _ _) s24_run h hc ⟨by simp, by simp⟩⟩

/-- node 2 reports the first entry: it is committed -/
def i24 : Input := .replProgress ⟨⟨⟨1, 1⟩, true⟩, some (lid 0 0 0)⟩ 2 (.matching (some (lid 1 1 1)))

example : s24.st.committed < (after 12 s24 i24).st.committed ∧ (after 12 s24 i24).st.committed = some (lid 1 1 1) ∧
    ∃ l, s24.leader = some l ∧ ∀ T : Finset Nat,
      (∀ n ∈ [1, 2, 3], (∃ y, lid 1 1 1 ≤ y ∧ Stored s24.cfg.id (is24 ++ [i24]) l.vote.leaderId n y) → n ∈ T) →
      Spec.Majority [1, 2, 3].toFinset T := by
  have hr : s24.input true 12 i24 = .ok (after 12 s24 i24) := after_ok (by decide +kernel)
  have hlt : s24.st.committed < (after 12 s24 i24).st.committed := by decide +kernel
  have hc : (after 12 s24 i24).st.committed = some (lid 1 1 1) := by decide +kernel
  refine ⟨hlt, hc, ?_⟩
  obtain ⟨x, hx, h⟩ := C12_commit_partial (started_fresh _ _) s24_run (i := i24) (okB_ok (lead := []) (by decide +kernel)) trivial
    (grows_of_debug hr) hr hlt
  rw [hc] at hx; cases hx
  rcases h with ⟨tx, v, prev, es, lc, hi, _⟩ | ⟨tx, v, m, hi, _⟩ | ⟨l, hl, _, hq⟩
  · cases hi
  · cases hi
  · exact ⟨l, hl, hq [1, 2, 3] (by decide +kernel) ⟨by simp, by simp⟩⟩

/-! ## a heartbeat that was refused is counted -/

/-- a node that has voted for node 3 in term 2 -/
def r24 : Eng := runTo (Eng.fresh { Demo.cfg with id := 2 } 0) [(1, [], .voteReq 5 ⟨⟨2, 3⟩, false⟩ none)]
/-- the leader 1 before the answer -/
def t24 : Eng := runTo (Eng.fresh Demo.cfg 0) (w24.take 4)
/-- its session -/
def ss24 : Session := ⟨⟨⟨1, 1⟩, true⟩, some (lid 0 0 0)⟩

/-- **C24** does not hold: leader 1 of three voters sends a heartbeat at time 9 to node 2, which has a greater vote and refuses it;
the heartbeat worker reports the refusal as an acknowledgement, and the leader reports time 9 as acknowledged by a quorum although no
other node has ever acknowledged anything. -/
theorem C24_refusal_counted_false :
    ∃ (e e' r r' : Eng) (is : List Input) (l : Leader) (w : Vote) (upto : Option LogId) (i : Input),
      Started true Gh.empty (Eng.fresh Demo.cfg 0) ∧ CRun true (Eng.fresh Demo.cfg 0) is e ∧ e.leader = some l ∧
      l.vote = ss24.vote ∧ e.st.ms.effective.mem.configs = [[1, 2, 3]] ∧ (∀ s n t, Input.hbProgress s n t ∉ is) ∧
      r.input true 9 (hbRequest 6 ss24 e.st.committed) = .ok r' ∧ r'.out = r.out ++ [.respond none 6 (.append (.higherVote w) l.vote upto)] ∧
      l.vote < w ∧ r'.st.vote.data = w ∧ hbWorker ss24 2 9 (some (.higherVote w)) = some i ∧
      CRun true (Eng.fresh Demo.cfg 0) (is ++ [i]) e' ∧ (e.lastQuorumAcked 11).1 = none ∧ (e'.lastQuorumAcked 11).1 = some 9 := by
  have h1 : CRun true (Eng.fresh Demo.cfg 0) ((w24.take 4).map (·.2.2)) t24 := crun_of (l := w24.take 4) (is := []) .nil (by decide +kernel)
  have hl : ∃ l, t24.leader = some l := Option.isSome_iff_exists.1 (by decide +kernel)
  obtain ⟨l, hl⟩ := hl
  have hv : t24.leader.map (·.vote) = some ss24.vote := by decide +kernel
  have hv : l.vote = ss24.vote := by rw [hl] at hv; exact Option.some.inj hv
  refine ⟨t24, after 10 t24 (.hbProgress ss24 2 9), r24, after 9 r24 (hbRequest 6 ss24 t24.st.committed), _, l, ⟨⟨2, 3⟩, false⟩, none, _,
    started_fresh _ _, h1, hl, hv, by decide +kernel, ?_, after_ok (by decide +kernel), ?_, ?_, by decide +kernel, rfl, ?_, by decide +kernel,
    by decide +kernel⟩
  · intro s n t h
    simp [w24] at h
  · rw [hv]; decide +kernel
  · rw [hv]; decide +kernel
  · have hr : t24.input true 10 (.hbProgress ss24 2 9) = .ok (after 10 t24 (.hbProgress ss24 2 9)) := after_ok (by decide +kernel)
    exact .input 10 _ h1 (okB_ok (lead := []) (by decide +kernel)) trivial trivial hr

end Openraft.Props
