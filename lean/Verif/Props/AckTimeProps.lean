import Verif.Props.OverCommitProps
import Verif.Engine.StuckClock

/-!
# C58, C24: the time a leader reports as acknowledged by a quorum

C58: it is not before a time that a quorum is recorded to have acknowledged. This holds with one config of at most three voters
(`C58_reports_partial`). With seven voters it fails although the leader reports its metrics after every input, as `RaftCore` does
(`C58_false`), and the time stands still while the nodes that are above it keep answering (`C58_stuck`, `C58_halted`).

C24, the other direction: a leader of five voters reports a time that no quorum has acknowledged, without any refusal (`C24_five_false`),
for ever if of its followers only one answers (`C24_lease_of_two`).
-/

set_option autoImplicit false

namespace Openraft.Props
open Openraft Openraft.Engine Openraft.Engine.Demo
open Openraft.VecProgress (Small Track Above)

variable {dbg : Bool} {g0 : Gh} {e0 e e' : Eng} {is : List Input}

/-- node `n` is recorded to have acknowledged the leader at time `t` or later -/
def AckRec (l : Leader) (t : Nat) (n : NodeId) : Prop := ∃ v, (n, some v) ∈ l.clock.vector ∧ t ≤ v

/-- a quorum of the effective membership is recorded to have acknowledged the leader at time `t` or later -/
def AckedBy (e : Eng) (l : Leader) (t : Nat) : Prop :=
  ∃ T : Finset Nat, (∀ n ∈ T, AckRec l t n) ∧ Spec.JointQuorum (e.st.ms.effective.mem.configs.map List.toFinset) T

/-- **C58**: the time that a leader reports is not before one that a quorum is recorded to have acknowledged. -/
def C58_statement : Prop :=
  ∀ (dbg : Bool) (g0 : Gh) (e0 e : Eng) (is : List Input) (now : Nat) (l : Leader) (t : Nat),
    Started dbg g0 e0 → CRun dbg e0 is e → (e.lastQuorumAcked now).2.leader = some l → AckedBy e l t →
    some t ≤ (e.lastQuorumAcked now).1

/-! ## What is recorded -/

theorem increaseTo_rec {c c' : VecProgress (Option Nat)} {n : NodeId} {t : Nat} (h : c.increaseTo n (some t) = some c') :
    ∃ v, (n, some v) ∈ c'.vector ∧ t ≤ v := by
  have hup : ∀ {x : Option Nat}, c.update n x = some c' → (n, x) ∈ c'.vector := by
    intro x hu
    obtain ⟨_, i, y, hy, hp⟩ := VecProgress.update_vector hu
    refine hp.mem_iff.2 ?_
    have hi : i < c.vector.length := (List.getElem?_eq_some_iff.1 hy).1
    exact List.mem_iff_getElem?.2 ⟨i, by rw [List.getElem?_set_self hi]⟩
  unfold VecProgress.increaseTo at h
  cases hi : c.index n with
  | none => rw [hi] at h; cases h
  | some i =>
    obtain ⟨x, hx⟩ := Props.index_some hi
    rw [hi] at h
    simp only [hx] at h
    split at h
    · exact ⟨t, hup h, le_refl _⟩
    · next hv =>
      cases h
      cases x with
      | none => exact absurd (by simp) hv
      | some v => exact ⟨v, List.mem_of_getElem? hx, by simpa using hv⟩

/-- **C58**, what is recorded: an answer that belongs to the leader's term and membership is recorded. -/
theorem C58_recorded {now t : Nat} {s : Session} {n : NodeId} (hs : e.sessionMatch s = true)
    (hr : e.input dbg now (.hbProgress s n t) = .ok e') : ∃ l', e'.leader = some l' ∧ AckRec l' t n := by
  simp only [Eng.input, Eng.coreHbProgress] at hr
  rw [if_pos hs, bind_ok] at hr
  obtain ⟨l, hl, hr⟩ := hr
  unfold Eng.rhUpdateClock at hr
  rw [bind_ok] at hr
  obtain ⟨c, hc, hr⟩ := hr
  rw [pure_ok] at hr
  subst hr
  exact ⟨_, rfl, increaseTo_rec (Eng.unwrap_some hc)⟩

/-- node 3 answers the heartbeat of time 11 -/
example : ∃ l', (after 12 s24 (.hbProgress ss24 3 11)).leader = some l' ∧ AckRec l' 11 3 :=
  C58_recorded (dbg := true) (now := 12) (by decide +kernel) (after_ok (by decide +kernel))

/-- **C58**, what is recorded: when the time is reported, the leader itself counts with the present time, if it is a member. -/
theorem C58_self (h0 : Started dbg g0 e0) (h : CRun dbg e0 is e) {now : Nat} {l : Leader} (hl : (e.lastQuorumAcked now).2.leader = some l)
    (hme : e.cfg.id ∈ l.clock.vector.map (·.1)) : AckRec l now e.cfg.id := by
  have hi := h.inv h0.cinv
  cases hl0 : e.leader with
  | none =>
    unfold Eng.lastQuorumAcked at hl
    rw [hl0] at hl
    dsimp only at hl
    rw [hl0] at hl; cases hl
  | some l0 =>
    have hsnd : (e.lastQuorumAcked now).2.leader = some (l0.lastQuorumAcked now).2 := by unfold Eng.lastQuorumAcked; rw [hl0]
    rw [hsnd] at hl
    have hl := Option.some.inj hl
    have hL := hi.inv.pj.lead l0 hl0
    have hid : l0.vote.leaderId.node = e.cfg.id := by rw [hL.vote, hL.node]
    unfold Leader.lastQuorumAcked at hl
    rw [hid] at hl
    cases hc : l0.clock.increaseTo e.cfg.id (some now) with
    | some c =>
      rw [hc] at hl
      subst hl
      exact increaseTo_rec hc
    | none =>
      rw [hc] at hl
      subst hl
      exfalso
      obtain ⟨p, hp, hpe⟩ := List.mem_map.1 hme
      have hix : ∃ i, l0.clock.index e.cfg.id = some i := by
        unfold VecProgress.index
        exact Option.isSome_iff_exists.1 (by rw [List.findIdx?_isSome, List.any_eq_true]; exact ⟨p, hp, by simpa using hpe⟩)
      obtain ⟨i, hix⟩ := hix
      obtain ⟨x, hx⟩ := Props.index_some hix
      unfold VecProgress.increaseTo at hc
      rw [hix] at hc
      simp only [hx] at hc
      split at hc
      · unfold VecProgress.update at hc
        rw [hix] at hc
        simp only [hx] at hc
        split at hc
        · cases hc
        · split at hc
          · cases hc
          · split at hc <;> cases hc
      · cases hc

/-- leader 1 counts itself with time 11 -/
example : ∃ l, (s24.lastQuorumAcked 11).2.leader = some l ∧ AckRec l 11 s24.cfg.id := by
  have hl : ∃ l, (s24.lastQuorumAcked 11).2.leader = some l := Option.isSome_iff_exists.1 (by decide +kernel)
  obtain ⟨l, hl⟩ := hl
  have hc : (s24.lastQuorumAcked 11).2.leader.map (fun l => l.clock.vector.map (·.1)) = some [1, 2, 3] := by decide +kernel
  rw [hl] at hc
  have hc : l.clock.vector.map (·.1) = [1, 2, 3] := Option.some.inj hc
  exact ⟨l, hl, C58_self (started_fresh _ _) s24_run hl (by rw [hc]; decide +kernel)⟩

/-! ## One config of at most three voters -/

/-- **C58** with one config of at most three voters. -/
theorem C58_reports_partial (h0 : Started dbg g0 e0) (h : CRun dbg e0 is e) {now t : Nat} {l : Leader}
    (hl : (e.lastQuorumAcked now).2.leader = some l) {vs : List NodeId} (hvs : e.st.ms.effective.mem.configs = [vs]) (hsm : Small vs)
    (hq : AckedBy e l t) : some t ≤ (e.lastQuorumAcked now).1 := by
  have hi := h.inv h0.cinv
  cases hl0 : e.leader with
  | none =>
    unfold Eng.lastQuorumAcked at hl
    rw [hl0] at hl
    dsimp only at hl
    rw [hl0] at hl; cases hl
  | some l0 =>
    obtain ⟨k1, k2, k3, _⟩ := lastQuorumAcked_on (hi.k.clk l0 hl0) now
    have hfst : (e.lastQuorumAcked now).1 = (l0.lastQuorumAcked now).1 := by unfold Eng.lastQuorumAcked; rw [hl0]
    have hsnd : (e.lastQuorumAcked now).2.leader = some (l0.lastQuorumAcked now).2 := by unfold Eng.lastQuorumAcked; rw [hl0]
    rw [hsnd] at hl
    have hl := Option.some.inj hl
    rw [hl] at k1 k2 k3
    have hcf : l.clock.configs = [vs] := by rw [k3, (hi.sy.lead l0 hl0).2]; exact hvs
    obtain ⟨vals, r1, r2, r3⟩ := k1.1.exact' vs hcf hsm
    have hqv := quorumValue_of_ok r1 r2 r3
    rw [hfst, k2]
    by_contra hn
    refine hqv.2 (some t) (not_le.1 hn) ?_
    obtain ⟨T, hT, hJ⟩ := hq
    intro c hc
    rw [hcf] at hc
    simp only [List.map_cons, List.map_nil, List.mem_singleton] at hc
    subst hc
    have hm : Spec.Majority vs.toFinset T := hJ _ (by rw [hvs]; simp)
    refine lt_of_lt_of_le hm ?_
    have : vs.toFinset ∩ T ⊆ vs.toFinset.filter fun k => some t ≤ vals k := by
      intro n hn
      rw [Finset.mem_inter, List.mem_toFinset] at hn
      rw [Finset.mem_filter, List.mem_toFinset]
      refine ⟨hn.1, ?_⟩
      obtain ⟨v, hv, htv⟩ := hT n hn.2
      have := r2.vals _ hv
      dsimp only at this
      rw [← this]
      exact Option.some_le_some.2 htv
    have := Finset.card_le_card this
    omega

/-- in the cluster of three node 2 has answered a heartbeat sent at time 9; the leader reports it -/
example : ∃ l, (s24.lastQuorumAcked 11).2.leader = some l ∧ AckedBy s24 l 9 ∧ some 9 ≤ (s24.lastQuorumAcked 11).1 := by
  have hl : ∃ l, (s24.lastQuorumAcked 11).2.leader = some l := Option.isSome_iff_exists.1 (by decide +kernel)
  obtain ⟨l, hl⟩ := hl
  have hc : (s24.lastQuorumAcked 11).2.leader.map (·.clock.vector) = some [(1, some 11), (2, some 9), (3, none)] := by decide +kernel
  rw [hl] at hc
  have hc : l.clock.vector = _ := Option.some.inj hc
  have hcf : s24.st.ms.effective.mem.configs = [[1, 2, 3]] := by decide +kernel
  have ha : AckedBy s24 l 9 := by
    refine ⟨{1, 2}, ?_, ?_⟩
    · intro n hn
      simp only [Finset.mem_insert, Finset.mem_singleton] at hn
      unfold AckRec
      rw [hc]
      rcases hn with rfl | rfl
      · exact ⟨11, by simp, by omega⟩
      · exact ⟨9, by simp, by omega⟩
    · rw [hcf]
      intro c hc
      simp only [List.map_cons, List.map_nil, List.mem_singleton] at hc
      subst hc
      unfold Spec.Majority; decide
  exact ⟨l, hl, ha, C58_reports_partial (started_fresh _ _) s24_run hl hcf ⟨by simp, by simp⟩ ha⟩

/-! ## Seven voters -/

/-- the state after the inputs if the metrics are reported one unit of time after each of them: `runtime_loop`, `core/raft_core.rs:910-911`, reports
them in every round, and a round handles one message if no more are waiting -/
def runM (e : Eng) : List (Nat × List LogId × Input) → Eng
  | [] => e
  | (t, _, i) :: is => runM ((after t e i).lastQuorumAcked (t + 1)).2 is

/-- the inputs are allowed, `wfB`, and do not abort the node -/
def countsM (e : Eng) : List (Nat × List LogId × Input) → Bool
  | [] => true
  | (t, lead, i) :: is => okB lead e i && wfB i && fine t e i && countsM ((after t e i).lastQuorumAcked (t + 1)).2 is

theorem crunM_of {is : List Input} {l : List (Nat × List LogId × Input)} (h0 : CRun true e0 is e) (h : countsM e l = true) :
    CRun true e0 (is ++ l.map (·.2.2)) (runM e l) := by
  induction l generalizing e is with
  | nil => simpa [runM] using h0
  | cons x l ih =>
    obtain ⟨t, lead, i⟩ := x
    simp only [countsM, Bool.and_eq_true] at h
    have hr := after_ok h.1.2
    have := ih (.metrics (t + 1) (.input t i h0 (okB_ok h.1.1.1) (wfB_ok h.1.1.2) (grows_of_debug hr) hr)) h.2
    simpa [runM] using this

/-- a cluster of seven voters -/
def m7 : Membership := ⟨[[1, 2, 3, 4, 5, 6, 7]], [(1, 0), (2, 0), (3, 0), (4, 0), (5, 0), (6, 0), (7, 0)]⟩

/-- node 1 is elected leader of seven voters, and its first entry is committed; at time 5 it sends heartbeats -/
def w58 : List (Nat × List LogId × Input) := [
  (1, [], .init 7 m7), (2, [], .voteResp 1 ⟨⟨1, 1⟩, false⟩ none true ⟨⟨1, 1⟩, false⟩),
  (3, [], .voteResp 2 ⟨⟨1, 1⟩, false⟩ none true ⟨⟨1, 1⟩, false⟩),
  (3, [], .voteResp 3 ⟨⟨1, 1⟩, false⟩ none true ⟨⟨1, 1⟩, false⟩),
  (3, [], .voteResp 4 ⟨⟨1, 1⟩, false⟩ none true ⟨⟨1, 1⟩, false⟩),
  (4, [], .localIO ⟨⟨⟨1, 1⟩, true⟩, some (lid 1 1 1)⟩),
  (4, [], .replProgress ss57 2 (.matching (some (lid 1 1 1)))), (4, [], .replProgress ss57 3 (.matching (some (lid 1 1 1)))),
  (4, [], .replProgress ss57 4 (.matching (some (lid 1 1 1)))), (5, [], .tick true true 1)]

/-- nodes 2, 3 and 4 answer the heartbeat of time 5, node 3 also the one of time 8, nodes 5 and 6 the one of time 9 -/
def v58 : List (Nat × List LogId × Input) := w58 ++ [
  (6, [], .hbProgress ss57 2 5), (7, [], .hbProgress ss57 3 5), (8, [], .tick true true 1), (9, [], .tick true true 1),
  (9, [], .hbProgress ss57 3 8), (9, [], .hbProgress ss57 4 5), (10, [], .hbProgress ss57 5 9), (11, [], .hbProgress ss57 6 9)]

/-- its state -/
def s58 : Eng := runM (Eng.fresh Demo.cfg 0) v58
theorem s58_run : CRun true (Eng.fresh Demo.cfg 0) (v58.map (·.2.2)) s58 := crunM_of (l := v58) (is := []) .nil (by decide +kernel)

/-- what the leader has recorded -/
theorem s58_lead : ∃ l, s58.leader = some l ∧ l.vote = ss57.vote ∧ l.clock.granted = some 5 ∧
    l.clock.vector = [(1, some 12), (5, some 9), (6, some 9), (2, some 5), (3, some 8), (4, some 5), (7, none)] := by
  have hl : ∃ l, s58.leader = some l := Option.isSome_iff_exists.1 (by decide +kernel)
  obtain ⟨l, hl⟩ := hl
  have hm : s58.leader.map (fun l => (l.vote, l.clock.granted, l.clock.vector)) = some (ss57.vote, some 5,
    [(1, some 12), (5, some 9), (6, some 9), (2, some 5), (3, some 8), (4, some 5), (7, none)]) := by decide +kernel
  rw [hl] at hm
  have hm := Option.some.inj hm
  simp only [Prod.mk.injEq] at hm
  exact ⟨l, hl, hm.1, hm.2.1, hm.2.2⟩

theorem s58_time : (s58.lastQuorumAcked 13).1 = some 5 := by decide +kernel

set_option maxRecDepth 8000 in
/-- **C58** does not hold: nodes 1, 3, 5 and 6 of seven voters have acknowledged the leader at time 8, and the leader reports time 5. -/
theorem C58_false : ¬ C58_statement := by
  intro h
  have hl : ∃ l, (s58.lastQuorumAcked 13).2.leader = some l := Option.isSome_iff_exists.1 (by decide +kernel)
  obtain ⟨l, hl⟩ := hl
  have hc : (s58.lastQuorumAcked 13).2.leader.map (·.clock.vector) =
    some [(1, some 13), (5, some 9), (6, some 9), (2, some 5), (3, some 8), (4, some 5), (7, none)] := by decide +kernel
  rw [hl] at hc
  have hc : l.clock.vector = _ := Option.some.inj hc
  have := h true Gh.empty _ s58 _ 13 l 8 (started_fresh _ _) s58_run hl ⟨{1, 3, 5, 6}, ?_, ?_⟩
  · rw [s58_time] at this
    simp at this
  · intro n hn
    simp only [Finset.mem_insert, Finset.mem_singleton] at hn
    unfold AckRec
    rw [hc]
    rcases hn with rfl | rfl | rfl | rfl
    · exact ⟨13, by simp, by omega⟩
    · exact ⟨8, by simp, by omega⟩
    · exact ⟨9, by simp, by omega⟩
    · exact ⟨9, by simp, by omega⟩
  · rw [show s58.st.ms.effective.mem.configs = [[1, 2, 3, 4, 5, 6, 7]] by decide +kernel]
    intro c hc
    simp only [List.map_cons, List.map_nil, List.mem_singleton] at hc
    subst hc
    unfold Spec.Majority; decide

/-! ## It stays so -/

/-- **C58**, why it is not repaired: let the nodes in `A`, with the leader itself, be recorded above the granted time. As long as only
they answer, the node stays the leader and every time it reports is the same. -/
theorem C58_stuck (h0 : Started dbg g0 e0) (h : CRun dbg e0 is e) {l : Leader} (hl : e.leader = some l) {A : NodeId → Prop} (hme : A e.cfg.id)
    (hA : ∀ p ∈ l.clock.vector, A p.1 → l.clock.granted < p.2)
    (heff : e.st.ms.effective.mem.contains e.cfg.id = true) (hcom : e.st.ms.committed.mem.contains e.cfg.id = true)
    {is' : List Input} (hr : CRun dbg e is' e') (hq : ∀ i ∈ is', OnlyAck A i) (now : Nat) :
    (e'.lastQuorumAcked now).1 = l.clock.granted ∧ ∃ l', e'.leader = some l' ∧ l'.vote = l.vote := by
  have hinv := h.inv h0.cinv
  have hS : StandsC g0 l.clock.granted A e.cfg e.st.vote.data e := by
    refine ⟨hinv.inv, ⟨l, hl⟩, ⟨heff, hcom, ?_, ?_, trivial⟩, rfl, rfl⟩
    · intro c hc
      have := (hinv.inv.pj.cand c hc).nl
      rw [hl] at this; cases this
    · intro l2 hl2
      rw [hl] at hl2; cases hl2
      exact ⟨rfl, (hinv.k.clk l hl).1.nodup, hA⟩
  have hS' := hS.run hme hr hq
  obtain ⟨l', hl'⟩ := hS'.lead
  refine ⟨(hS'.metrics hme now).2, l', hl', ?_⟩
  rw [(hS'.inv.pj.lead l' hl').vote, hS'.vote, (hinv.inv.pj.lead l hl).vote]

/-- **C58**: the leader of seven voters in the state above reports time 5 for ever while nodes 3, 5 and 6 answer all its heartbeats and no
other node answers, although with the leader they are a majority. -/
theorem C58_halted {is' : List Input} (hr : CRun true s58 is' e') (hq : ∀ i ∈ is', OnlyAck (· ∈ [1, 3, 5, 6]) i) (now : Nat) :
    (e'.lastQuorumAcked now).1 = some 5 ∧ ∃ l', e'.leader = some l' ∧ l'.vote = ss57.vote := by
  obtain ⟨l, hl, hv, hg, hc⟩ := s58_lead
  have := C58_stuck (started_fresh _ _) s58_run hl (A := (· ∈ [1, 3, 5, 6])) (by decide +kernel) ?_ (by decide +kernel)
    (by decide +kernel) hr hq now
  · rw [hg, hv] at this; exact this
  · rw [hc, hg]; decide

/-- the three nodes answer the heartbeats of time 1000 -/
def u58 : List (Nat × List LogId × Input) := [
  (1000, [], .tick true true 5), (1001, [], .hbProgress ss57 3 1000), (1002, [], .hbProgress ss57 5 1000),
  (1003, [], .hbProgress ss57 6 1000)]

theorem u58_only : ∀ i ∈ [] ++ u58.map (·.2.2), OnlyAck (· ∈ [1, 3, 5, 6]) i := by
  intro i hi
  simp only [u58, List.map_cons, List.map_nil, List.nil_append, List.mem_cons, List.not_mem_nil, or_false] at hi
  rcases hi with rfl | rfl | rfl | rfl
  · exact ⟨trivial, fun s n t h => by cases h⟩
  all_goals exact ⟨trivial, fun s n t h => by cases h; decide⟩

theorem u58_run : CRun true s58 ([] ++ u58.map (·.2.2)) (runM s58 u58) := crunM_of (l := u58) (is := []) .nil (by decide +kernel)

theorem u58_clock : (runM s58 u58).leader.map (·.clock.vector) =
    some [(1, some 1004), (5, some 1000), (6, some 1000), (2, some 5), (3, some 1000), (4, some 5), (7, none)] := by decide +kernel

set_option maxRecDepth 8000 in
example : ∃ e', CRun true s58 ([] ++ u58.map (·.2.2)) e' ∧ e'.leader.map (·.clock.vector) =
      some [(1, some 1004), (5, some 1000), (6, some 1000), (2, some 5), (3, some 1000), (4, some 5), (7, none)] ∧
    (e'.lastQuorumAcked 1005).1 = some 5 :=
  ⟨_, u58_run, u58_clock, (C58_halted u58_run u58_only 1005).1⟩

/-! ## C24 with five voters: a lease held by two nodes -/

/-- node 1 is elected leader of five voters; entries are sent to node 2 at time 6 and to node 3 at time 7, both acknowledge them. Then only
node 3 answers heartbeats, those of the times 1000 and 2000 -/
def v24 : List (Nat × List LogId × Input) := [
  (1, [], .init 7 m5), (2, [], .voteResp 1 ⟨⟨1, 1⟩, false⟩ none true ⟨⟨1, 1⟩, false⟩),
  (3, [], .voteResp 2 ⟨⟨1, 1⟩, false⟩ none true ⟨⟨1, 1⟩, false⟩), (4, [], .voteResp 3 ⟨⟨1, 1⟩, false⟩ none true ⟨⟨1, 1⟩, false⟩),
  (8, [], .hbProgress ss57 2 6), (9, [], .hbProgress ss57 3 7),
  (1000, [], .tick true true 5), (1005, [], .hbProgress ss57 3 1000),
  (2000, [], .tick true true 5), (2005, [], .hbProgress ss57 3 2000)]

/-- its state -/
def s24b : Eng := runM (Eng.fresh Demo.cfg 0) v24
theorem s24b_run : CRun true (Eng.fresh Demo.cfg 0) (v24.map (·.2.2)) s24b := crunM_of (l := v24) (is := []) .nil (by decide +kernel)

/-- **C24** does not hold either if every answer is an acknowledgement: the leader of five voters reports time 2000, and since time 7 only
itself and node 3 have acknowledged it. -/
theorem C24_five_false : ∃ (e : Eng) (is : List Input) (l : Leader) (T : Finset Nat),
    CRun true (Eng.fresh Demo.cfg 0) is e ∧ e.leader = some l ∧ e.st.ms.effective.mem.configs = [[1, 2, 3, 4, 5]] ∧
    (e.lastQuorumAcked 2007).1 = some 2000 ∧ (∀ n, AckedSince e.cfg.id is l.vote.leaderId 7 n → n ∈ T) ∧
    ¬ Spec.Majority ({1, 2, 3, 4, 5} : Finset Nat) T := by
  have hl : ∃ l, s24b.leader = some l := Option.isSome_iff_exists.1 (by decide +kernel)
  obtain ⟨l, hl⟩ := hl
  refine ⟨s24b, _, l, {1, 3}, s24b_run, hl, by decide +kernel, by decide +kernel, ?_, by unfold Spec.Majority; decide⟩
  have hid : s24b.cfg.id = 1 := by decide +kernel
  rintro n (hn | ⟨t', ht, s, hs, _⟩)
  · rw [hn, hid]; simp
  · simp only [v24, List.map_cons, List.map_nil, List.mem_cons, List.not_mem_nil, or_false, reduceCtorEq, false_or,
      Input.hbProgress.injEq] at hs
    rcases hs with ⟨_, rfl, rfl⟩ | ⟨_, rfl, rfl⟩ | ⟨_, rfl, rfl⟩ | ⟨_, rfl, rfl⟩ <;> first | omega | simp

/-- the leader of five voters above, after nodes 2 and 3 have acknowledged the first entries, is in this state: node 2 is behind, and the
leader and node 3 are two of five -/
theorem s24b_behind : ∃ l, (runM (Eng.fresh Demo.cfg 0) (v24.take 6)).leader = some l ∧ l.vote = ss57.vote ∧
    Behind 2 1 3 (some 10) l.clock ∧ l.clock.granted = some 7 := by
  have hl : ∃ l, (runM (Eng.fresh Demo.cfg 0) (v24.take 6)).leader = some l := Option.isSome_iff_exists.1 (by decide +kernel)
  obtain ⟨l, hl⟩ := hl
  have hm : (runM (Eng.fresh Demo.cfg 0) (v24.take 6)).leader.map
      (fun l => (l.clock.vector, l.clock.granted, l.clock.configs, l.clock.voterCount)) =
    some ([(2, some 6), (1, some 10), (3, some 7), (4, none), (5, none)], some 7, [[1, 2, 3, 4, 5]], 5) := by decide +kernel
  have h0 : (runM (Eng.fresh Demo.cfg 0) (v24.take 6)).leader.map (·.vote) = some ss57.vote := by decide +kernel
  rw [hl] at hm h0
  have h0 : l.vote = ss57.vote := Option.some.inj h0
  have hm := Option.some.inj hm
  simp only [Prod.mk.injEq] at hm
  obtain ⟨h1, h2, h3, h4⟩ := hm
  exact ⟨l, hl, h0, ⟨⟨some 6, [(4, none), (5, none)], by rw [h1, h2]⟩, by rw [h2]; decide, by rw [h4]; decide, by decide, by decide, by decide,
    by rw [h3]; decide⟩, h2⟩

theorem Behind.own {a b c : NodeId} {y : Nat} {p p' : VecProgress (Option Nat)} {now : Nat} (h : Behind a b c (some y) p)
    (hp : p.increaseTo b (some now) = some p') : p'.granted = p.granted := by
  by_cases hn : y ≤ now
  · obtain ⟨p1, _, k1, _, k3⟩ := h.me (Option.some_le_some.2 hn)
    rw [k1] at hp; cases hp; exact k3
  · obtain ⟨x, r, hv⟩ := h.vec
    have hn' : ¬ y < now := by omega
    simp [VecProgress.increaseTo, VecProgress.index, hv, List.findIdx?_cons, h.ab, hn'] at hp
    rw [← hp]

theorem sessionMatch_clock {l : Leader} {s : Session} (hl : e.leader = some l) (c : VecProgress (Option Nat)) :
    ({ e with leader := some { l with clock := c } } : Eng).sessionMatch s = e.sessionMatch s := by
  unfold Eng.sessionMatch Eng.voteMatch
  rw [hl]
  rfl

/-- one round: the metrics are reported at `T'`, then node `c` answers the heartbeat of time `T` -/
theorem Behind.engine {a c : NodeId} {y T T' : Nat} {s : Session} {l : Leader} (h : CRun dbg e0 is e) (hl : e.leader = some l)
    (hs : e.sessionMatch s = true) (hb : Behind a l.vote.leaderId.node c (some y) l.clock) (hy : l.clock.granted < some T) (hT : T < T')
    (hT' : y ≤ T') :
    ∃ e' l', CRun dbg e0 (is ++ [.hbProgress s c T]) e' ∧ e'.leader = some l' ∧ e'.sessionMatch s = true ∧ l'.vote = l.vote ∧
      Behind a l'.vote.leaderId.node c (some T') l'.clock ∧ l'.clock.granted = some T := by
  obtain ⟨p1, _, k1, k2, k3⟩ := hb.me (Option.some_le_some.2 hT')
  obtain ⟨p2, _, m1, m2, m3⟩ := k2.other (by rw [k3]; exact hy) (Option.some_lt_some.2 hT)
  have hm : l.lastQuorumAcked T' = (p1.granted, { l with clock := p1 }) := by
    unfold Leader.lastQuorumAcked
    rw [k1]
  have he1 : (e.lastQuorumAcked T').2 = { e with leader := some { l with clock := p1 } } := by
    unfold Eng.lastQuorumAcked
    rw [hl]
    dsimp only
    rw [hm]
  have hs1 : (e.lastQuorumAcked T').2.sessionMatch s = true := by rw [he1, sessionMatch_clock hl]; exact hs
  have hr : (e.lastQuorumAcked T').2.input dbg T' (.hbProgress s c T) = .ok { e with leader := some { l with clock := p2 } } := by
    simp only [Eng.input, Eng.coreHbProgress]
    rw [if_pos hs1, he1]
    dsimp only
    show ((unwrap (p1.increaseTo c (some T)) : Res _) >>= fun c => _) = _
    rw [m1]
    rfl
  exact ⟨_, { l with clock := p2 }, .input T' _ (.metrics T' h) trivial trivial trivial hr, rfl,
    by rw [sessionMatch_clock hl]; exact hs, rfl, m2, m3⟩

/-- rounds of heartbeats after the granted time `g` and the leader's time `y` -/
def BeatsAfter : Option Nat → Nat → List (Nat × Nat) → Prop
  | _, _, [] => True
  | g, y, (T, T') :: r => g < some T ∧ T < T' ∧ y ≤ T' ∧ BeatsAfter (some T) T' r

/-- **C24**: for any number of rounds of heartbeats in which of the followers only `c` answers, there is an execution after which the
leader reports the time of the last round as acknowledged by a quorum. -/
theorem C24_lease_of_two {a c : NodeId} {y : Nat} {s : Session} {l : Leader} (h : CRun dbg e0 is e) (hl : e.leader = some l)
    (hs : e.sessionMatch s = true) (hb : Behind a l.vote.leaderId.node c (some y) l.clock) {rs : List (Nat × Nat)}
    (hlat : BeatsAfter l.clock.granted y rs) {T T' : Nat}
    (hlast : rs.getLast? = some (T, T')) :
    ∃ e', CRun dbg e0 (is ++ rs.map fun r => .hbProgress s c r.1) e' ∧ ∀ now, (e'.lastQuorumAcked now).1 = some T := by
  induction rs generalizing is e l y with
  | nil => cases hlast
  | cons x rs ih =>
    obtain ⟨T0, T1⟩ := x
    obtain ⟨h1, h2, h3, h4⟩ := hlat
    obtain ⟨e1, l1, r1, r2, r3, r4, r5, r6⟩ := Behind.engine h hl hs hb h1 h2 h3
    cases rs with
    | nil =>
      simp only [List.getLast?_singleton, Option.some.injEq, Prod.mk.injEq] at hlast
      refine ⟨e1, r1, fun now => ?_⟩
      unfold Eng.lastQuorumAcked
      rw [r2]
      dsimp only
      unfold Leader.lastQuorumAcked
      split
      · next c hc => rw [← hlast.1]; exact (r5.own hc).trans r6
      · rw [← hlast.1]; exact r6
    | cons z zs =>
      obtain ⟨e', q1, q2⟩ := ih r1 r2 r3 r5 (by rw [r6]; exact h4) (by rw [List.getLast?_cons_cons] at hlast; exact hlast)
      exact ⟨e', by simpa using q1, q2⟩

/-- for every time `T` after 10 there is an execution of the leader of five voters in which only node 3 answers after time 7, and `T` is
reported -/
example (T : Nat) (hT : 10 ≤ T) : ∃ (is : List Input) (e' : Eng), CRun true (Eng.fresh Demo.cfg 0) (is ++ [.hbProgress ss57 3 T]) e' ∧
    (∀ s n t, Input.hbProgress s n t ∈ is → t < 7 ∨ n = 3) ∧ ∀ now, (e'.lastQuorumAcked now).1 = some T := by
  obtain ⟨l, hl, hv, h, hg⟩ := s24b_behind
  have hr : CRun true (Eng.fresh Demo.cfg 0) ((v24.take 6).map (·.2.2)) (runM (Eng.fresh Demo.cfg 0) (v24.take 6)) :=
    crunM_of (l := v24.take 6) (is := []) .nil (by decide +kernel)
  obtain ⟨e', h1, h2⟩ := C24_lease_of_two hr hl (s := ss57) (by decide +kernel) (by rw [hv]; exact h) (rs := [(T, T + 1)])
    ⟨by rw [hg]; exact Option.some_lt_some.2 (by omega), by omega, by omega, trivial⟩ rfl
  refine ⟨_, e', h1, ?_, h2⟩
  intro s n t hi
  simp only [v24, List.take_succ_cons, List.take_zero, List.map_cons, List.map_nil, List.mem_cons, List.not_mem_nil, or_false, reduceCtorEq,
    false_or, Input.hbProgress.injEq] at hi
  rcases hi with ⟨_, rfl, rfl⟩ | ⟨_, rfl, rfl⟩ <;> simp

end Openraft.Props
