import Verif.Props.CommitProps

/-!
# C12: a leader that commits with one follower of five

The engine-level counterpart of `C12_false` and the other direction of C57: what `C12_commit_partial` says of three voters fails with
five. The leader commits entry after entry although of its four followers only node 3 stores them.
-/

set_option autoImplicit false

namespace Openraft.Props
open Openraft Openraft.Engine Openraft.Engine.Demo

/-- node 1 is elected leader of five voters; node 2 reports the first entry before it is on the leader's own disk, and nothing more. Then
entries are written, and stored by the leader and, one entry behind it, by node 3. -/
def w12 : List (Nat × List LogId × Input) := [
  (1, [], .init 7 m5), (2, [], .voteResp 1 ⟨⟨1, 1⟩, false⟩ none true ⟨⟨1, 1⟩, false⟩),
  (3, [], .voteResp 2 ⟨⟨1, 1⟩, false⟩ none true ⟨⟨1, 1⟩, false⟩),
  (3, [], .voteResp 3 ⟨⟨1, 1⟩, false⟩ none true ⟨⟨1, 1⟩, false⟩),
  (4, [], .replProgress ss57 2 (.matching (some (lid 1 1 1)))),
  (5, [], .localIO ⟨⟨⟨1, 1⟩, true⟩, some (lid 1 1 1)⟩),
  (6, [], .write (.normal 5)), (6, [], .write (.normal 6)),
  (7, [], .localIO ⟨⟨⟨1, 1⟩, true⟩, some (lid 1 1 3)⟩),
  (8, [], .replProgress ss57 3 (.matching (some (lid 1 1 1)))), (8, [], .initiate),
  (8, [], .replProgress ss57 3 (.matching (some (lid 1 1 2)))), (8, [], .initiate),
  (9, [], .write (.normal 7)), (9, [], .localIO ⟨⟨⟨1, 1⟩, true⟩, some (lid 1 1 4)⟩),
  (10, [], .replProgress ss57 3 (.matching (some (lid 1 1 3)))), (10, [], .initiate),
  (11, [], .write (.normal 8)), (11, [], .localIO ⟨⟨⟨1, 1⟩, true⟩, some (lid 1 1 5)⟩)]

/-- its state -/
def s12 : Eng := runTo (Eng.fresh Demo.cfg 0) w12
theorem s12_run : CRun true (Eng.fresh Demo.cfg 0) (w12.map (·.2.2)) s12 := crun_of (l := w12) (is := []) .nil (by decide +kernel)

/-- node 3 reports the fourth entry -/
def i12 : Input := .replProgress ss57 3 (.matching (some (lid 1 1 4)))

/-- **C12**, what is committed, does not hold with five voters: the leader commits the fourth entry of its own term when node 3 reports it,
and no node but the leader and node 3 has ever reported anything after the first entry. -/
theorem C12_commit_false : ∃ (e e' : Eng) (is : List Input) (i : Input) (l : Leader) (T : Finset Nat),
    Started true Gh.empty (Eng.fresh Demo.cfg 0) ∧ CRun true (Eng.fresh Demo.cfg 0) is e ∧ InputOk e i ∧ InWf i ∧ Grows e i ∧
    e.input true 12 i = .ok e' ∧ e.st.committed = some (lid 1 1 3) ∧ e'.st.committed = some (lid 1 1 4) ∧ e'.leader = some l ∧
    e'.st.ms.effective.mem.configs = [[1, 2, 3, 4, 5]] ∧
    (∀ n, (∃ y, lid 1 1 2 ≤ y ∧ Stored e'.cfg.id (is ++ [i]) l.vote.leaderId n y) → n ∈ T) ∧
    ¬ Spec.Majority ({1, 2, 3, 4, 5} : Finset Nat) T := by
  have hr : s12.input true 12 i12 = .ok (after 12 s12 i12) := after_ok (by decide +kernel)
  have hl : ∃ l, (after 12 s12 i12).leader = some l := Option.isSome_iff_exists.1 (by decide +kernel)
  obtain ⟨l, hl⟩ := hl
  refine ⟨s12, after 12 s12 i12, _, i12, l, {1, 3}, started_fresh _ _, s12_run, okB_ok (lead := []) (by decide +kernel), trivial,
    grows_of_debug hr, hr, by decide +kernel, by decide +kernel, hl, by decide +kernel, ?_, by unfold Spec.Majority; decide⟩
  have hid : (after 12 s12 i12).cfg.id = 1 := by decide +kernel
  rintro n ⟨y, hy, ⟨s, hs, _⟩ | ⟨io, _, _, _, hn⟩⟩
  · simp only [w12, i12, List.map_cons, List.map_nil, List.cons_append, List.nil_append, List.mem_cons, List.not_mem_nil, or_false,
      reduceCtorEq, false_or, Input.replProgress.injEq, Eng.ReplResult.matching.injEq, Option.some.injEq] at hs
    rcases hs with ⟨_, rfl, rfl⟩ | ⟨_, rfl, rfl⟩ | ⟨_, rfl, rfl⟩ | ⟨_, rfl, rfl⟩ | ⟨_, rfl, rfl⟩
    · exact absurd hy (by decide)
    all_goals simp
  · rw [hn, hid]; simp

/-! ## For any number of rounds -/

section
variable {α : Type} [LinearOrder α]

/-- reports in rounds in which of the followers of `b` only `c` reports: in every round `b` is at `T'` when `c` reports `T` -/
def ackRounds (b c : NodeId) : List (α × α) → List (NodeId × α)
  | [] => []
  | (T, T') :: r => (b, T') :: (c, T) :: ackRounds b c r

/-- in every round `c` moves on, and `b` is before it -/
def RoundsAfter : α → α → List (α × α) → Prop
  | _, _, [] => True
  | g, y, (T, T') :: r => g < T ∧ T < T' ∧ y ≤ T' ∧ RoundsAfter T T' r

/-- the state in which it goes wrong: `a` comes before `b` in the vector, and `b` is above the granted value, which is that of `c` -/
structure Behind (a b c : NodeId) (y : α) (p : VecProgress α) : Prop where
  vec : ∃ x r, p.vector = (a, x) :: (b, y) :: (c, p.granted) :: r
  lt : p.granted < y
  vc : 3 ≤ p.voterCount
  ab : a ≠ b
  ac : a ≠ c
  bc : b ≠ c
  q3 : isQuorum p.configs [a, b, c] = true

variable {a b c : NodeId} {y T T' : α} {p : VecProgress α}

/-- `b` moves on -/
theorem Behind.me (h : Behind a b c y p) (hy : y ≤ T') :
    ∃ p', p.update b T' = some p' ∧ p.increaseTo b T' = some p' ∧ Behind a b c T' p' ∧ p'.granted = p.granted := by
  obtain ⟨⟨x, r, hv⟩, hlt, hvc, hab, hac, hbc, hq⟩ := h
  obtain ⟨cfgs, gr, nv, vec⟩ := p
  dsimp only at hv hlt hvc hq
  subst hv
  have hyT : ¬ (y ≤ gr) := not_le.2 hlt
  have h1 : ¬ 1 ≥ nv := by omega
  have hu : VecProgress.update ⟨cfgs, gr, nv, (a, x) :: (b, y) :: (c, gr) :: r⟩ b T' =
      some ⟨cfgs, gr, nv, (a, x) :: (b, T') :: (c, gr) :: r⟩ := by
    simp [VecProgress.update, VecProgress.index, List.findIdx?_cons, hab, h1, hyT]
  refine ⟨⟨cfgs, gr, nv, (a, x) :: (b, T') :: (c, gr) :: r⟩, hu, ?_, ⟨⟨x, r, rfl⟩, lt_of_lt_of_le hlt hy, hvc, hab, hac, hbc, hq⟩, rfl⟩
  rcases eq_or_lt_of_le hy with rfl | hlt'
  · simp [VecProgress.increaseTo, VecProgress.index, List.findIdx?_cons, hab]
  · rw [← hu]
    simp [VecProgress.increaseTo, VecProgress.index, List.findIdx?_cons, hab, hlt']

/-- `c` moves on but stays behind `b`: the granted value is what it reports -/
theorem Behind.other (h : Behind a b c y p) (hg : p.granted < T) (hT : T < y) :
    ∃ p', p.update c T = some p' ∧ p.increaseTo c T = some p' ∧ Behind a b c y p' ∧ p'.granted = T := by
  obtain ⟨⟨x, r, hv⟩, hlt, hvc, hab, hac, hbc, hq⟩ := h
  obtain ⟨cfgs, gr, nv, vec⟩ := p
  dsimp only at hv hlt hvc hq hg
  subst hv
  have hgn : gr ≠ T := ne_of_lt hg
  have hTT : ¬ y < T := not_lt.2 (le_of_lt hT)
  have h2 : ¬ 2 ≥ nv := by omega
  have h3 : nv - 2 = (nv - 3) + 1 := by omega
  have hu : VecProgress.update ⟨cfgs, gr, nv, (a, x) :: (b, y) :: (c, gr) :: r⟩ c T =
      some ⟨cfgs, T, nv, (a, x) :: (b, y) :: (c, T) :: r⟩ := by
    simp [VecProgress.update, VecProgress.index, List.findIdx?_cons, hac, hbc, hgn, h2, hg, VecProgress.moveUp, hTT, VecProgress.scan, h3,
      VecProgress.scanLoop, hq, not_le.2 hg]
  refine ⟨⟨cfgs, T, nv, (a, x) :: (b, y) :: (c, T) :: r⟩, hu, ?_, ⟨⟨x, r, rfl⟩, hT, hvc, hab, hac, hbc, hq⟩, rfl⟩
  rw [← hu]
  simp [VecProgress.increaseTo, VecProgress.index, List.findIdx?_cons, hac, hbc, hg]

/-- **C12**, the progress alone: however many rounds follow in which of the followers only `c` reports, always less than the leader `b` has
itself, the granted value is what `c` reported last. -/
theorem C12_two_of_five (h : Behind a b c y p) {rs : List (α × α)} (hl : RoundsAfter p.granted y rs)
    (hlast : rs.getLast? = some (T, T')) : (p.updates (ackRounds b c rs)).granted = T := by
  induction rs generalizing p y with
  | nil => cases hlast
  | cons x rs ih =>
    obtain ⟨T0, T1⟩ := x
    obtain ⟨h1, h2, h3, h4⟩ := hl
    obtain ⟨p1, k1, _, k2, k3⟩ := h.me h3
    obtain ⟨p2, m1, _, m2, m3⟩ := k2.other (by rw [k3]; exact h1) h2
    have hu : p.updates (ackRounds b c ((T0, T1) :: rs)) = p2.updates (ackRounds b c rs) := by
      show ((((p.update b T1).getD p).update c T0).getD _).updates _ = _
      rw [k1, Option.getD_some, m1, Option.getD_some]
    rw [hu]
    cases rs with
    | nil =>
      simp only [List.getLast?_singleton, Option.some.injEq, Prod.mk.injEq] at hlast
      rw [← hlast.1]; exact m3
    | cons z zs => exact ih m2 (by rw [m3]; exact h4) (by rw [List.getLast?_cons_cons] at hlast; exact hlast)
end

/-- the leader above is in this state from the first commit on, and stays in it -/
theorem s12_behind : ∃ l, s12.leader = some l ∧ Behind 2 1 3 (some (lid 1 1 5)) l.progress.vp ∧ l.progress.vp.granted = some (lid 1 1 3) := by
  have hl : ∃ l, s12.leader = some l := Option.isSome_iff_exists.1 (by decide +kernel)
  obtain ⟨l, hl⟩ := hl
  have hm : s12.leader.map (fun l => (l.progress.vp.vector, l.progress.vp.granted, l.progress.vp.configs, l.progress.vp.voterCount)) =
    some ([(2, some (lid 1 1 1)), (1, some (lid 1 1 5)), (3, some (lid 1 1 3)), (4, none), (5, none)], some (lid 1 1 3), [[1, 2, 3, 4, 5]], 5) := by
    decide +kernel
  rw [hl] at hm
  have hm := Option.some.inj hm
  simp only [Prod.mk.injEq] at hm
  obtain ⟨h1, h2, h3, h4⟩ := hm
  exact ⟨l, hl, ⟨⟨some (lid 1 1 1), [(4, none), (5, none)], by rw [h1, h2]⟩, by rw [h2]; decide, by rw [h4]; decide, by decide, by decide, by decide,
    by rw [h3]; decide⟩, h2⟩

example : ∃ l, s12.leader = some l ∧ (l.progress.vp.updates (ackRounds 1 3 [(some (lid 1 1 4), some (lid 1 1 5)),
    (some (lid 1 1 7), some (lid 1 1 9)), (some (lid 1 1 9), some (lid 1 1 10))])).granted = some (lid 1 1 9) := by
  obtain ⟨l, hl, h, hg⟩ := s12_behind
  exact ⟨l, hl, C12_two_of_five h (by rw [hg]; simp only [RoundsAfter]; decide) rfl⟩

end Openraft.Props
