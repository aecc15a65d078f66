import Verif.Repl.Rounds
import Mathlib.Tactic.IntervalCases

/-!
# C18: replication probing finds the matching point and stops
-/

set_option autoImplicit false

namespace Openraft.Props
open Openraft.Repl

/-- specification: `n` is the number of positions at which the two logs agree from the start on -/
def MatchPoint (leader follower : List LogId) (n : Nat) : Prop :=
  n ≤ leader.length ∧ n ≤ follower.length ∧ leader.take n = follower.take n ∧
  ∀ m, m ≤ leader.length → m ≤ follower.length → leader.take m = follower.take m → m ≤ n

theorem matchPoint_iff (a b : List LogId) (n : Nat) : MatchPoint a b n ↔ n = matchLen a b := by
  constructor
  · rintro ⟨h1, h2, h3, h4⟩
    exact Nat.le_antisymm (matchLen_max _ _ _ h1 h2 h3)
      (h4 _ (matchLen_le a b).1 (matchLen_le a b).2 (matchLen_take a b))
  · rintro rfl
    exact ⟨(matchLen_le a b).1, (matchLen_le a b).2, matchLen_take a b,
      fun m h1 h2 h3 => matchLen_max _ _ _ h1 h2 h3⟩

/-- C18, safety part: in every execution of a session (with lost and repeated requests, partial
successes, purges, new snapshots, crashes of the follower, and several reports queued) no event
aborts the leader in a release build: every report meets an action in flight, and the entries of a
request are still in the log when the task reads them. -/
theorem C18_no_abort (exact : Bool) (s0 s : Sess) (h0 : Initial s0) (h : Run false exact s0 s) :
    ∀ p, ¬ Step false exact s (.error p) := by
  intro p st
  obtain ⟨s', hs, _⟩ := (h.inv (by simp) h0).step (by simp) st
  cases hs

/-- The same for a debug build, provided that the snapshot that is sent is the one the leader had in
mind. `_partial`: without this the claim is false, `C18_debug_aborts`. -/
theorem C18_no_abort_debug_partial (s0 s : Sess) (h0 : Initial s0) (h : Run true true s0 s) :
    ∀ p, ¬ Step true true s (.error p) := by
  intro p st
  obtain ⟨s', hs, _⟩ := (h.inv (by simp) h0).step (by simp) st
  cases hs

/-- C18: what the leader records as matching is in its own log and in the follower's, the search
interval is well formed, and the entry passes the code's own validation. -/
theorem C18_recorded_is_true (exact : Bool) (s0 s : Sess) (h0 : Initial s0)
    (h : Run false exact s0 s) :
    (∀ m, s.entry.matching = some m →
      s.view.ids[m.index]? = some m ∧ s.follower[m.index]? = some m) ∧
    nextIndex s.entry.matching ≤ s.entry.searchingEnd ∧
    s.entry.searchingEnd ≤ s.view.ids.length ∧ s.entry.validate = true := by
  have hi := h.inv (by simp) h0
  have he := hi.entry
  refine ⟨?_, he.lo, he.hi, ?_⟩
  · intro m hm
    have h1 := he.hm
    have h2 := he.hf
    rw [hm] at h1 h2
    exact ⟨h1, h2⟩
  · unfold Entry.validate
    rw [Bool.and_eq_true]
    refine ⟨by simpa using he.lo, ?_⟩
    cases hf : s.entry.inflight with
    | none => rfl
    | logs p l =>
      obtain ⟨k1, k2, k3, k4, k5, k6⟩ := he.logs _ _ hf
      have a1 : p ≤ l := (has_le hi.wf k1 k2).mpr (Nat.le_of_lt k3)
      have a2 : s.entry.matching ≤ p := (has_le hi.wf he.hm k1).mpr k4
      simp [a1, a2, k5]
    | snapshot x =>
      obtain ⟨k1, k2⟩ := he.snap _ hf
      have a1 : s.entry.matching < x := (has_lt hi.wf he.hm k1).mpr k2
      simp [a1]

/-- C18: while the search runs without lost answers, the true matching point stays inside the search
interval, a conflict strictly shrinks the interval, and a success strictly raises its lower end. -/
theorem C18_interval (exact : Bool) (s0 s : Sess) (h0 : Initial s0) (h : Run false exact s0 s)
    (hi : s.entry.inflight = .none) (max : Nat) (hmax : 0 < max) (n : Nat)
    (hn : MatchPoint s.view.ids s.follower n) (hlt : n ≤ s.entry.searchingEnd) :
    nextIndex s.entry.matching ≤ n ∧
    (∀ e' F', round false s.view max s.entry s.follower = .conflict e' F' →
      e'.matching = s.entry.matching ∧ e'.searchingEnd < s.entry.searchingEnd ∧
      MatchPoint s.view.ids F' n ∧ nextIndex e'.matching ≤ n ∧ n ≤ e'.searchingEnd) ∧
    (∀ e' F', round false s.view max s.entry s.follower = .ok e' F' →
      nextIndex s.entry.matching < nextIndex e'.matching ∧
      s.entry.searchingEnd ≤ e'.searchingEnd ∧
      ∀ n', MatchPoint s.view.ids F' n' → nextIndex e'.matching ≤ n' ∧ n' ≤ e'.searchingEnd) := by
  have hinv := h.inv (by simp) h0
  have hr := hinv.ready hi
  rw [matchPoint_iff] at hn
  have hlo : nextIndex s.entry.matching ≤ n := by
    rw [hn]; exact (has_iff_matchLen hr.lm hr.entry.hm).mp hr.entry.hf
  have hs := round_spec (dbg := false) hr max hmax
  refine ⟨hlo, ?_, ?_⟩
  · intro e' F' hc
    rw [hc] at hs
    cases hs with
    | conflict _ _ h1 h2 h3 h4 h5 h6 =>
      exact ⟨h2, h3, (matchPoint_iff _ _ _).mpr (by rw [h5, hn]), by rw [h2]; exact hlo,
        by rw [hn]; exact h4⟩
  · intro e' F' hc
    rw [hc] at hs
    cases hs with
    | ok _ _ h1 h2 h3 h4 h5 =>
      refine ⟨h2, by omega, ?_⟩
      intro n' hn'
      rw [matchPoint_iff] at hn'
      omega

/-- the state in which the leader sends neither logs nor a snapshot although the follower misses
logs: all logs are purged and the search has not left its starting position -/
def Stuck (v : LogView) (e : Entry) : Prop :=
  e.searchingEnd = v.ids.length ∧ nextIndex v.purgeUpto = v.ids.length ∧
  nextIndex e.matching < v.ids.length

/-- the claim of C18 about termination: from every reachable state with nothing in flight the
exchange with a follower that answers ends after finitely many rounds, and then the follower has the
leader's whole log -/
def C18Terminates (s : Sess) : Prop :=
  ∀ max, 0 < max → ∃ n k e' F', Rounds false s.view max s.entry s.follower n k e' F' ∧
    round false s.view max e' F' = .idle ∧
    nextIndex e'.matching = s.view.ids.length ∧ MatchPoint s.view.ids F' s.view.ids.length

theorem idle_spec {v : LogView} {e : Entry} {F : List LogId} {max : Nat} (hmax : 0 < max)
    (h : Ready v e F) (hi : round false v max e F = .idle) :
    nextIndex e.matching = v.ids.length ∨ Stuck v e := by
  have hs := round_spec (dbg := false) h max hmax
  rw [hi] at hs
  cases hs with
  | idle h1 h2 =>
    have hlo := h.entry.lo
    have hhi := h.entry.hi
    have h1' : Max.max (nextIndex e.matching + (e.searchingEnd - nextIndex e.matching) / 16 * 8)
      (nextIndex v.purgeUpto) = v.ids.length := h1
    by_cases hm : nextIndex e.matching = v.ids.length
    · exact Or.inl hm
    · right
      refine ⟨?_, ?_, by omega⟩ <;> omega

/-- C18, termination: the number of rounds is bounded, the number of conflicts is logarithmic in the
length of the search interval, and the exchange ends with the follower having the whole log of the
leader. `_partial`: except in the state `Stuck`, which is reachable (`C18_stuck`). -/
theorem C18_terminates_partial (exact : Bool) (s0 s : Sess) (h0 : Initial s0)
    (h : Run false exact s0 s) (hi : s.entry.inflight = .none) (max : Nat) (hmax : 0 < max) :
    (∀ n k e' F', Rounds false s.view max s.entry s.follower n k e' F' →
      n ≤ (s.view.ids.length - nextIndex s.entry.matching) +
        Nat.size (s.entry.searchingEnd - nextIndex s.entry.matching) ∧
      k ≤ Nat.size (s.entry.searchingEnd - nextIndex s.entry.matching) ∧
      ∀ p, round false s.view max e' F' ≠ .abort p) ∧
    ∃ n k e' F', Rounds false s.view max s.entry s.follower n k e' F' ∧
      round false s.view max e' F' = .idle ∧
      (Stuck s.view e' ∨ (nextIndex e'.matching = s.view.ids.length ∧
        MatchPoint s.view.ids F' s.view.ids.length)) := by
  have hr := (h.inv (by simp) h0).ready hi
  have hphi : phi s.view s.entry ≤
      Nat.size (s.entry.searchingEnd - nextIndex s.entry.matching) := by
    unfold phi phiN
    split
    · exact Nat.zero_le _
    · exact Nat.le_refl _
  constructor
  · intro n k e' F' hR
    obtain ⟨h1, h2, h3⟩ := hR.spec hmax hr
    unfold budget at h3
    refine ⟨by omega, by omega, ?_⟩
    intro p hp
    have hs := round_spec (dbg := false) h1 max hmax
    rw [hp] at hs
    cases hs
  · obtain ⟨n, k, e', F', hR, hidle⟩ := rounds_end (dbg := false) hmax hr
    obtain ⟨h1, h2, h3⟩ := hR.spec hmax hr
    refine ⟨n, k, e', F', hR, hidle, ?_⟩
    rcases idle_spec hmax h1 hidle with hm | hst
    · refine Or.inr ⟨hm, ?_⟩
      rw [matchPoint_iff]
      have := (has_iff_matchLen h1.lm h1.entry.hm).mp h1.entry.hf
      have := (matchLen_le s.view.ids F').1
      omega
    · exact Or.inl hst

/-- C18, termination, in full for the sessions of a new leader: its search starts below its last
log (`Leader::new` reads `last_log_id` before the blank entry is appended, `proposer/leader.rs:100`).
-/
theorem C18_terminates_new_leader (exact : Bool) (s0 s : Sess) (h0 : Initial s0)
    (hl : s0.entry.searchingEnd < s0.view.ids.length)
    (h : Run false exact s0 s) (hi : s.entry.inflight = .none) : C18Terminates s := by
  have hne : NotEnd s := by
    clear hi
    induction h with
    | init => exact Or.inl hl
    | step s s' hr st ih => exact NotEnd.step (hr.inv (by simp) h0) ih st
  intro max hmax
  have hr := (h.inv (by simp) h0).ready hi
  obtain ⟨n, k, e', F', hR, hidle⟩ := rounds_end (dbg := false) hmax hr
  obtain ⟨h1, h2, h3⟩ := hR.spec hmax hr
  have hne' : e'.searchingEnd < s.view.ids.length ∨ e'.searchingEnd = nextIndex e'.matching := by
    clear hidle h1 h2 h3 hi
    unfold NotEnd at hne
    generalize s.entry = e at *
    generalize s.follower = F at *
    induction hR with
    | refl e F => exact hne
    | ok e F e1 F1 n k e' F' hro _ ih =>
      have hs := round_spec (dbg := false) hr max hmax
      rw [hro] at hs
      cases hs with
      | ok _ _ g1 g2 g3 g4 g5 => exact ih (by omega) g1
    | conflict e F e1 F1 n k e' F' hro _ ih =>
      have hs := round_spec (dbg := false) hr max hmax
      rw [hro] at hs
      cases hs with
      | conflict _ _ g1 g2 g3 g4 g5 g6 => exact ih (by have := hr.entry.hi; omega) g1
  refine ⟨n, k, e', F', hR, hidle, ?_⟩
  rcases idle_spec hmax h1 hidle with hm | hst
  · refine ⟨hm, ?_⟩
    rw [matchPoint_iff]
    have := (has_iff_matchLen h1.lm h1.entry.hm).mp h1.entry.hf
    have := (matchLen_le s.view.ids F').1
    omega
  · obtain ⟨a, b, c⟩ := hst
    omega

/-! ## Examples and counterexamples -/

/-- three log ids of two leaders -/
def ids3 : List LogId := [⟨⟨0, 0⟩, 0⟩, ⟨⟨1, 1⟩, 1⟩, ⟨⟨1, 1⟩, 2⟩]

theorem wf_of_checks {ids : List LogId} (h1 : ∀ i : Fin ids.length, (ids[i]).index = i.1)
    (h2 : ∀ i j : Fin ids.length, i < j → (ids[i]).leaderId ≤ (ids[j]).leaderId) : WfIds ids := by
  constructor
  · intro i l h
    obtain ⟨hi, rfl⟩ := List.getElem?_eq_some_iff.mp h
    exact h1 ⟨i, hi⟩
  · intro i j a b hij ha hb
    obtain ⟨hi, rfl⟩ := List.getElem?_eq_some_iff.mp ha
    obtain ⟨hj, rfl⟩ := List.getElem?_eq_some_iff.mp hb
    exact h2 ⟨i, hi⟩ ⟨j, hj⟩ hij

theorem wf_ids3 : WfIds ids3 := wf_of_checks (by decide) (by decide)

/-- a target added by a membership change while it is unreachable; `rebuild_progresses` starts the
search at the end of the log -/
def added : Sess :=
  { view := { ids := ids3, purged := none, purgeUpto := none, snapshot := none }
    entry := Entry.empty 3, task := .none, queue := [], follower := [] }

theorem added_initial : Initial added :=
  ⟨wf_ids3, by intro i l _ h; simp [added] at h, trivial, trivial, trivial, by decide, by decide,
    ⟨3, by decide, rfl⟩, rfl, rfl⟩

/-- `added` after: a request failed, the leader built a snapshot of its whole log and purged it -/
def addedLater : Sess :=
  { view := { ids := ids3, purged := some ⟨⟨1, 1⟩, 2⟩, purgeUpto := some ⟨⟨1, 1⟩, 2⟩
              snapshot := some ⟨⟨1, 1⟩, 2⟩ }
    entry := Entry.empty 3, task := .none, queue := [], follower := [] }

theorem run_addedLater : Run false true added addedLater := by
  let x : LogId := ⟨⟨1, 1⟩, 2⟩
  refine .step _ _ (.step _ _ (.step _ _ (.step _ _ (.step _ _ (.step _ _ .init
    (.send added 5 { added.entry with inflight := .logs none (some x) } (.logs none (some x))
      (by decide) (by decide) rfl)) (.rpcErr _ (by decide)))
    (.deliver _ .err [] _ rfl rfl)) (.snapshot _ x (by decide) (by decide)))
    (.schedule _ x (by decide) (by decide) (by decide))) ?_
  exact .purge _

/-- C18 is false for a target that is added while unreachable, if the leader keeps no logs after a
snapshot (`max_in_snapshot_log_to_keep = 0`): nothing is in flight, the follower has nothing, and
the leader sends nothing, whatever the payload limit. -/
theorem C18_stuck : ∃ s0 s, Initial s0 ∧ Run false true s0 s ∧ s.entry.inflight = .none ∧
    s.task = .none ∧ s.queue = [] ∧ s.follower = [] ∧ s.view.ids ≠ [] ∧
    (∀ max, round false s.view max s.entry s.follower = .idle) ∧ ¬ C18Terminates s := by
  have hidle : ∀ max, round false addedLater.view max addedLater.entry addedLater.follower = .idle := by
    intro max
    simp [round, Entry.nextSend, addedLater, Entry.empty, dassert, LogView.lastNext, ids3, bind,
      Except.bind, pure, Except.pure, Entry.calcMid]
  refine ⟨added, addedLater, added_initial, run_addedLater, rfl, rfl, rfl, rfl, by decide, hidle, ?_⟩
  intro h
  obtain ⟨n, k, e', F', hR, _, hm, _⟩ := h 1 (by decide)
  cases hR with
  | refl => simp [addedLater, Entry.empty, ids3] at hm
  | ok _ _ _ _ _ _ _ _ hr => rw [hidle] at hr; cases hr
  | conflict _ _ _ _ _ _ _ _ hr => rw [hidle] at hr; cases hr

/-- a target whose logs are purged -/
def behind : Sess :=
  { view := { ids := ids3, purged := some ⟨⟨0, 0⟩, 0⟩, purgeUpto := some ⟨⟨0, 0⟩, 0⟩
              snapshot := some ⟨⟨0, 0⟩, 0⟩ }
    entry := Entry.empty 0, task := .none, queue := [], follower := [] }

theorem behind_initial : Initial behind :=
  ⟨wf_ids3, by intro i l _ h; simp [behind] at h, by decide, by decide, by decide, by decide,
    by decide, ⟨0, by decide, rfl⟩, rfl, rfl⟩

/-- The debug build aborts when a newer snapshot than the one the engine knew is sent:
`debug_assert_eq!(&upto, last_log_id)` in `Inflight::ack`, `inflight/mod.rs:119`. -/
theorem C18_debug_aborts : ∃ s0 s, Initial s0 ∧ Run true false s0 s ∧
    Step true false s (.error .debugAssert) := by
  let x0 : LogId := ⟨⟨0, 0⟩, 0⟩
  let x2 : LogId := ⟨⟨1, 1⟩, 2⟩
  refine ⟨behind, _, behind_initial, .step _ _ (.step _ _ (.step _ _ .init
    (.send behind 5 { behind.entry with inflight := .snapshot (some x0) } (.snapshot (some x0))
      (by decide) (by decide) rfl))
    (.followerChanges _ ids3 (logMatching_prefix ids3 3) trivial (by intro m h; cases h)))
    (.snapOk _ (some x0) x2 rfl (by decide) (by decide) (by decide) (by decide)),
    .deliverAborts _ (.ok (some x2)) [] _ rfl (by decide)⟩

/-- non-vacuity: a follower with a conflicting log of 40 entries is found after 1 conflict, and
gets the rest of the log -/
def ids40 : List LogId := (List.range 40).map fun i => ⟨⟨if i < 20 then 1 else 3, 1⟩, i⟩

def conflicting : List LogId := (List.range 40).map fun i => ⟨⟨if i < 10 then 1 else 2, 1⟩, i⟩

def probing : Sess :=
  { view := { ids := ids40, purged := none, purgeUpto := none, snapshot := none }
    entry := Entry.empty 39, task := .none, queue := [], follower := conflicting }

theorem probing_initial : Initial probing := by
  refine ⟨wf_of_checks (by decide +kernel) (by decide +kernel), ?_, trivial, trivial, trivial,
    by decide, by decide, ⟨39, by decide, rfl⟩, rfl, rfl⟩
  intro i l h1 h2 j hj
  have key : ∀ i : Fin 40, probing.view.ids[i.1]? = probing.follower[i.1]? → i.1 < 10 := by
    decide +kernel
  have key2 : ∀ j : Fin 10, probing.view.ids[j.1]? = probing.follower[j.1]? := by decide +kernel
  have hi : i < 40 := (List.getElem?_eq_some_iff.mp h1).1
  have := key ⟨i, hi⟩ (by rw [h1, h2])
  exact key2 ⟨j, by simp at this; omega⟩

example : C18Terminates probing :=
  C18_terminates_new_leader true probing probing probing_initial (by decide) .init rfl

example : ∃ e F, round false probing.view 8 probing.entry probing.follower = .conflict e F ∧
    e.searchingEnd = 15 ∧ F.length = 15 := by
  refine ⟨{ probing.entry with searchingEnd := 15 }, conflicting.take 15, ?_, rfl, by decide⟩
  decide +kernel

/-- non-vacuity of the asynchronous part: two reports are queued while the task goes on -/
example : ∃ s, Run false false added s ∧ s.queue.length = 2 ∧ s.task ≠ .none := by
  let x0 : LogId := ⟨⟨0, 0⟩, 0⟩
  let x1 : LogId := ⟨⟨1, 1⟩, 1⟩
  let x2 : LogId := ⟨⟨1, 1⟩, 2⟩
  refine ⟨_, .step _ _ (.step _ _ (.step _ _ (.step _ _ .init
    (.send added 5 { added.entry with inflight := .logs none (some x2) } (.logs none (some x2))
      (by decide) (by decide) rfl))
    (.followerChanges _ ids3 (logMatching_prefix ids3 3) trivial (by intro m h; cases h)))
    (.rpcOk _ none (some x2) (some x0) (some x0) rfl (by decide) (by decide) (by decide) (by decide)
      (by decide) (by decide) (by decide) (by decide)))
    (.rpcOk _ (some x0) (some x2) (some x1) (some x1) rfl (by decide) (by decide) (by decide)
      (by decide) (by decide) (by decide) (by decide) (by decide)), rfl, by decide⟩

end Openraft.Props
