import Verif.Repl.SessionInv
import Mathlib.Data.Nat.Size
import Mathlib.Data.List.TakeDrop

/-!
# Request/answer rounds of one replication session

One round: the leader decides what to send (`next_send`), the follower handles the request and
answers, the leader handles the answer. The follower's log is changed as
`FollowingHandler::append_entries` and `install_full_snapshot` do it.
-/

set_option autoImplicit false

namespace Openraft.Repl

/-- the follower appends `es`: `first_conflicting_index` (`raft_state/mod.rs:299-318`) skips what it
has, then the log is cut at the first unknown entry and the rest is appended
(`following_handler/mod.rs:79-91`). Only ids are kept here. -/
def appendIds (F : List LogId) : List LogId → List LogId
  | [] => F
  | x :: xs => if F[x.index]? = some x then appendIds F xs else F.take x.index ++ (x :: xs)

/-- `install_full_snapshot`, `following_handler/mod.rs:279-330`, on ids: entries after a matching
snapshot position stay, a conflicting log is dropped. `ids` is the log the snapshot stands for. -/
def installIds (ids F : List LogId) (x : LogId) : List LogId :=
  ids.take (x.index + 1) ++ (if F[x.index]? = some x then F.drop (x.index + 1) else [])

/-- what one round does to the leader's entry and the follower's log -/
inductive Outcome where
  /-- there is nothing to send -/
  | idle
  | ok (e : Entry) (F : List LogId)
  | conflict (e : Entry) (F : List LogId)
  | abort (p : Panic)
deriving DecidableEq, Repr

/-- the leader's handling of the follower's answer -/
def answer (dbg : Bool) (e : Entry) (r : Report) (mk : Entry → Outcome) : Outcome :=
  match handle dbg e r with
  | .ok e' => mk e'
  | .error p => .abort p

/-- one round without a lost message -/
def round (dbg : Bool) (v : LogView) (max : Nat) (e : Entry) (F : List LogId) : Outcome :=
  match e.nextSend dbg v max with
  | .error p => .abort p
  | .ok (false, _) => .idle
  | .ok (true, e1) =>
    match e1.inflight with
    | .none => .abort .unreachable
    | .snapshot none => .abort .unreachable    -- the leader has no snapshot to send
    | .snapshot (some x) => answer dbg e1 (.ok (some x)) (.ok · (installIds v.ids F x))
    | .logs prev last =>
      if Has F prev then
        let es := (v.ids.take (nextIndex last)).drop (nextIndex prev)
        answer dbg e1 (.ok last) (.ok · (appendIds F es))
      else match prev with
        | none => .abort .unreachable
        | some c => answer dbg e1 (.conflict c) (.conflict · (F.take c.index))

/-- `n` rounds, `k` of which were conflicts, lead from `(e, F)` to `(e', F')` -/
inductive Rounds (dbg : Bool) (v : LogView) (max : Nat) :
    Entry → List LogId → Nat → Nat → Entry → List LogId → Prop
  | refl (e F) : Rounds dbg v max e F 0 0 e F
  | ok (e F e1 F1 n k e' F') : round dbg v max e F = .ok e1 F1 →
      Rounds dbg v max e1 F1 n k e' F' → Rounds dbg v max e F (n + 1) k e' F'
  | conflict (e F e1 F1 n k e' F') : round dbg v max e F = .conflict e1 F1 →
      Rounds dbg v max e1 F1 n k e' F' → Rounds dbg v max e F (n + 1) (k + 1) e' F'

/-- number of positions at which two logs agree from the start on -/
def matchLen : List LogId → List LogId → Nat
  | x :: xs, y :: ys => if x = y then matchLen xs ys + 1 else 0
  | _, _ => 0

theorem matchLen_le (a b : List LogId) : matchLen a b ≤ a.length ∧ matchLen a b ≤ b.length := by
  induction a generalizing b with
  | nil => simp [matchLen]
  | cons x xs ih =>
    cases b with
    | nil => simp [matchLen]
    | cons y ys =>
      simp only [matchLen]
      split
      · have := ih ys; simp; omega
      · simp

theorem matchLen_take (a b : List LogId) : a.take (matchLen a b) = b.take (matchLen a b) := by
  induction a generalizing b with
  | nil => simp [matchLen]
  | cons x xs ih =>
    cases b with
    | nil => simp [matchLen]
    | cons y ys =>
      simp only [matchLen]
      split
      · next h => subst h; simp [ih ys]
      · simp

theorem matchLen_max (a b : List LogId) (n : Nat) (hn : n ≤ a.length) (hb : n ≤ b.length)
    (h : a.take n = b.take n) : n ≤ matchLen a b := by
  induction a generalizing b n with
  | nil => simp at hn; omega
  | cons x xs ih =>
    cases n with
    | zero => omega
    | succ n =>
      cases b with
      | nil => simp at hb
      | cons y ys =>
        simp at h hn hb
        simp only [matchLen, h.1, if_true]
        have := ih ys n hn hb h.2
        omega

theorem matchLen_getElem (a b : List LogId) (i : Nat) (h : i < matchLen a b) : a[i]? = b[i]? := by
  have h1 := matchLen_take a b
  have : (a.take (matchLen a b))[i]? = (b.take (matchLen a b))[i]? := by rw [h1]
  simpa [List.getElem?_take, h] using this

variable {ids F : List LogId} {v : LogView} {e : Entry} {dbg : Bool}

/-- the follower has a log id of the leader exactly when it is below the matching point -/
theorem has_iff_matchLen (lm : LogMatching ids F) {o : Option LogId} (ho : Has ids o) :
    Has F o ↔ nextIndex o ≤ matchLen ids F := by
  cases o with
  | none => simp [Has]
  | some l =>
    have hlt := has_lt_length ho
    constructor
    · intro hf
      have hfl := has_lt_length hf
      apply matchLen_max
      · simp; omega
      · simp; omega
      · apply List.ext_getElem?
        intro j
        simp only [List.getElem?_take, nextIndex_some]
        split
        · exact lm l.index l ho hf j (by omega)
        · rfl
    · intro h
      show F[l.index]? = some l
      rw [← matchLen_getElem ids F l.index (by simp at h; omega)]
      exact ho

theorem take_getElem? (l : List LogId) (n i : Nat) (h : i < n) : (l.take n)[i]? = l[i]? := by
  simp [List.getElem?_take, h]

/-- the append at the follower, when its log agrees with the leader's up to `i` -/
theorem appendIds_spec (w : WfIds ids) (lm : LogMatching ids F) (i n : Nat) (hin : i ≤ n)
    (hn : n ≤ ids.length) (hm : i ≤ matchLen ids F) :
    appendIds F ((ids.take n).drop i) = if n ≤ matchLen ids F then F else ids.take n := by
  induction hk : n - i generalizing i with
  | zero =>
    have : i = n := by omega
    subst this
    rw [List.drop_eq_nil_of_le (by rw [List.length_take]; omega)]
    simp [appendIds, hm]
  | succ k ih =>
    have hlt : i < (ids.take n).length := by simp; omega
    rw [List.drop_eq_getElem_cons hlt]
    have hget : ids[i]? = some (ids.take n)[i] := by
      rw [← take_getElem? ids n i (by omega)]
      exact List.getElem?_eq_getElem hlt
    have hidx := w.1 i _ hget
    simp only [appendIds, hidx]
    by_cases hF : F[i]? = some (ids.take n)[i]
    · rw [if_pos hF]
      apply ih (i + 1) (by omega) _ (by omega)
      have hh : Has ids (some (ids.take n)[i]) := by simp only [Has, hidx]; exact hget
      have := (has_iff_matchLen lm hh).mp (by simp only [Has, hidx]; exact hF)
      simp only [nextIndex_some, hidx] at this
      exact this
    · rw [if_neg hF]
      have hne : ¬ n ≤ matchLen ids F := by
        intro h
        apply hF
        rw [← matchLen_getElem ids F i (by omega)]
        exact hget
      rw [if_neg hne]
      have him : i ≤ matchLen ids F := hm
      have hFt : F.take i = ids.take i := by
        apply List.ext_getElem?
        intro j
        simp only [List.getElem?_take]
        split
        · rw [matchLen_getElem ids F j (by omega)]
        · rfl
      rw [hFt, ← List.drop_eq_getElem_cons hlt]
      have : ids.take i = (ids.take n).take i := by rw [List.take_take, Nat.min_eq_left hin]
      rw [this, List.take_append_drop]

theorem matchLen_prefix (a : List LogId) (n : Nat) (hn : n ≤ a.length) : matchLen a (a.take n) = n := by
  apply Nat.le_antisymm
  · have := (matchLen_le a (a.take n)).2
    rw [List.length_take] at this; omega
  · apply matchLen_max
    · exact hn
    · rw [List.length_take]; omega
    · rw [List.take_take, Nat.min_self]

theorem logMatching_prefix (a : List LogId) (n : Nat) : LogMatching a (a.take n) := by
  intro i l h1 h2 j hj
  rw [List.getElem?_take] at h2 ⊢
  split at h2
  · rw [if_pos (by omega)]
  · cases h2

theorem logMatching_take (lm : LogMatching ids F) (n : Nat) : LogMatching ids (F.take n) := by
  intro i l h1 h2 j hj
  rw [List.getElem?_take] at h2 ⊢
  split at h2
  · rw [if_pos (by omega)]; exact lm i l h1 h2 j hj
  · cases h2

/-- the snapshot at the follower: the log becomes a prefix of the leader's, or keeps its tail -/
theorem installIds_spec (lm : LogMatching ids F) (x : LogId)
    (hx : Has ids (some x)) : installIds ids F x =
      if nextIndex (some x) ≤ matchLen ids F then F else ids.take (x.index + 1) := by
  unfold installIds
  by_cases h : nextIndex (some x) ≤ matchLen ids F
  · rw [if_pos h]
    have hF : F[x.index]? = some x := (has_iff_matchLen lm hx).mpr h
    rw [if_pos hF]
    have : ids.take (x.index + 1) = F.take (x.index + 1) := by
      apply List.ext_getElem?
      intro j
      simp only [List.getElem?_take]
      split
      · simp at h; rw [matchLen_getElem ids F j (by omega)]
      · rfl
    rw [this, List.take_append_drop]
  · rw [if_neg h]
    have hF : ¬ F[x.index]? = some x := fun hc => h ((has_iff_matchLen lm hx).mp hc)
    rw [if_neg hF, List.append_nil]

/-- the state between two rounds -/
structure Ready (v : LogView) (e : Entry) (F : List LogId) : Prop where
  wf : WfIds v.ids
  lm : LogMatching v.ids F
  snap : Has v.ids v.snapshot
  purged_le : nextIndex v.purged ≤ nextIndex v.purgeUpto
  upto_le : nextIndex v.purgeUpto ≤ nextIndex v.snapshot
  entry : EOk v F e
  idle : e.inflight = .none

/-- bound on the number of conflicts still possible -/
def phiN (se m p : Nat) : Nat := if se < p then 0 else Nat.size (se - m)

/-- bound on the number of conflicts still possible -/
def phi (v : LogView) (e : Entry) : Nat :=
  phiN e.searchingEnd (nextIndex e.matching) (nextIndex v.purgeUpto)

theorem size_half {d d' : Nat} (h : d' ≤ d / 2) (hd : 0 < d) : Nat.size d' + 1 ≤ Nat.size d := by
  have h1 : 0 < Nat.size d := Nat.size_pos.mpr hd
  have h2 : d < 2 ^ Nat.size d := Nat.lt_size_self d
  have h3 : d' < 2 ^ (Nat.size d - 1) := by
    have : 2 ^ Nat.size d = 2 * 2 ^ (Nat.size d - 1) := by
      conv => lhs; rw [show Nat.size d = (Nat.size d - 1) + 1 by omega]
      rw [Nat.pow_succ]; omega
    omega
  have := Nat.size_le.mpr h3
  omega

/-- what a round does -/
inductive RoundSpec (v : LogView) (e : Entry) (F : List LogId) (max : Nat) : Outcome → Prop
  | idle : Nat.max (nextIndex e.matching + (e.searchingEnd - nextIndex e.matching) / 16 * 8)
      (nextIndex v.purgeUpto) = v.ids.length → nextIndex v.purgeUpto ≤ e.searchingEnd →
      RoundSpec v e F max .idle
  | ok (e' : Entry) (F' : List LogId) : Ready v e' F' →
      nextIndex e.matching < nextIndex e'.matching →
      e'.searchingEnd = Max.max e.searchingEnd (nextIndex e'.matching) →
      matchLen v.ids F' = Max.max (matchLen v.ids F) (nextIndex e'.matching) →
      phi v e' ≤ phi v e →
      RoundSpec v e F max (.ok e' F')
  | conflict (e' : Entry) (F' : List LogId) : Ready v e' F' → e'.matching = e.matching →
      e'.searchingEnd < e.searchingEnd → matchLen v.ids F ≤ e'.searchingEnd →
      matchLen v.ids F' = matchLen v.ids F →
      phi v e' + 1 ≤ phi v e →
      RoundSpec v e F max (.conflict e' F')

theorem round_spec {F : List LogId} (h : Ready v e F) (max : Nat) (hmax : 0 < max) :
    RoundSpec v e F max (round dbg v max e F) := by
  obtain ⟨wf, lm, snap, ple, ule, eok, idle⟩ := h
  have hlo := eok.lo
  have hhi := eok.hi
  rcases nextSend_spec (dbg := dbg) wf ple eok idle max with
    ⟨h1, h2⟩ | ⟨h0, st, hst, hslo, hshi, ⟨heq, h2⟩ | ⟨hlt, p, l, hp, hl, hpn, hln, h2⟩⟩
  · -- snapshot
    have eok1 : EOk v F { e with inflight := .snapshot v.snapshot } := by
      refine ⟨eok.hm, eok.hf, eok.lo, eok.hi, fun _ _ h => (by cases h), ?_⟩
      intro x hx
      cases hx
      exact ⟨snap, by show nextIndex e.matching < nextIndex v.snapshot; omega⟩
    cases hs : v.snapshot with
    | none => rw [hs] at ule; simp at ule; omega
    | some x =>
      have hx : Has v.ids (some x) := hs ▸ snap
      rw [hs] at ule eok1
      have hins : installIds v.ids F x = if x.index + 1 ≤ matchLen v.ids F then F
          else v.ids.take (x.index + 1) := installIds_spec lm x hx
      have hxl := has_lt_length hx
      simp only [nextIndex_some] at ule
      have hFx : Has (installIds v.ids F x) (some x) := by
        rw [hins]
        split
        · next h => exact (has_iff_matchLen lm hx).mpr (by simpa using h)
        · show (v.ids.take (x.index + 1))[x.index]? = some x
          rw [take_getElem? _ _ _ (by omega)]; exact hx
      have lm' : LogMatching v.ids (installIds v.ids F x) := by
        rw [hins]; split
        · exact lm
        · exact logMatching_prefix _ _
      have eok2 : EOk v (installIds v.ids F x) { e with inflight := .snapshot (some x) } := by
        refine eok1.mono (fun _ h => h) (Nat.le_refl _) rfl ?_
        have hm := eok.hm
        cases hmt : e.matching with
        | none => simp [Has]
        | some m =>
          rw [hmt] at hm hlo
          exact Has.of_matching lm' hx hFx hm (by simp at hlo; omega)
      have leg : Legit dbg v (installIds v.ids F x) { e with inflight := .snapshot (some x) }
          (.ok (some x)) := ⟨hx, hFx, Nat.le_refl _, fun _ => rfl⟩
      have hround : round dbg v max e F =
          .ok (after { e with inflight := .snapshot (some x) } (.ok (some x)))
            (installIds v.ids F x) := by
        simp only [round, h2, hs, answer, handle_legit wf eok2 leg]
      rw [hround]
      refine .ok _ _ ⟨wf, lm', snap, ple, by rw [hs]; simpa using ule, eok2.after wf leg, rfl⟩ ?_ ?_ ?_ ?_
      · simp [after]; omega
      · simp [after]
      · rw [hins]
        simp only [after, nextIndex_some]
        split
        · next h => exact (Nat.max_eq_left h).symm
        · next h => rw [matchLen_prefix _ _ (by omega)]; exact (Nat.max_eq_right (by omega)).symm
      · show phiN (Max.max e.searchingEnd (x.index + 1)) (x.index + 1) _ ≤ _
        have : Max.max e.searchingEnd (x.index + 1) = x.index + 1 := Nat.max_eq_right (by omega)
        rw [this]
        unfold phiN
        rw [Nat.sub_self, Nat.size_zero]
        split <;> exact Nat.zero_le _
  · -- idle
    have hr : round dbg v max e F = .idle := by simp only [round, h2]
    rw [hr]
    refine .idle ?_ h0
    rw [← hst]
    have : st ≤ v.ids.length := by omega
    have h3 : Nat.min (st + max) v.ids.length = Min.min (st + max) v.ids.length := rfl
    rw [h3] at heq
    omega
  · -- logs
    have hpl : nextIndex p < nextIndex l := by rw [hpn, hln]; exact hlt
    have hllen := has_next_le hl
    have eok1 : EOk v F { e with inflight := .logs p l } := by
      refine ⟨eok.hm, eok.hf, eok.lo, eok.hi, ?_, fun _ h => (by cases h)⟩
      intro p' l' hpl'
      cases hpl'
      refine ⟨hp, hl, hpl, by rw [hpn]; exact hslo, by rw [hpn]; exact hshi, ?_⟩
      rw [hpn, hst]
      exact Nat.le_trans ple (Nat.le_max_right _ _)
    by_cases hF : Has F p
    · have hpm := (has_iff_matchLen lm hp).mp hF
      have happ := appendIds_spec wf lm (nextIndex p) (nextIndex l) (Nat.le_of_lt hpl) hllen hpm
      generalize hF' : appendIds F ((v.ids.take (nextIndex l)).drop (nextIndex p)) = F' at happ
      have lm' : LogMatching v.ids F' := by
        rw [happ]; split
        · exact lm
        · exact logMatching_prefix _ _
      have hml : matchLen v.ids F' = Max.max (matchLen v.ids F) (nextIndex l) := by
        rw [happ]
        split
        · next h => exact (Nat.max_eq_left h).symm
        · next h => rw [matchLen_prefix _ _ hllen]; exact (Nat.max_eq_right (by omega)).symm
      have hFl : Has F' l := (has_iff_matchLen lm' hl).mpr (by rw [hml]; exact Nat.le_max_right _ _)
      have eok2 : EOk v F' { e with inflight := .logs p l } := by
        refine eok1.mono (fun _ h => h) (Nat.le_refl _) rfl ?_
        refine (has_iff_matchLen lm' eok.hm).mpr ?_
        rw [hml]
        exact Nat.le_trans ((has_iff_matchLen lm eok.hm).mp eok.hf) (Nat.le_max_left _ _)
      have leg : Legit dbg v F' { e with inflight := .logs p l } (.ok l) :=
        ⟨hl, hFl, Nat.le_of_lt hpl, Nat.le_refl _⟩
      have hround : round dbg v max e F = .ok (after { e with inflight := .logs p l } (.ok l)) F' := by
        simp only [round, h2, if_pos hF, answer, handle_legit wf eok2 leg, hF']
      rw [hround]
      refine .ok _ _ ⟨wf, lm', snap, ple, ule, eok2.after wf leg, ?_⟩ ?_ ?_ ?_ ?_
      · simp [after, Inflight.mkLogs]
      · simp only [after]; omega
      · simp [after]
      · simpa [after] using hml
      · show phiN (Max.max e.searchingEnd (nextIndex l)) (nextIndex l) _ ≤ phiN _ _ _
        unfold phiN
        rw [if_neg (by omega), if_neg (by omega)]
        exact Nat.size_le_size (by omega)
    · cases p with
      | none => simp [Has] at hF
      | some c =>
        simp only [nextIndex_some] at hpn hpl
        have hnm : ¬ nextIndex (some c) ≤ matchLen v.ids F := fun h => hF ((has_iff_matchLen lm hp).mpr h)
        have hmm := (has_iff_matchLen lm eok.hm).mp eok.hf
        simp at hnm
        have leg : Legit dbg v F { e with inflight := .logs (some c) l } (.conflict c) :=
          ⟨⟨l, rfl⟩, by show nextIndex e.matching ≤ c.index; omega⟩
        have hround : round dbg v max e F =
            .conflict (after { e with inflight := .logs (some c) l } (.conflict c)) (F.take c.index) := by
          simp only [round, h2, if_neg hF, answer, handle_legit wf eok1 leg]
        have hmt : matchLen v.ids (F.take c.index) = matchLen v.ids F := by
          apply Nat.le_antisymm
          · have h1 := matchLen_take v.ids (F.take c.index)
            have h2 := matchLen_le v.ids (F.take c.index)
            have h2' := h2.2
            rw [List.length_take] at h2'
            apply matchLen_max _ _ _ h2.1
            · omega
            · rw [h1, List.take_take, Nat.min_eq_left (by omega)]
          · have h1 := matchLen_take v.ids F
            have h2 := matchLen_le v.ids F
            apply matchLen_max _ _ _ h2.1
            · rw [List.length_take]; omega
            · rw [h1, List.take_take, Nat.min_eq_left (by omega)]
        have lm' := logMatching_take lm c.index
        have eok2 : EOk v (F.take c.index) { e with inflight := .logs (some c) l } := by
          refine eok1.mono (fun _ h => h) (Nat.le_refl _) rfl ?_
          exact (has_iff_matchLen lm' eok.hm).mpr (by rw [hmt]; exact hmm)
        have leg2 : Legit dbg v (F.take c.index) { e with inflight := .logs (some c) l } (.conflict c) :=
          leg
        rw [hround]
        refine .conflict _ _ ⟨wf, lm', snap, ple, ule, eok2.after wf leg2, rfl⟩ rfl ?_ ?_ hmt ?_
        · simp only [after]; omega
        · simp only [after]; omega
        · show phiN c.index (nextIndex e.matching) _ + 1 ≤ phiN _ _ _
          unfold phiN
          rw [if_neg (by omega : ¬ e.searchingEnd < nextIndex v.purgeUpto)]
          have hd : 0 < e.searchingEnd - nextIndex e.matching := by omega
          split
          · have := Nat.size_pos.mpr hd
            omega
          · next hnp =>
            apply size_half _ hd
            have hmid : st = nextIndex e.matching + (e.searchingEnd - nextIndex e.matching) / 16 * 8 := by
              rw [hst]
              apply Nat.max_eq_left
              have hcases : st = Max.max (nextIndex e.matching +
                (e.searchingEnd - nextIndex e.matching) / 16 * 8) (nextIndex v.purgeUpto) := hst
              omega
            omega

/-- upper bound on the number of rounds -/
def budget (v : LogView) (e : Entry) : Nat := (v.ids.length - nextIndex e.matching) + phi v e

theorem Rounds.spec {max n k : Nat} {e' : Entry} {F' : List LogId} (hmax : 0 < max)
    (r : Rounds dbg v max e F n k e' F') (h : Ready v e F) :
    Ready v e' F' ∧ k + phi v e' ≤ phi v e ∧ n + budget v e' ≤ budget v e := by
  induction r with
  | refl e F => exact ⟨h, by omega, by omega⟩
  | ok e F e1 F1 n k e' F' hr _ ih =>
    have := round_spec (dbg := dbg) h max hmax
    rw [hr] at this
    cases this with
    | ok _ _ h1 h2 h3 h4 h5 =>
      obtain ⟨i1, i2, i3⟩ := ih h1
      have := has_next_le h1.entry.hm
      refine ⟨i1, by omega, ?_⟩
      unfold budget at i3 ⊢
      omega
  | conflict e F e1 F1 n k e' F' hr _ ih =>
    have := round_spec (dbg := dbg) h max hmax
    rw [hr] at this
    cases this with
    | conflict _ _ h1 h2 h3 h4 h5 h6 =>
      obtain ⟨i1, i2, i3⟩ := ih h1
      refine ⟨i1, by omega, ?_⟩
      unfold budget at i3 ⊢
      rw [h2] at i3
      omega

/-- rounds go on until there is nothing to send -/
theorem rounds_end {max : Nat} (hmax : 0 < max) (h : Ready v e F) :
    ∃ n k e' F', Rounds dbg v max e F n k e' F' ∧ round dbg v max e' F' = .idle := by
  induction hb : budget v e using Nat.strong_induction_on generalizing e F with
  | _ b ih =>
    have hs := round_spec (dbg := dbg) h max hmax
    generalize hr : round dbg v max e F = o at hs
    cases hs with
    | idle => exact ⟨0, 0, e, F, .refl _ _, hr⟩
    | ok e1 F1 h1 h2 h3 h4 h5 =>
      have := has_next_le h1.entry.hm
      have hlt : budget v e1 < b := by rw [← hb]; unfold budget; omega
      obtain ⟨n, k, e', F', hR, hi⟩ := ih _ hlt h1 rfl
      exact ⟨n + 1, k, e', F', .ok _ _ _ _ _ _ _ _ hr hR, hi⟩
    | conflict e1 F1 h1 h2 h3 h4 h5 h6 =>
      have hlt : budget v e1 < b := by rw [← hb]; unfold budget; rw [h2]; omega
      obtain ⟨n, k, e', F', hR, hi⟩ := ih _ hlt h1 rfl
      exact ⟨n + 1, k + 1, e', F', .conflict _ _ _ _ _ _ _ _ hr hR, hi⟩

theorem SInv.ready {s : Sess} (h : SInv dbg s) (hi : s.entry.inflight = .none) :
    Ready s.view s.entry s.follower :=
  ⟨h.wf, h.lm, h.snap, h.purged_le, h.upto_le, h.entry, hi⟩

/-- the search end is strictly below the leader's last log, or the search is over -/
def NotEnd (s : Sess) : Prop :=
  s.entry.searchingEnd < s.view.ids.length ∨ s.entry.searchingEnd = nextIndex s.entry.matching

theorem NotEnd.step {s s' : Sess} {exact : Bool} (h : SInv dbg s) (hn : NotEnd s)
    (st : Step dbg exact s (.ok s')) : NotEnd s' := by
  unfold NotEnd at hn ⊢
  cases st with
  | append new hw hl => simp only [List.length_append]; omega
  | snapshot x _ _ => exact hn
  | schedule x _ _ _ => exact hn
  | purge =>
    unfold tryPurge
    split
    · exact hn
    · split
      · exact hn
      · split <;> exact hn
  | sendNothing max e hs =>
    by_cases hi : s.entry.inflight = .none
    · rcases nextSend_spec (dbg := dbg) h.wf h.purged_le h.entry hi max with
        ⟨_, h2⟩ | ⟨_, st, _, _, _, ⟨_, h2⟩ | ⟨_, p, l, _, _, _, _, h2⟩⟩ <;>
        (rw [h2] at hs; cases hs; try exact hn)
    · simp [Entry.nextSend, hi, bind, Except.bind, pure, Except.pure] at hs
      rw [← hs]; exact hn
  | send max e a _ hs _ =>
    by_cases hi : s.entry.inflight = .none
    · rcases nextSend_spec (dbg := dbg) h.wf h.purged_le h.entry hi max with
        ⟨_, h2⟩ | ⟨_, st, _, _, _, ⟨_, h2⟩ | ⟨_, p, l, _, _, _, _, h2⟩⟩ <;>
        (rw [h2] at hs; cases hs; try exact hn)
    · simp [Entry.nextSend, hi, bind, Except.bind, pure, Except.pure] at hs
  | rpcOk => exact hn
  | rpcConflict => exact hn
  | rpcErr => exact hn
  | snapOk => exact hn
  | followerChanges => exact hn
  | deliver r q e hq hh =>
    have hc := h.chain
    rw [hq] at hc
    rw [handle_legit h.wf h.entry hc.1] at hh
    cases hh
    have leg := hc.1
    have hhi := h.entry.hi
    have hlo := h.entry.lo
    cases r with
    | ok m =>
      simp only [after]
      have h1 := has_next_le leg.1
      have h2 : nextIndex s.entry.matching ≤ nextIndex m := by
        have h3 := leg.2.2
        cases hi : s.entry.inflight with
        | none => rw [hi] at h3; exact h3.elim
        | logs p l => rw [hi] at h3; have := h.entry.logs _ _ hi; simp only at h3; omega
        | snapshot x => rw [hi] at h3; have := h.entry.snap _ hi; simp only at h3; omega
      omega
    | conflict c =>
      simp only [after]
      obtain ⟨⟨l, hl⟩, hc⟩ := leg
      have := h.entry.logs _ _ hl
      simp at this
      omega
    | err => exact hn
  | rebuild => exact hn

end Openraft.Repl
