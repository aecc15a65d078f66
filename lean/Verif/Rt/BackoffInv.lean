import Verif.Rt.Backoff

/-!
# What the log of a replication task says, and the invariant

First the specification, as functions of what happened only (newest first), then the invariant.
-/

set_option autoImplicit false

namespace Openraft.Rt

/-! ## Specification -/

/-- the backoff after a result: a success ends it, an unreachable target begins it, any other failure within one goes on in it -/
def bkBump : BkRes → Option Nat → Option Nat
  | .ok _ _, _ => none
  | .quit, l => l
  | .unreachable, none => some 0
  | _, none => none
  | _, some k => some (k + 1)

/-- the number of the backoff that is in force, if one is -/
def bkLevel : List BkRec → Option Nat
  | [] => none
  | .res _ r :: l => bkBump r (bkLevel l)
  | .pushed _ _ :: l => bkLevel l
  | .sent _ _ _ _ :: l => bkLevel l
  | .shut _ :: l => bkLevel l

/-- the time before which nothing must be sent -/
def bkDue (dur : Nat → Option Nat) : List BkRec → Nat
  | [] => 0
  | .res t r :: l => match bkBump r (bkLevel l) with | some k => t + (dur k).getD 500 | none => 0
  | .pushed _ _ :: l => bkDue dur l
  | .sent _ _ _ _ :: l => bkDue dur l
  | .shut _ :: l => bkDue dur l

/-- the newest committed log id that was pushed -/
def bkNewest (c₀ : Nat) : List BkRec → Nat
  | [] => c₀
  | .pushed _ (.committed c) :: _ => c
  | .pushed _ (.data _) :: l => bkNewest c₀ l
  | .res _ _ :: l => bkNewest c₀ l
  | .sent _ _ _ _ :: l => bkNewest c₀ l
  | .shut _ :: l => bkNewest c₀ l

/-- the matching log id of the last success -/
def bkMatched (m₀ : Nat) : List BkRec → Nat
  | [] => m₀
  | .res _ (.ok m _) :: _ => m
  | .res _ _ :: l => bkMatched m₀ l
  | .pushed _ _ :: l => bkMatched m₀ l
  | .sent _ _ _ _ :: l => bkMatched m₀ l
  | .shut _ :: l => bkMatched m₀ l

/-- what was pushed since the last action began -/
def bkPushes : List BkRec → List BkMsg
  | [] => []
  | .pushed _ e :: l => e :: bkPushes l
  | .sent _ _ _ _ :: _ => []
  | .res _ _ :: l => bkPushes l
  | .shut _ :: l => bkPushes l

/-- the range of logs of the last action -/
def bkRange : List BkRec → Option (Nat × Nat)
  | [] => none
  | .sent _ .committed m _ :: _ => some (m, m)
  | .sent _ (.logs r) _ _ :: _ => some r
  | .sent _ .snapshot _ _ :: _ => none
  | .sent _ (.callback _) _ _ :: _ => none
  | .pushed _ _ :: l => bkRange l
  | .res _ _ :: l => bkRange l
  | .shut _ :: l => bkRange l

/-- what the last action leaves to be done: the rest of the logs, or all of them in smaller requests -/
def bkLeft : List BkRec → Option BkAct
  | [] => none
  | .res _ (.ok _ (some n)) :: _ => some (.logs n)
  | .res _ .tooLarge :: l => (bkRange l).map .logs
  | .res _ _ :: _ => none
  | .sent _ _ _ _ :: _ => none
  | .pushed _ _ :: l => bkLeft l
  | .shut _ :: l => bkLeft l

/-- what is to be done next: the newest data that was pushed, or else what is left, or else the committed log id -/
def bkWant : List BkMsg → Option BkAct → Option BkAct
  | [], left => left
  | .data d :: _, _ => some d
  | .committed _ :: l, left => match bkWant l left with | some d => some d | none => some .committed

/-- the channel was closed -/
def bkShut : List BkRec → Bool
  | [] => false
  | .shut _ :: _ => true
  | .res _ _ :: l => bkShut l
  | .pushed _ _ :: l => bkShut l
  | .sent _ _ _ _ :: l => bkShut l

/-- what an action must be, given what happened before -/
structure BkGood (dur : Nat → Option Nat) (m₀ c₀ : Nat) (before : List BkRec) (t : Nat) (d : BkAct) (m c : Nat) : Prop where
  due : bkDue dur before ≤ t
  want : bkWant (bkPushes before) (bkLeft before) = some d
  matched : m = bkMatched m₀ before
  newest : c = bkNewest c₀ before
  opened : bkShut before = false

/-! ## The invariant -/

/-- the loop is between two actions -/
def Bk.between (s : Bk) : Prop := (∃ u, s.at_ = .sleeps u) ∨ s.at_ = .waits ∨ s.at_ = .tries

/-- all actions of the log are as they must be -/
def BkAll (dur : Nat → Option Nat) (m₀ c₀ : Nat) : List BkRec → Prop
  | [] => True
  | .sent t d m c :: l => BkGood dur m₀ c₀ l t d m c ∧ BkAll dur m₀ c₀ l
  | .res _ _ :: l => BkAll dur m₀ c₀ l
  | .pushed _ _ :: l => BkAll dur m₀ c₀ l
  | .shut _ :: l => BkAll dur m₀ c₀ l

structure BkInv (dur : Nat → Option Nat) (m₀ c₀ : Nat) (s : Bk) : Prop where
  all : BkAll dur m₀ c₀ s.log
  level : s.at_ ≠ .gone → s.backoff = (bkLevel s.log).map (· + 1)
  shut : s.closed = bkShut s.log
  matched : s.at_ ≠ .gone → s.matching = bkMatched m₀ s.log
  newest : s.at_ ≠ .gone → s.queue.foldl Bk.note s.committed = bkNewest c₀ s.log
  acting : ∀ d, s.at_ = .acts d → s.action = none ∧ bkPushes s.log = s.queue.reverse ∧ bkRange s.log = s.logData d
  wants : s.between → s.queue.foldl Bk.fill s.action = bkWant (bkPushes s.log) (bkLeft s.log)
  sleeping : ∀ u, s.at_ = .sleeps u → u = bkDue dur s.log ∧ bkLevel s.log ≠ none
  due : s.at_ = .waits ∨ s.at_ = .tries → bkDue dur s.log ≤ s.now
  has : s.at_ = .tries → s.action ≠ none
  lacks : s.at_ = .waits → s.action = none
  sane : s.at_ ≠ .panicked

theorem BkInv.spawn (dur : Nat → Option Nat) (m₀ c₀ : Nat) : BkInv dur m₀ c₀ (.spawn m₀ c₀) where
  all := trivial
  level := fun _ => rfl
  shut := rfl
  matched := fun _ => rfl
  newest := fun _ => rfl
  acting := fun d h => (by cases h)
  wants := fun _ => rfl
  sleeping := fun u h => (by cases h)
  due := fun _ => Nat.le_refl _
  has := fun h => (by cases h)
  lacks := fun _ => rfl
  sane := fun h => (by cases h)

theorem bkWant_cons (p : List BkMsg) (a : Option BkAct) (e : BkMsg) : Bk.fill (bkWant p a) e = bkWant (e :: p) a := by
  cases e with
  | data d => simp only [bkWant, Bk.fill]
  | committed c => simp only [bkWant, Bk.fill]; cases bkWant p a <;> rfl

/-- the events of the queue, taken one after another, give what is wanted -/
theorem bkWant_queue (q : List BkMsg) (a : Option BkAct) : q.foldl Bk.fill a = bkWant q.reverse a := by
  have h : ∀ (p : List BkMsg), p.reverse.foldl Bk.fill a = bkWant p a := by
    intro p
    induction p with
    | nil => rfl
    | cons e p ih =>
      rw [List.reverse_cons, List.foldl_append, ih]
      exact bkWant_cons _ _ _
  have := h q.reverse
  rwa [List.reverse_reverse] at this

/-- no result of an action that has no logs is "too large" -/
theorem Bk.resOf_fits (s : Bk) (d : BkAct) (r : BkRes) (h : s.logData d = none) : s.resOf d r ≠ .tooLarge := by
  cases d with
  | committed => cases h
  | logs r => cases h
  | snapshot => cases r <;> simp [Bk.resOf]
  | callback x => cases x <;> simp [Bk.resOf, BkSnap.toRes]

/-- the state in which `main` goes on after a result: what `drain_events_with_backoff` finds -/
structure BkMid (dur : Nat → Option Nat) (m₀ c₀ : Nat) (s : Bk) : Prop where
  all : BkAll dur m₀ c₀ s.log
  next : s.backoff = bkLevel s.log
  shut : s.closed = bkShut s.log
  matched : s.matching = bkMatched m₀ s.log
  newest : s.queue.foldl Bk.note s.committed = bkNewest c₀ s.log
  wants : s.queue.foldl Bk.fill s.action = bkWant (bkPushes s.log) (bkLeft s.log)
  due : bkDue dur s.log = match bkLevel s.log with | some k => s.now + (dur k).getD 500 | none => 0

theorem BkMid.pause {dur : Nat → Option Nat} {m₀ c₀ : Nat} {s : Bk} (h : BkMid dur m₀ c₀ s) : BkInv dur m₀ c₀ (Bk.pause dur s) := by
  obtain ⟨h1, h2, h3, h4, h5, h6, h7⟩ := h
  unfold Bk.pause
  split
  · next k hk =>
    have hl : bkLevel s.log = some k := by rw [← h2, hk]
    rw [hl] at h7
    refine ⟨h1, fun _ => ?_, h3, fun _ => h4, fun _ => h5, fun d hd => (by cases hd), fun _ => h6, fun u hu => ?_, fun h => (by rcases h with h | h <;> cases h),
      fun h => (by cases h), fun h => (by cases h), fun h => (by cases h)⟩
    · show some (k + 1) = (bkLevel s.log).map (· + 1)
      rw [hl]; rfl
    · cases hu
      exact ⟨h7.symm, by rw [show bkLevel _ = _ from hl]; exact fun h => by cases h⟩
  · next hk =>
    have hl : bkLevel s.log = none := by rw [← h2, hk]
    rw [hl] at h7
    unfold Bk.drain
    refine ⟨h1, fun _ => ?_, h3, fun _ => h4, fun _ => h5, fun d hd => ?_, fun _ => h6, fun u hu => ?_, fun _ => ?_, fun h => ?_, fun h => ?_, fun h => ?_⟩
    · show s.backoff = _
      rw [h2, hl]; rfl
    · simp only at hd; split at hd <;> cases hd
    · simp only at hu; split at hu <;> cases hu
    · show bkDue dur s.log ≤ _
      rw [h7]; exact Nat.zero_le _
    · simp only at h
      split at h
      · cases h
      · next hn => exact fun he => hn (by rw [show s.action = none from he]; rfl)
    · simp only at h
      split at h
      · next hn => exact Option.isNone_iff_eq_none.1 hn
      · cases h
    · simp only at h; split at h <;> cases h

theorem BkInv.done {dur : Nat → Option Nat} {m₀ c₀ : Nat} {s : Bk} (h : BkInv dur m₀ c₀ s) {d : BkAct} (hd : s.at_ = .acts d) (r : BkRes)
    (hr : s.logData d = none → r ≠ .tooLarge) : BkInv dur m₀ c₀ (Bk.after dur { s with log := .res s.now r :: s.log } d r) := by
  have hg : s.at_ ≠ .gone := by rw [hd]; exact fun h => by cases h
  obtain ⟨ha, hp, hrg⟩ := h.acting d hd
  have hq : ∀ a, s.queue.foldl Bk.fill a = bkWant (bkPushes s.log) a := fun a => by rw [hp]; exact bkWant_queue _ _
  have hl := h.level hg
  cases r with
  | ok m next =>
    unfold Bk.after
    refine BkMid.pause ?_
    refine ⟨h.all, ?_, h.shut, ?_, h.newest hg, ?_, ?_⟩
    · rfl
    · rfl
    · cases next with
      | none => show s.queue.foldl Bk.fill s.action = _; rw [hq, ha]; rfl
      | some n => exact hq _
    · rfl
  | quit =>
    exact ⟨h.all, fun h => absurd rfl h, h.shut, fun h => absurd rfl h, fun h => absurd rfl h, fun d hd => (by cases hd),
      fun h => (by rcases h with ⟨u, h⟩ | h | h <;> cases h), fun u hu => (by cases hu), fun h => (by rcases h with h | h <;> cases h),
      fun h => (by cases h), fun h => (by cases h), fun h => (by cases h)⟩
  | unreachable =>
    refine BkMid.pause ⟨h.all, ?_, h.shut, h.matched hg, h.newest hg, ?_, ?_⟩
    · show (match s.backoff with | none => some 0 | some k => some k) = bkBump .unreachable (bkLevel s.log)
      rw [hl]; cases bkLevel s.log <;> rfl
    · show s.queue.foldl Bk.fill s.action = _; rw [hq, ha]; rfl
    · rfl
  | other =>
    refine BkMid.pause ⟨h.all, ?_, h.shut, h.matched hg, h.newest hg, ?_, ?_⟩
    · show s.backoff = bkBump .other (bkLevel s.log)
      rw [hl]; cases bkLevel s.log <;> rfl
    · show s.queue.foldl Bk.fill s.action = _; rw [hq, ha]; rfl
    · rfl
  | tooLarge =>
    show BkInv dur m₀ c₀ (match s.logData d with | some r => Bk.pause dur _ | none => _)
    cases hx : s.logData d with
    | none => exact absurd rfl (hr hx)
    | some rg =>
      refine BkMid.pause ⟨h.all, ?_, h.shut, h.matched hg, h.newest hg, ?_, ?_⟩
      · show s.backoff = bkBump .tooLarge (bkLevel s.log)
        rw [hl]; cases bkLevel s.log <;> rfl
      · show s.queue.foldl Bk.fill (some (.logs rg)) = bkWant (bkPushes s.log) ((bkRange s.log).map .logs)
        rw [hq, hrg, hx]; rfl
      · rfl

theorem BkInv.recv {dur : Nat → Option Nat} {m₀ c₀ : Nat} {s : Bk} (h : BkInv dur m₀ c₀ s) (hb : s.between) {p : BkPlace}
    (hp : (p = .tries ∧ (s.at_ = .waits ∨ s.at_ = .tries)) ∨ ∃ u, p = .sleeps u ∧ s.at_ = .sleeps u) : BkInv dur m₀ c₀ (s.recv p) := by
  have hg : s.at_ ≠ .gone := by rcases hb with ⟨u, h⟩ | h | h <;> rw [h] <;> exact fun h => by cases h
  unfold Bk.recv
  split
  · next e q hq =>
    have hw := h.wants hb
    have hn := h.newest hg
    rw [hq] at hw hn
    have hpg : p ≠ .gone ∧ p ≠ .panicked ∧ p ≠ .waits ∧ ∀ d, p ≠ .acts d := by
      rcases hp with ⟨rfl, _⟩ | ⟨u, rfl, _⟩ <;> simp
    refine ⟨h.all, fun _ => h.level hg, h.shut, fun _ => h.matched hg, fun _ => hn, fun d hd => absurd hd (hpg.2.2.2 d), fun _ => hw, fun u hu => ?_, fun hk => ?_,
      fun hk => ?_, fun hk => absurd hk hpg.2.2.1, fun hk => absurd hk hpg.2.1⟩
    · rcases hp with ⟨rfl, _⟩ | ⟨u', rfl, hu'⟩
      · cases hu
      · cases hu
        exact h.sleeping _ hu'
    · rcases hp with ⟨rfl, ht⟩ | ⟨u', rfl, hu'⟩
      · exact h.due ht
      · rcases hk with hk | hk <;> cases hk
    · show Bk.fill s.action e ≠ none
      cases e with
      | data d => exact fun h => by cases h
      | committed c => unfold Bk.fill; cases s.action <;> exact fun h => by cases h
  · split
    · exact ⟨h.all, fun h => absurd rfl h, h.shut, fun h => absurd rfl h, fun h => absurd rfl h, fun d hd => (by cases hd),
        fun h => (by rcases h with ⟨u, h⟩ | h | h <;> cases h), fun u hu => (by cases hu), fun h => (by rcases h with h | h <;> cases h),
        fun h => (by cases h), fun h => (by cases h), fun h => (by cases h)⟩
    · exact h

theorem BkInv.step {dur : Nat → Option Nat} {m₀ c₀ : Nat} {s : Bk} (h : BkInv dur m₀ c₀ s) (ev : BkEv) : BkInv dur m₀ c₀ (Bk.step dur s ev) := by
  cases ev with
  | time d =>
    exact ⟨h.all, h.level, h.shut, h.matched, h.newest, h.acting, h.wants, h.sleeping, fun hk => Nat.le_trans (h.due hk) (Nat.le_add_right _ _), h.has, h.lacks, h.sane⟩
  | push e =>
    simp only [Bk.step]
    split
    · exact h
    · refine ⟨h.all, h.level, h.shut, h.matched, fun hg => ?_, fun d hd => ?_, fun hb => ?_, h.sleeping, h.due, h.has, h.lacks, h.sane⟩
      · show (s.queue ++ [e]).foldl Bk.note s.committed = _
        rw [List.foldl_append, h.newest hg]
        cases e <;> rfl
      · obtain ⟨a, b, c⟩ := h.acting d hd
        refine ⟨a, ?_, c⟩
        show e :: bkPushes s.log = (s.queue ++ [e]).reverse
        rw [b]; simp
      · show (s.queue ++ [e]).foldl Bk.fill s.action = bkWant (e :: bkPushes s.log) (bkLeft s.log)
        rw [List.foldl_append, h.wants hb]
        exact bkWant_cons _ _ _
  | close =>
    simp only [Bk.step]
    split
    · exact h
    · exact ⟨h.all, h.level, rfl, h.matched, h.newest, h.acting, h.wants, h.sleeping, h.due, h.has, h.lacks, h.sane⟩
  | done r =>
    simp only [Bk.step]
    split
    · next d hd => exact h.done hd _ (s.resOf_fits d r)
    · exact h
  | wake =>
    simp only [Bk.step]
    split
    · next u hu =>
      split
      · next hle =>
        have hg : s.at_ ≠ .gone := by rw [hu]; exact fun h => by cases h
        have hdue : bkDue dur s.log ≤ s.now := (h.sleeping u hu).1 ▸ hle
        unfold Bk.drain
        refine ⟨h.all, fun _ => h.level hg, h.shut, fun _ => h.matched hg, fun _ => h.newest hg, fun d hd => ?_, fun _ => h.wants (Or.inl ⟨u, hu⟩), fun u hu => ?_,
          fun _ => hdue, fun h => ?_, fun h => ?_, fun h => ?_⟩
        · simp only at hd; split at hd <;> cases hd
        · simp only at hu; split at hu <;> cases hu
        · simp only at h
          split at h
          · cases h
          · next hn => exact fun he => hn (by rw [show s.action = none from he]; rfl)
        · simp only at h
          split at h
          · next hn => exact Option.isNone_iff_eq_none.1 hn
          · cases h
        · simp only at h; split at h <;> cases h
      · exact h
    · exact h
  | recv =>
    simp only [Bk.step]
    split
    · next u hu => exact h.recv (Or.inl ⟨u, hu⟩) (Or.inr ⟨u, rfl, hu⟩)
    · next hu => exact h.recv (Or.inr (Or.inl hu)) (Or.inl ⟨rfl, Or.inl hu⟩)
    · next hu => exact h.recv (Or.inr (Or.inr hu)) (Or.inl ⟨rfl, Or.inr hu⟩)
    · exact h
  | go =>
    simp only [Bk.step]
    split
    · next d hat hq hc ha =>
      have hg : s.at_ ≠ .gone := by rw [hat]; exact fun h => by cases h
      have hw := h.wants (Or.inr (Or.inr hat))
      have hn := h.newest hg
      rw [hq] at hw hn
      refine ⟨⟨⟨h.due (Or.inr hat), ?_, h.matched hg, hn, ?_⟩, h.all⟩, fun _ => h.level hg, h.shut, fun _ => h.matched hg, fun _ => ?_, fun d' hd' => ?_,
        fun hb => (by rcases hb with ⟨u, h⟩ | h | h <;> cases h), fun u hu => (by cases hu), fun hk => (by rcases hk with hk | hk <;> cases hk),
        fun h => (by cases h), fun h => (by cases h), fun h => (by cases h)⟩
      · rw [← hw]; exact ha
      · rw [← h.shut]; exact hc
      · show s.queue.foldl Bk.note s.committed = bkNewest c₀ s.log
        rw [hq]; exact hn
      · cases hd'
        refine ⟨rfl, ?_, ?_⟩
        · show [] = s.queue.reverse
          rw [hq]; rfl
        · cases d <;> rfl
    · exact h

theorem BkInv.run {dur : Nat → Option Nat} {m₀ c₀ : Nat} {s : Bk} (h : BkInv dur m₀ c₀ s) (evs : List BkEv) : BkInv dur m₀ c₀ (Bk.run dur s evs) := by
  induction evs generalizing s with
  | nil => exact h
  | cons ev evs ih => exact ih (h.step ev)

theorem BkAll.sent {dur : Nat → Option Nat} {m₀ c₀ : Nat} {post pre : List BkRec} {t : Nat} {d : BkAct} {m c : Nat}
    (h : BkAll dur m₀ c₀ (post ++ .sent t d m c :: pre)) : BkGood dur m₀ c₀ pre t d m c := by
  induction post with
  | nil => exact h.1
  | cons e post ih =>
    cases e with
    | sent => exact ih h.2
    | res => exact ih h
    | pushed => exact ih h
    | shut => exact ih h

end Openraft.Rt
