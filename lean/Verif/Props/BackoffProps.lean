import Verif.Rt.BackoffInv

/-!
# C64: when a replication task sends

All runs of the loop of a replication task: the core and the snapshot task push, actions have any result, time passes, the core closes the channel, in any
order, with any iterator of backoff durations. The log of a run has the newest record first.
-/

set_option autoImplicit false

namespace Openraft.Props
open Openraft.Rt

/-- no result among the records -/
def NoRes (l : List BkRec) : Prop := ∀ t r, BkRec.res t r ∉ l

theorem NoRes.keep {mid : List BkRec} (h : NoRes mid) (dur : Nat → Option Nat) (l : List BkRec) :
    bkLevel (mid ++ l) = bkLevel l ∧ bkDue dur (mid ++ l) = bkDue dur l := by
  induction mid with
  | nil => exact ⟨rfl, rfl⟩
  | cons e mid ih =>
    have := ih fun t r hm => h t r (List.mem_cons_of_mem _ hm)
    cases e with
    | res t r => exact absurd List.mem_cons_self (h t r)
    | _ => exact this

/-- **C64, no request during a backoff.** If after a result the `k`-th backoff is in force, the next action begins at least the `k`-th duration (500 ms if the
iterator has none) after this result. -/
theorem C64_waits (dur : Nat → Option Nat) (m₀ c₀ : Nat) (evs : List BkEv) {post mid pre : List BkRec} {t t' k m c : Nat} {r : BkRes} {d : BkAct}
    (hlog : (Bk.run dur (.spawn m₀ c₀) evs).log = post ++ .sent t' d m c :: (mid ++ .res t r :: pre)) (hmid : NoRes mid)
    (hk : bkLevel (.res t r :: pre) = some k) : t + (dur k).getD 500 ≤ t' := by
  have h := ((BkInv.spawn dur m₀ c₀).run evs).all
  rw [hlog] at h
  have hd := h.sent.due
  rw [(hmid.keep dur _).2] at hd
  have hk' : bkBump r (bkLevel pre) = some k := hk
  simp only [bkDue, hk'] at hd
  exact hd

/-- the results of a log, newest first -/
def bkResults : List BkRec → List BkRes
  | [] => []
  | .res _ r :: l => r :: bkResults l
  | .pushed _ _ :: l => bkResults l
  | .sent _ _ _ _ :: l => bkResults l
  | .shut _ :: l => bkResults l

theorem bkLevel_results (l : List BkRec) : bkLevel l = (bkResults l).foldr bkBump none := by
  induction l with
  | nil => rfl
  | cons e l ih =>
    cases e with
    | res t r => show bkBump r (bkLevel l) = bkBump r ((bkResults l).foldr bkBump none); rw [ih]
    | _ => exact ih

/-- **C64, the backoff grows (partial).** After `n + 1` results "unreachable" in a row, the first of them the first result of all or after a success,
the next action begins at least the `n`-th duration after the last of them. Missing: the same for the answers of the target, see `C64_false`. -/
theorem C64_grows_partial (dur : Nat → Option Nat) (m₀ c₀ : Nat) (evs : List BkEv) {post mid pre : List BkRec} {t t' n m c : Nat} {d : BkAct} {rest : List BkRes}
    (hlog : (Bk.run dur (.spawn m₀ c₀) evs).log = post ++ .sent t' d m c :: (mid ++ .res t .unreachable :: pre)) (hmid : NoRes mid)
    (hres : bkResults pre = List.replicate n .unreachable ++ rest) (hrest : rest = [] ∨ ∃ a b rs, rest = .ok a b :: rs) : t + (dur n).getD 500 ≤ t' := by
  refine C64_waits dur m₀ c₀ evs hlog hmid ?_
  have h0 : rest.foldr bkBump none = none := by
    rcases hrest with rfl | ⟨a, b, rs, rfl⟩ <;> rfl
  have hn : ∀ k, (List.replicate (k + 1) BkRes.unreachable ++ rest).foldr bkBump none = some k := by
    intro k
    induction k with
    | zero => simp [h0, bkBump]
    | succ k ih => rw [List.replicate_succ, List.cons_append, List.foldr_cons, ih]; rfl
  rw [bkLevel_results]
  show (BkRes.unreachable :: bkResults pre).foldr bkBump none = some n
  rw [hres, ← List.cons_append, ← List.replicate_succ]
  exact hn n

/-- **C64, no needless wait.** A task sleeps only after a result that leaves a backoff in force, and exactly until its duration after this result is over. -/
theorem C64_sleeps (dur : Nat → Option Nat) (m₀ c₀ : Nat) (evs : List BkEv) {u : Nat} (hs : (Bk.run dur (.spawn m₀ c₀) evs).at_ = .sleeps u) :
    ∃ mid t r pre k, (Bk.run dur (.spawn m₀ c₀) evs).log = mid ++ .res t r :: pre ∧ NoRes mid ∧ bkLevel (.res t r :: pre) = some k ∧ u = t + (dur k).getD 500 := by
  obtain ⟨h1, h2⟩ := ((BkInv.spawn dur m₀ c₀).run evs).sleeping u hs
  generalize (Bk.run dur (.spawn m₀ c₀) evs).log = l at h1 h2 ⊢
  induction l with
  | nil => exact absurd rfl h2
  | cons e l ih =>
    cases e with
    | res t r =>
      obtain ⟨k, hk⟩ := Option.ne_none_iff_exists'.1 h2
      have hk' : bkBump r (bkLevel l) = some k := hk
      refine ⟨[], t, r, l, k, rfl, fun _ _ h => (by cases h), hk, ?_⟩
      simp only [bkDue, hk'] at h1
      exact h1
    | pushed t e =>
      obtain ⟨mid, t', r, pre, k, a, b, c⟩ := ih h1 h2
      exact ⟨.pushed t e :: mid, t', r, pre, k, by rw [a]; rfl, fun x y h => (by rcases List.mem_cons.1 h with h | h; exact (by cases h); exact b x y h), c⟩
    | sent t d m c' =>
      obtain ⟨mid, t', r, pre, k, a, b, c⟩ := ih h1 h2
      exact ⟨.sent t d m c' :: mid, t', r, pre, k, by rw [a]; rfl, fun x y h => (by rcases List.mem_cons.1 h with h | h; exact (by cases h); exact b x y h), c⟩
    | shut t =>
      obtain ⟨mid, t', r, pre, k, a, b, c⟩ := ih h1 h2
      exact ⟨.shut t :: mid, t', r, pre, k, by rw [a]; rfl, fun x y h => (by rcases List.mem_cons.1 h with h | h; exact (by cases h); exact b x y h), c⟩

/-- **C64, what an action carries.** The newest committed log id that was pushed before, also if it was pushed during the backoff or the action before, and
the matching log id of the last success. -/
theorem C64_commit (dur : Nat → Option Nat) (m₀ c₀ : Nat) (evs : List BkEv) {post pre : List BkRec} {t m c : Nat} {d : BkAct}
    (hlog : (Bk.run dur (.spawn m₀ c₀) evs).log = post ++ .sent t d m c :: pre) : c = bkNewest c₀ pre ∧ m = bkMatched m₀ pre := by
  have h := ((BkInv.spawn dur m₀ c₀).run evs).all
  rw [hlog] at h
  exact ⟨h.sent.newest, h.sent.matched⟩

/-- **C64, what is done next.** The newest data pushed since the last action began; or else what this action left, the rest of the logs or, if the request
was too large, all of them; or else the committed log id, if one was pushed. -/
theorem C64_next (dur : Nat → Option Nat) (m₀ c₀ : Nat) (evs : List BkEv) {post pre : List BkRec} {t m c : Nat} {d : BkAct}
    (hlog : (Bk.run dur (.spawn m₀ c₀) evs).log = post ++ .sent t d m c :: pre) : bkWant (bkPushes pre) (bkLeft pre) = some d := by
  have h := ((BkInv.spawn dur m₀ c₀).run evs).all
  rw [hlog] at h
  exact h.sent.want

/-- Data is not lost: if `x` was pushed, and since then no other data, and no action began, then the next action is `x`. -/
theorem C64_data (dur : Nat → Option Nat) (m₀ c₀ : Nat) (evs : List BkEv) {post mid pre : List BkRec} {t t' m c : Nat} {d x : BkAct}
    (hlog : (Bk.run dur (.spawn m₀ c₀) evs).log = post ++ .sent t d m c :: (mid ++ .pushed t' (.data x) :: pre))
    (hsent : ∀ a b p q, BkRec.sent a b p q ∉ mid) (hdata : ∀ a b, BkRec.pushed a (.data b) ∉ mid) : d = x := by
  have h := C64_next dur m₀ c₀ evs hlog
  suffices hs : ∀ left, bkWant (bkPushes (mid ++ .pushed t' (.data x) :: pre)) left = some x by
    rw [hs] at h
    exact (Option.some.inj h).symm
  intro left
  clear hlog h
  induction mid with
  | nil => rfl
  | cons e mid ih =>
    have := ih (fun a b p q h => hsent a b p q (List.mem_cons_of_mem _ h)) (fun a b h => hdata a b (List.mem_cons_of_mem _ h))
    cases e with
    | res => exact this
    | shut => exact this
    | sent a b p q => exact absurd List.mem_cons_self (hsent a b p q)
    | pushed a e =>
      cases e with
      | data b => exact absurd List.mem_cons_self (hdata a b)
      | committed c' =>
        show (match bkWant (bkPushes (mid ++ .pushed t' (.data x) :: pre)) left with | some d => some d | none => some .committed) = some x
        rw [this]

/-- **C64, a closed channel.** No action begins after the core has closed the channel. -/
theorem C64_closed (dur : Nat → Option Nat) (m₀ c₀ : Nat) (evs : List BkEv) {post mid pre : List BkRec} {t t' m c : Nat} {d : BkAct} :
    (Bk.run dur (.spawn m₀ c₀) evs).log ≠ post ++ .sent t d m c :: (mid ++ .shut t' :: pre) := by
  intro hlog
  have h := ((BkInv.spawn dur m₀ c₀).run evs).all
  rw [hlog] at h
  have hs := h.sent.opened
  have : bkShut (mid ++ .shut t' :: pre) = true := by
    clear hs h hlog
    induction mid with
    | nil => rfl
    | cons e mid ih => cases e <;> first | exact ih | rfl
  rw [this] at hs
  cases hs

theorem bk_run_append (dur : Nat → Option Nat) (s : Bk) (a b : List BkEv) : Bk.run dur s (a ++ b) = Bk.run dur (Bk.run dur s a) b := List.foldl_append

/-- **C64, it quits at once.** A task whose channel is closed, and that is not within an action, ends when it has received what is queued; it does not wait
for the end of a backoff. -/
theorem C64_quits {dur : Nat → Option Nat} {s : Bk} (hb : s.between) (hc : s.closed = true) :
    (Bk.run dur s (List.replicate (s.queue.length + 1) .recv)).at_ = .gone := by
  generalize hn : s.queue.length = n
  induction n generalizing s with
  | zero =>
    have hq := List.length_eq_zero_iff.1 hn
    show (Bk.step dur s .recv).at_ = .gone
    rcases hb with ⟨u, h⟩ | h | h <;> simp [Bk.step, h, Bk.recv, hq, hc]
  | succ n ih =>
    rw [List.replicate_succ]
    show (Bk.run dur (Bk.step dur s .recv) _).at_ = .gone
    obtain ⟨e, q, hq⟩ : ∃ e q, s.queue = e :: q := by
      cases hs : s.queue with
      | nil => rw [hs] at hn; cases hn
      | cons e q => exact ⟨e, q, rfl⟩
    have hl : q.length = n := by rw [hq] at hn; simpa using hn
    apply ih
    · rcases hb with ⟨u, h⟩ | h | h
      · exact Or.inl ⟨u, by simp [Bk.step, h, Bk.recv, hq]⟩
      · exact Or.inr (Or.inr (by simp [Bk.step, h, Bk.recv, hq]))
      · exact Or.inr (Or.inr (by simp [Bk.step, h, Bk.recv, hq]))
    · rcases hb with ⟨u, h⟩ | h | h <;> simp [Bk.step, h, Bk.recv, hq, Bk.process, hc]
    · rcases hb with ⟨u, h⟩ | h | h <;> simp [Bk.step, h, Bk.recv, hq, Bk.process, hl]

/-- the actions of a log, newest first -/
def bkSents (l : List BkRec) : List BkRec := l.filter fun e => match e with | .sent _ _ _ _ => true | _ => false

/-- **C64, the end.** After a higher vote, a storage error or the close the task has ended: it begins nothing any more, whatever happens. -/
theorem C64_ends {dur : Nat → Option Nat} {s : Bk} {d : BkAct} (hs : s.at_ = .acts d) {r : BkRes} (hr : s.resOf d r = .quit) (evs : List BkEv) :
    (Bk.run dur s (.done r :: evs)).at_ = .gone ∧ bkSents (Bk.run dur s (.done r :: evs)).log = bkSents s.log := by
  have h1 : (Bk.step dur s (.done r)).at_ = .gone ∧ bkSents (Bk.step dur s (.done r)).log = bkSents s.log := by
    simp only [Bk.step, hs, hr, Bk.after]
    exact ⟨trivial, rfl⟩
  show (Bk.run dur (Bk.step dur s (.done r)) evs).at_ = _ ∧ bkSents (Bk.run dur (Bk.step dur s (.done r)) evs).log = _
  generalize Bk.step dur s (.done r) = s' at h1
  induction evs generalizing s' with
  | nil => exact h1
  | cons ev evs ih =>
    refine ih (Bk.step dur s' ev) ?_
    obtain ⟨a, b⟩ := h1
    cases ev with
    | time d => exact ⟨a, b⟩
    | push e => simp only [Bk.step]; split <;> exact ⟨a, b⟩
    | close => simp only [Bk.step]; split <;> exact ⟨a, b⟩
    | done r => simp only [Bk.step, a]; exact ⟨trivial, b⟩
    | wake => simp only [Bk.step, a]; exact ⟨trivial, b⟩
    | recv => simp only [Bk.step, a]; exact ⟨trivial, b⟩
    | go => simp only [Bk.step, a]; exact ⟨trivial, b⟩

/-- a task in `try_drain_events` with an action begins it once the queue is received -/
theorem bk_tries {dur : Nat → Option Nat} {s : Bk} (hs : s.at_ = .tries) (ho : s.closed = false) (ha : s.action ≠ none) :
    ∃ d, (Bk.run dur s (List.replicate s.queue.length .recv ++ [.go])).at_ = .acts d ∧
      (Bk.run dur s (List.replicate s.queue.length .recv ++ [.go])).now = s.now := by
  generalize hn : s.queue.length = n
  induction n generalizing s with
  | zero =>
    have hq := List.length_eq_zero_iff.1 hn
    obtain ⟨d, hd⟩ := Option.ne_none_iff_exists'.1 ha
    exact ⟨d, by simp [Bk.run, Bk.step, hs, hq, ho, hd]⟩
  | succ n ih =>
    obtain ⟨e, q, hq⟩ : ∃ e q, s.queue = e :: q := by
      cases hs : s.queue with
      | nil => rw [hs] at hn; cases hn
      | cons e q => exact ⟨e, q, rfl⟩
    have hl : q.length = n := by rw [hq] at hn; simpa using hn
    have hst : Bk.step dur s .recv = { (s.process e) with queue := q, at_ := .tries } := by simp [Bk.step, hs, Bk.recv, hq]
    have hf : Bk.fill s.action e ≠ none := by
      cases e with
      | data d => exact fun h => by cases h
      | committed c => unfold Bk.fill; cases s.action <;> exact fun h => by cases h
    have := ih (s := Bk.step dur s .recv) (by rw [hst]) (by rw [hst]; exact ho) (by rw [hst]; exact hf) (by rw [hst]; exact hl)
    rw [hst] at this
    rw [List.replicate_succ, List.cons_append]
    show ∃ d, (Bk.run dur (Bk.step dur s .recv) _).at_ = _ ∧ (Bk.run dur (Bk.step dur s .recv) _).now = _
    rw [hst]
    exact this

/-- **C64, it goes on.** When the time of the backoff is over, the loop wakes up, and with an action or with something in its queue it begins the next action
without further waiting. -/
theorem C64_wakes {dur : Nat → Option Nat} {s : Bk} {u : Nat} (hs : s.at_ = .sleeps u) (hu : u ≤ s.now) (ho : s.closed = false)
    (hw : s.action ≠ none ∨ s.queue ≠ []) :
    ∃ d, (Bk.run dur s (.wake :: (List.replicate s.queue.length .recv ++ [.go]))).at_ = .acts d ∧
      (Bk.run dur s (.wake :: (List.replicate s.queue.length .recv ++ [.go]))).now = s.now := by
  have hst : Bk.step dur s .wake = s.drain := by simp [Bk.step, hs, hu]
  show ∃ d, (Bk.run dur (Bk.step dur s .wake) _).at_ = _ ∧ (Bk.run dur (Bk.step dur s .wake) _).now = _
  rw [hst]
  cases ha : s.action with
  | some a =>
    exact bk_tries (s := s.drain) (by simp [Bk.drain, ha]) ho (by rw [show s.drain.action = s.action from rfl, ha]; exact fun h => by cases h)
  | none =>
    have hq := hw.resolve_left fun h => h ha
    cases hq' : s.queue with
    | nil => exact absurd hq' hq
    | cons e q =>
      have h2 : Bk.step dur s.drain .recv = { (s.drain.process e) with queue := q, at_ := .tries } := by simp [Bk.step, Bk.drain, ha, Bk.recv, hq']
      rw [List.length_cons, List.replicate_succ, List.cons_append]
      show ∃ d, (Bk.run dur (Bk.step dur s.drain .recv) _).at_ = _ ∧ (Bk.run dur (Bk.step dur s.drain .recv) _).now = _
      rw [h2]
      refine bk_tries (s := { (s.drain.process e) with queue := q, at_ := .tries }) rfl ho ?_
      show Bk.fill s.action e ≠ none
      cases e with
      | data d => exact fun h => by cases h
      | committed c => unfold Bk.fill; cases s.action <;> exact fun h => by cases h

/-- **C64, no panic.** `log_data.unwrap()` is never reached with `None`: only sending logs can be answered with "payload too large". -/
theorem C64_no_panic (dur : Nat → Option Nat) (m₀ c₀ : Nat) (evs : List BkEv) : (Bk.run dur (.spawn m₀ c₀) evs).at_ ≠ .panicked :=
  ((BkInv.spawn dur m₀ c₀).run evs).sane

/-! ## Snapshots -/

/-- Beginning to stream a snapshot counts as a success: the backoff ends though the target has not answered. -/
theorem C64_snapshot_resets {dur : Nat → Option Nat} {s : Bk} (hs : s.at_ = .acts .snapshot) {r : BkRes} (hr : r ≠ .quit) :
    (Bk.step dur s (.done r)).backoff = none ∧ ∃ l, (Bk.step dur s (.done r)).log = .res s.now (.ok s.matching none) :: l := by
  have hx : s.resOf .snapshot r = .ok s.matching none := by cases r <;> first | rfl | exact absurd rfl hr
  simp only [Bk.step, hs, hx, Bk.after, Bk.pause, Bk.drain]
  exact ⟨trivial, _, rfl⟩

/-- **C64, snapshots do not back off further.** A snapshot that could not be delivered is followed by the first duration, however often this has happened. -/
theorem C64_snapshot_first {dur : Nat → Option Nat} (m₀ c₀ : Nat) (evs : List BkEv) {mid pre : List BkRec} {t m : Nat} {n : Option (Nat × Nat)} {x : BkSnap}
    (hs : (Bk.run dur (.spawn m₀ c₀) evs).at_ = .acts (.callback x)) (hx : x = .unreachable ∨ x = .remote)
    (hlog : (Bk.run dur (.spawn m₀ c₀) evs).log = mid ++ .res t (.ok m n) :: pre) (hmid : NoRes mid) (r : BkRes) :
    (Bk.run dur (.spawn m₀ c₀) (evs ++ [.done r])).at_ = .sleeps ((Bk.run dur (.spawn m₀ c₀) evs).now + (dur 0).getD 500) := by
  have h := (BkInv.spawn dur m₀ c₀).run evs
  rw [bk_run_append]
  generalize Bk.run dur (.spawn m₀ c₀) evs = s at *
  have hb := h.level (by rw [hs]; exact fun h => by cases h)
  rw [hlog, (hmid.keep dur _).1] at hb
  have hb' : s.backoff = none := hb
  show (Bk.step dur s (.done r)).at_ = _
  rcases hx with rfl | rfl <;> simp [Bk.step, hs, Bk.resOf, BkSnap.toRes, Bk.after, Bk.pause, hb']

/-- the action that began last -/
def bkLast : List BkRec → Option BkAct
  | [] => none
  | .sent _ d _ _ :: _ => some d
  | .pushed _ _ :: l => bkLast l
  | .res _ _ :: l => bkLast l
  | .shut _ :: l => bkLast l

/-- what the target answered, newest first: all results but those of beginning to stream a snapshot, where nothing was sent yet -/
def bkAnswers : List BkRec → List (Nat × BkRes)
  | [] => []
  | .res t r :: l => if bkLast l = some .snapshot then bkAnswers l else (t, r) :: bkAnswers l
  | .pushed _ _ :: l => bkAnswers l
  | .sent _ _ _ _ :: l => bkAnswers l
  | .shut _ :: l => bkAnswers l

/-- durations of 10, 20, 30, … -/
def tens : Nat → Option Nat := fun k => some (10 * (k + 1))

/-- two snapshots, none of which reaches the target -/
def snapsRun : List BkEv :=
  [.push (.data .snapshot), .recv, .go, .done (.ok 0 none), .time 5, .push (.data (.callback .unreachable)), .recv, .go, .done .other,
   .time 10, .wake, .push (.data .snapshot), .recv, .go, .done (.ok 0 none), .time 5, .push (.data (.callback .unreachable)), .recv, .go, .done .other,
   .push (.committed 7), .time 10, .wake, .recv, .go]

set_option maxRecDepth 8000 in
/-- **C64 is false for the answers of the target.** After two answers "unreachable" in a row, with no other between them, the task waits the first
duration, not the second. -/
theorem C64_false : ¬ ∀ (dur : Nat → Option Nat) (evs : List BkEv) (post pre : List BkRec) (t t₁ t' m c : Nat) (d : BkAct) (as : List (Nat × BkRes)),
    (Bk.run dur (.spawn 0 0) evs).log = post ++ .sent t' d m c :: pre → bkAnswers pre = (t, .unreachable) :: (t₁, .unreachable) :: as →
    t + (dur 1).getD 500 ≤ t' := by
  intro h
  have := h tens snapsRun [] ((Bk.run tens (.spawn 0 0) snapsRun).log.tail) 20 5 30 0 7 .committed [] (by decide) (by decide)
  revert this
  decide

/-! ## Requests that are too large -/

/-- a task that sends logs, with nothing queued and without backoff, and is told that the request is too large, sends it again at once -/
theorem bk_too_large {dur : Nat → Option Nat} {s : Bk} {r : Nat × Nat} (hs : s.at_ = .acts (.logs r)) (hq : s.queue = []) (ho : s.closed = false)
    (hb : s.backoff = none) :
    Bk.run dur s [.done .tooLarge, .go] = { s with action := none, log := .sent s.now (.logs r) s.matching s.committed :: .res s.now .tooLarge :: s.log } := by
  cases s
  simp only at hs hq ho hb
  subst hs hq ho hb
  rfl

/-- **C64, "too large" without end.** The documentation of `PayloadTooLarge` (`error.rs:397-401`) says that a request that cannot be divided is taken as
`Unreachable`. It is not: a target that always answers so gets the same request again and again, any number of times without any time passing, and no
backoff begins. -/
theorem C64_too_large_loops (dur : Nat → Option Nat) (n : Nat) :
    let s := Bk.run dur (.spawn 0 0) ([.push (.data (.logs (0, 1))), .recv, .go] ++ (List.replicate n [BkEv.done .tooLarge, .go]).flatten)
    s.now = 0 ∧ s.at_ = .acts (.logs (0, 1)) ∧ s.backoff = none ∧ (s.log.filter (· = .sent 0 (.logs (0, 1)) 0 0)).length = n + 1 := by
  intro s
  suffices h : ∀ (n : Nat) (s : Bk), s.now = 0 → s.at_ = .acts (.logs (0, 1)) → s.queue = [] → s.closed = false → s.backoff = none → s.matching = 0 → s.committed = 0 →
      let s' := Bk.run dur s (List.replicate n [BkEv.done .tooLarge, .go]).flatten
      s'.now = 0 ∧ s'.at_ = .acts (.logs (0, 1)) ∧ s'.backoff = none ∧
      (s'.log.filter (· = .sent 0 (.logs (0, 1)) 0 0)).length = n + (s.log.filter (· = .sent 0 (.logs (0, 1)) 0 0)).length by
    have := h n (Bk.run dur (.spawn 0 0) [.push (.data (.logs (0, 1))), .recv, .go]) rfl rfl rfl rfl rfl rfl rfl
    rw [← bk_run_append] at this
    exact this
  intro n
  induction n with
  | zero => exact fun s h1 h2 h3 h4 h5 _ _ => ⟨h1, h2, h5, (Nat.zero_add _).symm⟩
  | succ n ih =>
    intro s h1 h2 h3 h4 h5 h6 h7
    rw [List.replicate_succ, List.flatten_cons, bk_run_append, bk_too_large h2 h3 h4 h5]
    obtain ⟨a, b, c, d⟩ := ih { s with action := none, log := .sent s.now (.logs (0, 1)) s.matching s.committed :: .res s.now .tooLarge :: s.log } h1 h2 h3 h4 h5 h6 h7
    refine ⟨a, b, c, d.trans ?_⟩
    simp [h1, h6, h7]
    omega

/-! ## Examples -/

/-- a target that is unreachable twice, then times out, then answers -/
def backRun : List BkEv :=
  [.push (.data (.logs (0, 9))), .recv, .go, .time 3, .done .unreachable, .push (.committed 4), .recv, .push (.data (.logs (0, 9))), .time 10, .wake, .recv, .go,
   .time 2, .done .unreachable, .push (.data (.logs (0, 9))), .time 20, .wake, .recv, .go,
   .done .other, .push (.data (.logs (0, 9))), .push (.committed 6), .time 30, .recv, .wake, .recv, .go,
   .done (.ok 5 (some (5, 9))), .go, .done (.ok 9 none)]

set_option maxRecDepth 8000 in
/-- the waits are 10, 20, 30; then the rest of the logs is sent at once. The hypotheses of `C64_waits`, `C64_commit`, `C64_next`, `C64_data` are met here. -/
example : (Bk.run tens (.spawn 0 0) backRun).log =
    [.res 65 (.ok 9 none), .sent 65 (.logs (5, 9)) 5 6, .res 65 (.ok 5 (some (5, 9))), .sent 65 (.logs (0, 9)) 0 6,
     .pushed 35 (.committed 6), .pushed 35 (.data (.logs (0, 9))), .res 35 .other, .sent 35 (.logs (0, 9)) 0 4, .pushed 15 (.data (.logs (0, 9))),
     .res 15 .unreachable, .sent 13 (.logs (0, 9)) 0 4, .pushed 3 (.data (.logs (0, 9))), .pushed 3 (.committed 4), .res 3 .unreachable,
     .sent 0 (.logs (0, 9)) 0 0, .pushed 0 (.data (.logs (0, 9)))] ∧
    (Bk.run tens (.spawn 0 0) backRun).at_ = .waits ∧ (Bk.run tens (.spawn 0 0) backRun).backoff = none := by decide

set_option maxRecDepth 8000 in
/-- `C64_waits` and `C64_grows_partial` at the second wait -/
example : 15 + (tens 1).getD 500 ≤ 35 :=
  C64_grows_partial tens 0 0 (backRun.take 19) (post := []) (mid := [.pushed 15 (.data (.logs (0, 9)))]) (n := 1) (rest := []) (m := 0) (c := 4) (d := .logs (0, 9))
    (pre := [.sent 13 (.logs (0, 9)) 0 4, .pushed 3 (.data (.logs (0, 9))), .pushed 3 (.committed 4), .res 3 .unreachable,
      .sent 0 (.logs (0, 9)) 0 0, .pushed 0 (.data (.logs (0, 9)))])
    (by decide) (by intro t r h; simp at h) (by decide) (Or.inl rfl)

set_option maxRecDepth 8000 in
/-- `C64_quits`: within a backoff until 13 and with something queued, at time 3, the channel is closed: the task ends, still at time 3 -/
example : let s := Bk.run tens (.spawn 0 0) (backRun.take 6 ++ [.close])
    s.at_ = .sleeps 13 ∧ s.closed = true ∧ s.queue = [.committed 4] ∧ (Bk.run tens s [.recv, .recv]).at_ = .gone ∧ (Bk.run tens s [.recv, .recv]).now = 3 := by decide

set_option maxRecDepth 8000 in
/-- `C64_sleeps`, `C64_wakes` -/
example : let s := Bk.run tens (.spawn 0 0) (backRun.take 9)
    s.at_ = .sleeps 13 ∧ s.now = 13 ∧ s.closed = false ∧ s.queue = [.data (.logs (0, 9))] ∧ (Bk.run tens s [.wake, .recv, .go]).at_ = .acts (.logs (0, 9)) := by decide

set_option maxRecDepth 8000 in
/-- a request that is too large is sent again, but within a backoff not at once (`C64_waits`) -/
example : (Bk.run tens (.spawn 0 0) (backRun.take 12 ++ [.done .tooLarge])).at_ = .sleeps 33 ∧
    (Bk.run tens (.spawn 0 0) (backRun.take 12 ++ [.done .tooLarge])).action = some (.logs (0, 9)) ∧
    (Bk.run tens (.spawn 0 0) [.push (.committed 4), .recv, .go, .done .tooLarge]).at_ = .tries ∧
    (Bk.run tens (.spawn 0 0) [.push (.committed 4), .recv, .go, .done .tooLarge]).action = some (.logs (0, 0)) := by decide

set_option maxRecDepth 8000 in
/-- `C64_snapshot_resets`, `C64_snapshot_first`: the second snapshot -/
example : (Bk.run tens (.spawn 0 0) (snapsRun.take 14)).at_ = .acts .snapshot ∧ (Bk.run tens (.spawn 0 0) (snapsRun.take 14)).backoff = some 1 ∧
    (Bk.run tens (.spawn 0 0) (snapsRun.take 19)).at_ = .acts (.callback .unreachable) ∧ (Bk.run tens (.spawn 0 0) (snapsRun.take 20)).at_ = .sleeps 30 := by decide

set_option maxRecDepth 8000 in
/-- `C64_ends`: a higher vote -/
example : (Bk.run tens (.spawn 0 0) (backRun.take 3)).at_ = .acts (.logs (0, 9)) ∧ (Bk.run tens (.spawn 0 0) (backRun.take 3)).resOf (.logs (0, 9)) .quit = .quit ∧
    (Bk.run tens (.spawn 0 0) (backRun.take 3 ++ [.done .quit, .push (.data .snapshot), .recv, .go])).at_ = .gone := by decide

end Openraft.Props
