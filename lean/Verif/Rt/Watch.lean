import Mathlib.Data.List.Basic

/-!
# The metrics channel and `Wait`

`metrics/wait.rs`: an application waits until the metrics of a node satisfy a condition. The metrics are
published on a watch channel (`type_config/async_runtime/watch/mod.rs`, by default `tokio::sync::watch`): it keeps
the last value and a version, and a receiver remembers the version it has seen.

Simplifications: time is a number; a waiter is polled at arbitrary moments, by the steps of `Ev`; the text of an error
is the value it prints.
-/

set_option autoImplicit false

namespace Openraft.Rt

variable {α : Type}

/-- the channel: the values sent so far (a record: only the last and their number are in the channel), the first value,
and whether the sender was dropped -/
structure Watch (α : Type) where
  first : α
  sent : List α
  closed : Bool
deriving DecidableEq, Repr

/-- the current value, `borrow_watched` -/
def Watch.val (w : Watch α) : α := w.sent.getLast?.getD w.first
/-- the version -/
def Watch.ver (w : Watch α) : Nat := w.sent.length
/-- `send` -/
def Watch.send (w : Watch α) (a : α) : Watch α := { w with sent := w.sent ++ [a] }
/-- every value the channel had -/
def Watch.values (w : Watch α) : List α := w.first :: w.sent

/-- what `Wait::metrics` returns; `WaitError`, `metrics/wait.rs:18-26` -/
inductive Result (α : Type) where
  | ok (m : α)
  | timeout (latest : α)
  | shuttingDown
deriving DecidableEq, Repr

/-- where a call of `Wait::metrics` is, `metrics/wait.rs:38-92` -/
inductive Place (α : Type) where
  /-- at the head of the loop, lines 45-53 -/
  | asks
  /-- in `select_biased!`, lines 67-90, with `latest` -/
  | sleeps (latest : α)
  | done (r : Result α)
deriving DecidableEq, Repr

/-- a call of `Wait::metrics`: `timeout_at`, the version the receiver has seen, the place -/
structure Waiter (α : Type) where
  timeoutAt : Nat
  seen : Nat
  at_ : Place α
deriving DecidableEq, Repr

/-- one poll of the call at the time `now`, `metrics/wait.rs:45-91`.
* head of the loop: `borrow_watched` (which does not mark the value as seen), the test, the time, lines 46-61;
* `select_biased!`: the delay is looked at first (lines 68-71), then `rx.changed()` (lines 72-89). `changed` compares the
  versions before it looks whether the sender is gone, and marks the current version as seen. -/
def Waiter.poll (f : α → Bool) (w : Watch α) (t : Waiter α) (now : Nat) : Waiter α :=
  match t.at_ with
  | .asks =>
    if f w.val then { t with at_ := .done (.ok w.val) }
    else if t.timeoutAt ≤ now then { t with at_ := .done (.timeout w.val) }
    else { t with at_ := .sleeps w.val }
  | .sleeps latest =>
    if t.timeoutAt ≤ now then { t with at_ := .done (.timeout latest) }
    else if t.seen ≠ w.ver then { t with seen := w.ver, at_ := .asks }
    else if w.closed then { t with at_ := .done .shuttingDown }
    else t
  | .done _ => t

/-- what happens to a channel and a waiter -/
inductive WEv (α : Type) where
  | send (a : α)
  | close
  | poll (now : Nat)
deriving DecidableEq, Repr

/-- the effect; nothing is sent on a channel whose sender is gone -/
def wstep (f : α → Bool) (s : Watch α × Waiter α) : WEv α → Watch α × Waiter α
  | .send a => if s.1.closed then s else (s.1.send a, s.2)
  | .close => ({ s.1 with closed := true }, s.2)
  | .poll now => (s.1, s.2.poll f s.1 now)

/-- the effect of a list -/
def wrun (f : α → Bool) (s : Watch α × Waiter α) (evs : List (WEv α)) : Watch α × Waiter α := evs.foldl (wstep f) s

/-- a call that begins now: the receiver is a clone that has seen any earlier version, `metrics/wait.rs:42-44` -/
def Waiter.start (timeoutAt seen : Nat) : Waiter α := ⟨timeoutAt, seen, .asks⟩

/-! ## Lemmas -/

theorem Watch.val_mem (w : Watch α) : w.val ∈ w.values := by
  unfold Watch.val Watch.values
  cases h : w.sent.getLast? with
  | none => simp
  | some a => simp [List.mem_of_getLast? h]

theorem Watch.val_send (w : Watch α) (a : α) : (w.send a).val = a := by simp [Watch.val, Watch.send]

/-- what is true between the steps of a call -/
structure WInv (f : α → Bool) (w : Watch α) (t : Waiter α) : Prop where
  seen : t.seen ≤ w.ver
  sleeps : ∀ latest, t.at_ = .sleeps latest → f latest = false ∧ latest ∈ w.values ∧ (t.seen = w.ver → w.val = latest)
  ok : ∀ m, t.at_ = .done (.ok m) → f m = true ∧ m ∈ w.values
  timeout : ∀ m, t.at_ = .done (.timeout m) → f m = false ∧ m ∈ w.values
  down : t.at_ = .done .shuttingDown → w.closed = true ∧ f w.val = false

theorem WInv.start {f : α → Bool} {w : Watch α} {at_ seen : Nat} (h : seen ≤ w.ver) : WInv f w (Waiter.start at_ seen) :=
  ⟨h, fun _ h => (by cases h), fun _ h => (by cases h), fun _ h => (by cases h), fun h => (by cases h)⟩

theorem WInv.step {f : α → Bool} {w : Watch α} {t : Waiter α} (h : WInv f w t) (ev : WEv α) :
    WInv f (wstep f (w, t) ev).1 (wstep f (w, t) ev).2 := by
  cases ev with
  | close => exact ⟨h.seen, h.sleeps, h.ok, h.timeout, fun hd => ⟨rfl, (h.down hd).2⟩⟩
  | send a =>
    by_cases hc : w.closed = true
    · simp only [wstep, hc, if_true]; exact h
    · simp only [wstep, hc]
      have hv : ∀ m, m ∈ w.values → m ∈ (w.send a).values := by
        intro m hm; simp only [Watch.values, Watch.send, List.mem_cons, List.mem_append] at hm ⊢; tauto
      have hl : (w.send a).ver = w.ver + 1 := by simp [Watch.ver, Watch.send]
      have hs := h.seen
      refine ⟨by show t.seen ≤ (w.send a).ver; omega, fun l hl' => ?_, fun m hm => ⟨(h.ok m hm).1, hv _ (h.ok m hm).2⟩, fun m hm => ⟨(h.timeout m hm).1, hv _ (h.timeout m hm).2⟩, fun hd => ?_⟩
      · obtain ⟨h1, h2, _⟩ := h.sleeps l hl'
        exact ⟨h1, hv _ h2, fun he => by exfalso; have he' : t.seen = (w.send a).ver := he; omega⟩
      · exact absurd (h.down hd).1 hc
  | poll now =>
    have hs := h.seen
    simp only [wstep]
    unfold Waiter.poll
    split
    · next he =>
      split
      · next hf =>
        exact ⟨hs, fun _ h => (by cases h), fun m hm => (by cases hm; exact ⟨hf, w.val_mem⟩), fun _ h => (by cases h), fun h => (by cases h)⟩
      · next hf =>
        have hf' : f w.val = false := by simpa using hf
        split
        · exact ⟨hs, fun _ h => (by cases h), fun _ h => (by cases h), fun m hm => (by cases hm; exact ⟨hf', w.val_mem⟩), fun h => (by cases h)⟩
        · exact ⟨hs, fun l hl => (by cases hl; exact ⟨hf', w.val_mem, fun _ => rfl⟩), fun _ h => (by cases h), fun _ h => (by cases h), fun h => (by cases h)⟩
    · next latest he =>
      obtain ⟨h1, h2, h3⟩ := h.sleeps latest he
      split
      · exact ⟨hs, fun _ h => (by cases h), fun _ h => (by cases h), fun m hm => (by cases hm; exact ⟨h1, h2⟩), fun h => (by cases h)⟩
      · split
        · exact ⟨Nat.le_refl _, fun _ h => (by cases h), fun _ h => (by cases h), fun _ h => (by cases h), fun h => (by cases h)⟩
        · next hse =>
          have hse : t.seen = w.ver := by simpa using hse
          split
          · next hc =>
            exact ⟨hs, fun _ h => (by cases h), fun _ h => (by cases h), fun _ h => (by cases h), fun _ => ⟨hc, by rw [h3 hse]; exact h1⟩⟩
          · exact h
    · exact h

theorem WInv.run {f : α → Bool} (evs : List (WEv α)) {s : Watch α × Waiter α} (h : WInv f s.1 s.2) :
    WInv f (wrun f s evs).1 (wrun f s evs).2 := by
  induction evs generalizing s with
  | nil => exact h
  | cons ev evs ih => exact ih (s := wstep f s ev) (h.step ev)

end Openraft.Rt
