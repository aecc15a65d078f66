/-!
# The tick loop

`core/tick.rs`: a task that sends a `Tick` at regular intervals, can be switched off and on, and is told to stop.

The steps of the task are interleaved with those of the callers and of the core: looking at the clock, the two futures of `select`, the load of `enabled`, and the
sending are each one step, since the task may run on another thread. Simplifications: times are numbers, 0 when the task is spawned;
`enabled` is one variable that all see at once (it is read and written with `Relaxed`, and only this one variable matters).
-/

set_option autoImplicit false

namespace Openraft.Rt

/-- where the loop is, `core/tick.rs:88-123` -/
inductive TkPlace where
  /-- before line 94 -/
  | top
  /-- in `select`, line 99, until this time -/
  | sleeps (at_ : Nat)
  /-- the sleep is done, line 109 -/
  | woken
  /-- `enabled` was true, line 113 -/
  | sends
  /-- the loop has returned: the handle can be joined -/
  | ended
deriving DecidableEq, Repr

/-- `Tick` and `TickHandle`, `core/tick.rs:25-42`, with the clock and the ticks that were sent, each with its time. `cancel`: `shutdown` was taken and sent;
`handle`: the join handle was not taken; `open_`: the core still receives. -/
structure Ticker where
  interval : Nat
  now : Nat
  enabled : Bool
  cancel : Bool
  handle : Bool
  open_ : Bool
  i : Nat
  at_ : TkPlace
  out : List (Nat × Nat)
deriving DecidableEq, Repr

/-- `Tick::spawn`, `core/tick.rs:59-85` -/
def Ticker.spawn (interval : Nat) (enabled : Bool) : Ticker := ⟨interval, 0, enabled, false, true, true, 0, .top, []⟩

/-- what happens -/
inductive TkEv where
  /-- time passes -/
  | time (d : Nat)
  /-- `TickHandle::enable`, `core/tick.rs:129-131` -/
  | enable (b : Bool)
  /-- `TickHandle::shutdown` or the drop of the handle, `core/tick.rs:44-54, 136-156` -/
  | shutdown
  /-- the core ends, its channel is closed -/
  | close
  /-- line 94 -/
  | arm
  /-- `select` is polled, lines 99-107 -/
  | poll
  /-- lines 109-111 -/
  | load
  /-- lines 113-121 -/
  | send
deriving DecidableEq, Repr

/-- `select` polls the first future first: a loop that was cancelled ends, also if the sleep is done -/
def Ticker.poll (k : Ticker) : Ticker :=
  match k.at_ with
  | .sleeps a => if k.cancel then { k with at_ := .ended } else if a ≤ k.now then { k with at_ := .woken } else k
  | _ => k

/-- one step -/
def Ticker.step (k : Ticker) : TkEv → Ticker
  | .time d => { k with now := k.now + d }
  | .enable b => { k with enabled := b }
  | .shutdown => { k with cancel := true, handle := false }
  | .close => { k with open_ := false }
  | .arm => if k.at_ = .top then { k with at_ := .sleeps (k.now + k.interval) } else k
  | .poll => k.poll
  | .load => if k.at_ = .woken then { k with at_ := if k.enabled then .sends else .top } else k
  | .send =>
    if k.at_ = .sends then
      if k.open_ then { k with i := k.i + 1, at_ := .top, out := k.out ++ [(k.now, k.i + 1)] } else { k with i := k.i + 1, at_ := .ended }
    else k

/-- steps in a row -/
def Ticker.run (k : Ticker) (evs : List TkEv) : Ticker := evs.foldl Ticker.step k

/-- what `shutdown` returns: the handle, for the first call -/
def Ticker.shutdownReturns (k : Ticker) : Bool := k.handle

/-! ## The invariant -/

/-- the ticks are numbered, and the next one is an interval after the last -/
structure TkInv (k : Ticker) : Prop where
  count : k.at_ ≠ .ended → k.i = k.out.length
  nums : k.out.map (·.2) = List.range' 1 k.out.length
  past : ∀ p ∈ k.out, p.1 ≤ k.now
  apart : k.out.Pairwise fun p q => p.1 + k.interval ≤ q.1
  rate : k.out.length * k.interval ≤ k.now
  sleeps : ∀ a, k.at_ = .sleeps a → (∀ p ∈ k.out, p.1 + k.interval ≤ a) ∧ (k.out.length + 1) * k.interval ≤ a
  due : k.at_ = .woken ∨ k.at_ = .sends → (∀ p ∈ k.out, p.1 + k.interval ≤ k.now) ∧ (k.out.length + 1) * k.interval ≤ k.now

theorem TkInv.spawn (interval : Nat) (b : Bool) : TkInv (.spawn interval b) :=
  ⟨fun _ => rfl, rfl, fun p hp => (by cases hp), List.Pairwise.nil, by simp [Ticker.spawn], fun a h => (by cases h), fun h => (by rcases h with h | h <;> cases h)⟩

theorem TkInv.step {k : Ticker} (h : TkInv k) (ev : TkEv) : TkInv (k.step ev) := by
  cases ev with
  | time d =>
    refine ⟨h.count, h.nums, fun p hp => Nat.le_trans (h.past p hp) (Nat.le_add_right _ _), h.apart, Nat.le_trans h.rate (Nat.le_add_right _ _), h.sleeps, fun hk => ?_⟩
    obtain ⟨a, b⟩ := h.due hk
    exact ⟨fun p hp => Nat.le_trans (a p hp) (Nat.le_add_right _ _), Nat.le_trans b (Nat.le_add_right _ _)⟩
  | enable b => exact ⟨h.count, h.nums, h.past, h.apart, h.rate, h.sleeps, h.due⟩
  | shutdown => exact ⟨h.count, h.nums, h.past, h.apart, h.rate, h.sleeps, h.due⟩
  | close => exact ⟨h.count, h.nums, h.past, h.apart, h.rate, h.sleeps, h.due⟩
  | arm =>
    simp only [Ticker.step]
    split
    · next ht =>
      refine ⟨fun _ => h.count (by rw [ht]; exact fun h => by cases h), h.nums, h.past, h.apart, h.rate, ?_, fun hk => by rcases hk with hk | hk <;> cases hk⟩
      intro a ha
      cases ha
      refine ⟨fun p hp => Nat.add_le_add_right (h.past p hp) _, ?_⟩
      show (k.out.length + 1) * k.interval ≤ k.now + k.interval
      rw [Nat.succ_mul]
      exact Nat.add_le_add_right h.rate _
    · exact h
  | poll =>
    show TkInv k.poll
    unfold Ticker.poll
    split
    · next a ha =>
      split
      · exact ⟨fun hk => absurd rfl hk, h.nums, h.past, h.apart, h.rate, fun a hk => (by cases hk), fun hk => (by rcases hk with hk | hk <;> cases hk)⟩
      · split
        · next hle =>
          refine ⟨fun _ => h.count (by rw [ha]; exact fun h => by cases h), h.nums, h.past, h.apart, h.rate, fun a hk => (by cases hk), fun _ => ?_⟩
          obtain ⟨k1, k2⟩ := h.sleeps a ha
          exact ⟨fun p hp => Nat.le_trans (k1 p hp) hle, Nat.le_trans k2 hle⟩
        · exact h
    · exact h
  | load =>
    simp only [Ticker.step]
    split
    · next ht =>
      have hd := h.due (Or.inl ht)
      refine ⟨fun _ => h.count (by rw [ht]; exact fun h => by cases h), h.nums, h.past, h.apart, h.rate, fun a hk => ?_, fun _ => hd⟩
      simp only at hk
      split at hk <;> cases hk
    · exact h
  | send =>
    simp only [Ticker.step]
    split
    · next ht =>
      obtain ⟨d1, d2⟩ := h.due (Or.inr ht)
      have hi := h.count (by rw [ht]; exact fun h => by cases h)
      split
      · refine ⟨fun _ => by simp [hi], ?_, ?_, ?_, ?_, fun a hk => (by cases hk), fun hk => (by rcases hk with hk | hk <;> cases hk)⟩
        · show (k.out ++ [(k.now, k.i + 1)]).map (·.2) = List.range' 1 (k.out ++ [(k.now, k.i + 1)]).length
          rw [List.map_append, h.nums, List.length_append, List.length_singleton, List.range'_concat, hi]
          simp [Nat.add_comm]
        · intro p hp
          rcases List.mem_append.1 hp with hp | hp
          · exact h.past p hp
          · cases List.mem_singleton.1 hp; exact Nat.le_refl _
        · show (k.out ++ [_]).Pairwise _
          rw [List.pairwise_append]
          refine ⟨h.apart, List.pairwise_singleton _ _, fun p hp q hq => ?_⟩
          cases List.mem_singleton.1 hq
          exact d1 p hp
        · show (k.out ++ [_]).length * k.interval ≤ k.now
          rw [List.length_append]
          exact d2
      · exact ⟨fun hk => absurd rfl hk, h.nums, h.past, h.apart, h.rate, fun a hk => (by cases hk), fun hk => (by rcases hk with hk | hk <;> cases hk)⟩
    · exact h

theorem Ticker.interval_run (k : Ticker) (evs : List TkEv) : (k.run evs).interval = k.interval := by
  induction evs generalizing k with
  | nil => rfl
  | cons ev evs ih =>
    show ((k.step ev).run evs).interval = _
    rw [ih]
    cases ev <;> simp only [Ticker.step, Ticker.poll] <;> repeat' split
    all_goals rfl

theorem TkInv.run {k : Ticker} (h : TkInv k) (evs : List TkEv) : TkInv (k.run evs) := by
  induction evs generalizing k with
  | nil => exact h
  | cons ev evs ih => exact ih (h.step ev)

end Openraft.Rt
