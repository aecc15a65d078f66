import Verif.Rt.Tick

/-!
# C62: the ticks

All runs of the tick loop: time passes, it is switched, told to stop, the core ends, and the loop takes its steps, in any order.
-/

set_option autoImplicit false

namespace Openraft.Props
open Openraft.Rt

/-- **C62, spacing.** The ticks are numbered 1, 2, 3, …; two of them are at least the interval apart, and there are at most as many as intervals
since the start. -/
theorem C62_spaced (interval : Nat) (b : Bool) (evs : List TkEv) :
    let k := (Ticker.spawn interval b).run evs
    k.out.map (·.2) = List.range' 1 k.out.length ∧
    k.out.Pairwise (fun p q => p.1 + interval ≤ q.1) ∧
    k.out.length * interval ≤ k.now := by
  intro k
  have h : TkInv k := (TkInv.spawn interval b).run evs
  have hi : k.interval = interval := Ticker.interval_run _ _
  exact ⟨h.nums, hi ▸ h.apart, hi ▸ h.rate⟩

/-- one step sends at most one tick -/
theorem ticker_step_len (k : Ticker) (ev : TkEv) : (k.step ev).out.length =
    k.out.length + if ev = .send ∧ k.at_ = .sends ∧ k.open_ = true then 1 else 0 := by
  cases ev <;> simp only [Ticker.step, Ticker.poll] <;> repeat' split
  all_goals first | rfl | simp_all

/-- **C62, switched off.** After `enable(false)`, until it is switched on, there is at most one more tick: one of which the loop had already seen that it is
enabled. -/
theorem C62_off {k : Ticker} (hk : k.enabled = false) {evs : List TkEv} (hon : TkEv.enable true ∉ evs) :
    (k.run evs).out.length ≤ k.out.length + if k.at_ = .sends then 1 else 0 := by
  induction evs generalizing k with
  | nil => exact Nat.le_add_right _ _
  | cons ev evs ih =>
    have hne : ev ≠ .enable true := fun h => hon (h ▸ List.mem_cons_self)
    have he : (k.step ev).enabled = false := by
      cases ev with
      | enable b => cases b with
        | true => exact absurd rfl hne
        | false => rfl
      | _ => simp only [Ticker.step, Ticker.poll] <;> repeat' split
             all_goals exact hk
    refine Nat.le_trans (ih he fun h => hon (List.mem_cons_of_mem _ h)) ?_
    rw [ticker_step_len]
    have hp : (k.step ev).at_ = .sends → k.at_ = .sends ∧ ¬ (ev = .send ∧ k.open_ = true) := by
      cases ev <;> simp only [Ticker.step, Ticker.poll] <;> repeat' split
      all_goals simp_all
    by_cases h1 : (k.step ev).at_ = .sends
    · obtain ⟨a, b⟩ := hp h1
      simp [h1, a, b]
    · rw [if_neg h1]
      split <;> split <;> simp_all

/-- A loop that is spawned switched off (`enable_tick: false`) sends nothing until it is switched on. -/
theorem C62_off_from_start (interval : Nat) {evs : List TkEv} (hon : TkEv.enable true ∉ evs) : ((Ticker.spawn interval false).run evs).out = [] :=
  List.length_eq_zero_iff.1 (Nat.le_zero.1 (C62_off (k := Ticker.spawn interval false) rfl hon))

/-- **C62, stopped.** After `shutdown` there is at most one more tick, of a loop that was not waiting then; none if it was. -/
theorem C62_stopped {k : Ticker} (hk : k.cancel = true) (evs : List TkEv) :
    (k.run evs).out.length ≤ k.out.length + if k.at_ = .woken ∨ k.at_ = .sends then 1 else 0 := by
  induction evs generalizing k with
  | nil => exact Nat.le_add_right _ _
  | cons ev evs ih =>
    have he : (k.step ev).cancel = true := by
      cases ev <;> simp only [Ticker.step, Ticker.poll] <;> repeat' split
      all_goals first | rfl | exact hk
    refine Nat.le_trans (ih he) ?_
    rw [ticker_step_len]
    have hp : (k.step ev).at_ = .woken ∨ (k.step ev).at_ = .sends → (k.at_ = .woken ∨ k.at_ = .sends) ∧ ¬ (ev = .send ∧ k.at_ = .sends) := by
      cases ev <;> simp only [Ticker.step, Ticker.poll] <;> repeat' split
      all_goals simp_all
    by_cases h1 : (k.step ev).at_ = .woken ∨ (k.step ev).at_ = .sends
    · obtain ⟨a, b⟩ := hp h1
      rw [if_pos h1, if_pos a, if_neg fun h => b ⟨h.1, h.2.1⟩]
      omega
    · rw [if_neg h1]
      split
      · next h => rw [if_pos (Or.inr h.2.1)]; omega
      · omega

/-- **C62, the core is gone**: it gets no more ticks. -/
theorem C62_closed (k : Ticker) (evs : List TkEv) : (k.run (.close :: evs)).out = k.out := by
  suffices h : ∀ (k : Ticker), k.open_ = false → (k.run evs).out = k.out from h (k.step .close) rfl
  induction evs with
  | nil => intro _ _; rfl
  | cons ev evs ih =>
    intro k hk
    have h1 : (k.step ev).open_ = false ∧ (k.step ev).out = k.out := by
      cases ev <;> simp only [Ticker.step, Ticker.poll] <;> repeat' split
      all_goals simp_all
    exact (ih _ h1.1).trans h1.2

/-- **C62, joined.** When the handle is joined, there are no more ticks. -/
theorem C62_joined {k : Ticker} (hk : k.at_ = .ended) (evs : List TkEv) : (k.run evs).out = k.out ∧ (k.run evs).at_ = .ended := by
  induction evs generalizing k with
  | nil => exact ⟨rfl, hk⟩
  | cons ev evs ih =>
    have h1 : (k.step ev).at_ = .ended ∧ (k.step ev).out = k.out := by
      cases ev <;> simp only [Ticker.step, Ticker.poll] <;> repeat' split
      all_goals simp_all
    have := ih h1.1
    exact ⟨this.1.trans h1.2, this.2⟩

/-- **C62, it ends**: only if it was told to or the core is gone; and then within one round of the loop, however early it is polled. -/
theorem C62_ends (interval : Nat) (b : Bool) (evs : List TkEv) :
    let k := (Ticker.spawn interval b).run evs
    (k.at_ = .ended → k.cancel = true ∨ k.open_ = false) ∧
    (k.cancel = true → (k.run [.load, .send, .arm, .poll]).at_ = .ended) := by
  intro k
  constructor
  · show k.at_ = .ended → _
    suffices h : ∀ (k0 : Ticker), (k0.at_ = .ended → k0.cancel = true ∨ k0.open_ = false) → ∀ evs,
        (k0.run evs).at_ = .ended → (k0.run evs).cancel = true ∨ (k0.run evs).open_ = false from
      h (.spawn interval b) (fun h => by cases h) evs
    intro k0 h0 evs
    induction evs generalizing k0 with
    | nil => exact h0
    | cons ev evs ih =>
      refine ih (k0.step ev) ?_
      cases ev <;> simp only [Ticker.step, Ticker.poll] <;> repeat' split
      all_goals simp_all
  · intro hc
    generalize k = k at hc
    obtain ⟨iv, now, en, ca, ha, op, i, at_, out⟩ := k
    cases hc
    cases at_ <;> cases en <;> cases op <;> simp [Ticker.run, Ticker.step, Ticker.poll]

/-- **C62, the next tick.** A loop that is enabled, not told to stop, of a core that receives, sends a tick when the interval is over and it gets to run. -/
theorem C62_next {k : Ticker} (h1 : k.enabled = true) (h2 : k.cancel = false) (h3 : k.open_ = true) (h4 : k.at_ = .top) {d : Nat} (hd : k.interval ≤ d) :
    (k.run [.arm, .time d, .poll, .load, .send]).out = k.out ++ [(k.now + d, k.i + 1)] ∧ (k.run [.arm, .time d, .poll, .load, .send]).at_ = .top := by
  obtain ⟨iv, now, en, ca, ha, op, i, at_, out⟩ := k
  cases h1; cases h2; cases h3; cases h4
  simp [Ticker.run, Ticker.step, Ticker.poll, hd]

/-- **C62, the handle** is returned by the first `shutdown` only. -/
theorem C62_handle (interval : Nat) (b : Bool) (evs : List TkEv) :
    ((Ticker.spawn interval b).run evs).shutdownReturns = true ↔ TkEv.shutdown ∉ evs := by
  suffices h : ∀ k : Ticker, (k.run evs).handle = true ↔ k.handle = true ∧ TkEv.shutdown ∉ evs by
    unfold Ticker.shutdownReturns
    rw [h]; simp [Ticker.spawn]
  induction evs with
  | nil => intro k; simp [Ticker.run]
  | cons ev evs ih =>
    intro k
    show ((k.step ev).run evs).handle = true ↔ _
    rw [ih]
    have : (k.step ev).handle = true ↔ k.handle = true ∧ ev ≠ .shutdown := by
      cases ev <;> simp only [Ticker.step, Ticker.poll] <;> repeat' split
      all_goals simp
    rw [this, List.mem_cons]
    constructor
    · rintro ⟨⟨a, b⟩, c⟩; exact ⟨a, fun h => h.elim (fun h => b h.symm) c⟩
    · rintro ⟨a, b⟩; exact ⟨⟨a, fun h => b (Or.inl h.symm)⟩, fun h => b (Or.inr h)⟩

/-! ## Concrete cases -/

/-- a round of the loop, polled late by 5 -/
def round62 : List TkEv := [.arm, .time 100, .poll, .time 55, .poll, .load, .time 1, .send]
/-- one tick, a round in which it is switched off, then on -/
def evs62 : List TkEv := round62 ++ [.enable false] ++ round62 ++ [.enable true] ++ round62

/-- the ticks -/
example : ((Ticker.spawn 150 true).run evs62).out = [(156, 1), (468, 2)] := by decide
/-- switched off between the load and the sending: one more tick; nothing after that -/
theorem C62_off_one : let k := (Ticker.spawn 150 true).run [.arm, .time 150, .poll, .load, .enable false]
    k.enabled = false ∧ k.out.length = 0 ∧ (k.run ([.send] ++ round62 ++ round62)).out = [(150, 1)] := by decide
/-- told to stop after the sleep is done: one more tick -/
theorem C62_stopped_one : let k := (Ticker.spawn 150 true).run [.arm, .time 150, .poll, .shutdown]
    k.cancel = true ∧ k.out.length = 0 ∧ (k.run ([.load, .send] ++ round62)).out = [(150, 1)] ∧ (k.run ([.load, .send] ++ round62)).at_ = .ended := by decide
/-- spawned switched off, and switched on after two rounds -/
example : ((Ticker.spawn 150 false).run (round62 ++ round62)).out = [] ∧ ((Ticker.spawn 150 false).run (round62 ++ round62 ++ [.enable true] ++ round62)).out = [(468, 1)] :=
  ⟨C62_off_from_start 150 (by decide), by decide⟩
/-- told to stop while it waits, polled when the time is over: no tick -/
example : ((Ticker.spawn 150 true).run [.arm, .shutdown, .time 200, .poll, .load, .send]).out = [] := by decide
/-- the second call gets no handle -/
example : ((Ticker.spawn 150 true).run (evs62 ++ [.shutdown])).shutdownReturns = false ∧ ((Ticker.spawn 150 true).run evs62).shutdownReturns = true := by decide
/-- the next tick after these -/
example : (((Ticker.spawn 150 true).run evs62).run [.arm, .time 160, .poll, .load, .send]).out = [(156, 1), (468, 2), (628, 3)] :=
  (C62_next (by decide) (by decide) (by decide) (by decide) (by decide)).1
/-- a core that is gone ends the loop -/
example : ((Ticker.spawn 150 true).run (evs62 ++ [.close] ++ round62)).at_ = .ended ∧ ((Ticker.spawn 150 true).run (evs62 ++ [.close] ++ round62)).out.length = 2 := by decide

end Openraft.Props
