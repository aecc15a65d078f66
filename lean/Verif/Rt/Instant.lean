/-!
# Instants in metrics

`metrics/serde_instant.rs`: an instant of the monotonic clock is written as nanoseconds since 1970, by the difference of the two clocks at this moment, and read back in
the same way, in this or another process.

Simplifications: instants, times and durations are whole nanoseconds, as `Instant` and `SystemTime` have them on the platforms of `std`; an instant is a number of
nanoseconds from any origin. What can be represented depends on the platform: `Ranges`. A result outside of it is a panic of the operator.
The number in between (JSON or another format) is taken as it is.
-/

set_option autoImplicit false

namespace Openraft.Rt

/-- the least and the greatest number that can be represented -/
structure TRange where
  lo : Int
  hi : Int
deriving DecidableEq, Repr

/-- it is one of them -/
def TRange.Has (r : TRange) (x : Int) : Prop := r.lo ≤ x ∧ x ≤ r.hi
instance (r : TRange) (x : Int) : Decidable (r.Has x) := inferInstanceAs (Decidable (_ ∧ _))

/-- a platform: `Instant`, `SystemTime`, and `chrono::DateTime` -/
structure Ranges where
  instant : TRange
  system : TRange
  chrono : TRange
deriving DecidableEq, Repr

/-- what can go wrong -/
inductive TimeErr where
  /-- an operator of `Instant` or `SystemTime` panics, or the conversion to `DateTime` -/
  | panic
  /-- `time out of range`, `metrics/serde_instant.rs:102` -/
  | range
deriving DecidableEq, Repr

/-- `+` and `-` of a time and a duration, with the result `x` -/
def TRange.op (r : TRange) (x : Int) : Except TimeErr Int := if r.Has x then .ok x else .error .panic

/-- the numbers of `i64` -/
def i64 : TRange := ⟨-2 ^ 63, 2 ^ 63 - 1⟩

/-- `as u64` of an `i64` -/
def asU64 (x : Int) : Nat := (x % 2 ^ 64).toNat
/-- `as i64` of an `u64` -/
def asI64 (n : Nat) : Int := if n < 2 ^ 63 then (n : Int) else (n : Int) - 2 ^ 64

/-- the system time of an instant: `sys` and `now` are what the clocks say, `metrics/serde_instant.rs:87-98`; the same in
`display_ext/display_instant.rs:44-55` -/
def toSystem (p : Ranges) (sys now t : Int) : Except TimeErr Int :=
  if now ≥ t then p.system.op (sys - (now - t)) else p.system.op (sys + (t - now))

/-- `SerdeInstant::serialize`, `metrics/serde_instant.rs:84-105` -/
def serInstant (p : Ranges) (sys now t : Int) : Except TimeErr Nat := do
  let s ← toSystem p sys now t
  let d ← p.chrono.op s
  if i64.Has d then pure (asU64 d) else throw .range

/-- `visit_u64`, `metrics/serde_instant.rs:122-137`. `from_timestamp_nanos` takes every `i64`; `duration_since` does not fail in either branch. -/
def deInstant (p : Ranges) (sys now : Int) (n : Nat) : Except TimeErr Int := do
  let s ← p.system.op (asI64 n)
  if s > sys then p.instant.op (now + (s - sys)) else p.instant.op (now - (sys - s))

/-- `Instant::elapsed`, `instant.rs:42-49` -/
def instElapsed (now t : Int) : Int := if now > t then now - t else 0
/-- `Instant::saturating_duration_since`, `instant.rs:53-59` -/
def satSince (t earlier : Int) : Int := if t > earlier then t - earlier else 0

/-! ## Facts -/

theorem asI64_asU64 {x : Int} (h : i64.Has x) : asI64 (asU64 x) = x ∧ asU64 x < 2 ^ 64 := by
  obtain ⟨h1, h2⟩ := h
  simp only [i64] at h1 h2
  unfold asI64 asU64
  split <;> omega

theorem asU64_asI64 {n : Nat} (h : n < 2 ^ 64) : asU64 (asI64 n) = n ∧ i64.Has (asI64 n) := by
  unfold asI64 asU64 TRange.Has
  simp only [i64]
  split <;> omega

theorem op_ok {r : TRange} {x y : Int} : r.op x = .ok y ↔ r.Has x ∧ y = x := by
  unfold TRange.op
  split
  · next h => simp [h, eq_comm]
  · next h => simp [h]

theorem toSystem_ok {p : Ranges} {sys now t s : Int} : toSystem p sys now t = .ok s ↔ p.system.Has s ∧ s = t + (sys - now) := by
  unfold toSystem
  split
  · rw [op_ok, show sys - (now - t) = t + (sys - now) by omega]
    exact ⟨fun ⟨a, b⟩ => ⟨b ▸ a, b⟩, fun ⟨a, b⟩ => ⟨b ▸ a, b⟩⟩
  · rw [op_ok, show sys + (t - now) = t + (sys - now) by omega]
    exact ⟨fun ⟨a, b⟩ => ⟨b ▸ a, b⟩, fun ⟨a, b⟩ => ⟨b ▸ a, b⟩⟩

theorem serInstant_eq (p : Ranges) (sys now t : Int) : serInstant p sys now t =
    if p.system.Has (t + (sys - now)) ∧ p.chrono.Has (t + (sys - now)) then
      if i64.Has (t + (sys - now)) then .ok (asU64 (t + (sys - now))) else .error .range
    else .error .panic := by
  have h1 : toSystem p sys now t = p.system.op (t + (sys - now)) := by
    unfold toSystem
    split
    · rw [show sys - (now - t) = t + (sys - now) by omega]
    · rw [show sys + (t - now) = t + (sys - now) by omega]
  unfold serInstant
  rw [h1]
  unfold TRange.op
  by_cases ha : p.system.Has (t + (sys - now)) <;> by_cases hb : p.chrono.Has (t + (sys - now)) <;>
    simp [ha, hb, bind, Except.bind, pure, Except.pure, throw, throwThe, MonadExceptOf.throw]

theorem deInstant_eq (p : Ranges) (sys now : Int) (n : Nat) : deInstant p sys now n =
    if p.system.Has (asI64 n) ∧ p.instant.Has (asI64 n - (sys - now)) then .ok (asI64 n - (sys - now)) else .error .panic := by
  unfold deInstant
  have h1 : ∀ s : Int, (if s > sys then p.instant.op (now + (s - sys)) else p.instant.op (now - (sys - s))) = p.instant.op (s - (sys - now)) := by
    intro s
    split
    · rw [show now + (s - sys) = s - (sys - now) by omega]
    · rw [show now - (sys - s) = s - (sys - now) by omega]
  simp only [h1]
  unfold TRange.op
  by_cases ha : p.system.Has (asI64 n) <;> by_cases hb : p.instant.Has (asI64 n - (sys - now)) <;>
    simp [ha, hb, bind, Except.bind]

end Openraft.Rt
