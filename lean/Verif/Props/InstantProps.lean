import Verif.Rt.Instant

/-!
# C61: an instant in the metrics survives being written and read

The clocks of a machine are two functions of the moment (in nanoseconds of real time). Writing looks at the system clock at one moment and at the
monotonic clock at a later one, and so does reading.
-/

set_option autoImplicit false

namespace Openraft.Props
open Openraft.Rt

/-- the clocks of a machine -/
structure Clocks where
  wall : Nat → Int
  mono : Nat → Int

/-- the monotonic clock does not go back, and not faster than time -/
def Clocks.Mono (c : Clocks) : Prop := ∀ x y, x ≤ y → 0 ≤ c.mono y - c.mono x ∧ c.mono y - c.mono x ≤ (y : Int) - x

/-- the system clock is not set: both clocks move alike -/
def Clocks.Steady (c : Clocks) : Prop := ∀ x y, c.wall y - c.wall x = c.mono y - c.mono x

/-- two numbers are at most `g` apart -/
def Near (g : Int) (a b : Int) : Prop := a - b ≤ g ∧ b - a ≤ g

/-- `t` is written on a machine with the clocks `a` and is read back as `t'` on one with the clocks `b`; in both cases the clocks are looked at within `g` -/
def Copied (pa pb : Ranges) (a b : Clocks) (g : Nat) (t t' : Int) : Prop :=
  ∃ x1 x2 y1 y2 v, x1 ≤ x2 ∧ x2 ≤ x1 + g ∧ y1 ≤ y2 ∧ y2 ≤ y1 + g ∧
    serInstant pa (a.wall x1) (a.mono x2) t = .ok v ∧ deInstant pb (b.wall y1) (b.mono y2) v = .ok t'

/-- **C61.** An instant that is written and read by the same process is the same up to the time it takes to look at both clocks
(`metrics/serde_instant.rs:13-15`: typically less than a microsecond). -/
def C61_statement : Prop := ∀ (p : Ranges) (c : Clocks) (g : Nat) (t t' : Int), c.Mono → Copied p p c c g t t' → Near g t' t

/-- **What is read back**, exactly: the instant moves by as much as the difference of the two clocks was another one. In particular the
cast to `u64` and back loses nothing, also before 1970. -/
theorem C61_exact {pa pb : Ranges} {sys1 now1 sys2 now2 t t' : Int} {v : Nat} (h1 : serInstant pa sys1 now1 t = .ok v)
    (h2 : deInstant pb sys2 now2 v = .ok t') : t' - t = (sys1 - now1) - (sys2 - now2) := by
  rw [serInstant_eq] at h1
  split at h1
  · split at h1
    · next hi =>
      cases h1
      rw [deInstant_eq] at h2
      split at h2
      · cases h2
        rw [(asI64_asU64 hi).1]
        omega
      · cases h2
    · cases h1
  · cases h1

/-- **C61, if the system clock is not set**, on one machine.

Missing for C61: a system clock that is set, or slewed, between writing and reading: then the instant moves as well (`C61_false`). -/
theorem C61_steady_partial {pa pb : Ranges} {c : Clocks} {g : Nat} {t t' : Int} (hm : c.Mono) (hs : c.Steady) (h : Copied pa pb c c g t t') : Near g t' t := by
  obtain ⟨x1, x2, y1, y2, v, hx, hx', hy, hy', h1, h2⟩ := h
  have k := C61_exact h1 h2
  have m1 := hm x1 x2 hx
  have m2 := hm y1 y2 hy
  have s1 := hs x1 y1
  unfold Near
  omega

/-- **C61, on another machine.** What machine `a` calls `t`, a moment `x`, is read on machine `b` as what `b` calls this moment, up to the time it takes to
look at the clocks and the difference of the system clocks at that moment. -/
theorem C61_elsewhere {pa pb : Ranges} {a b : Clocks} {g : Nat} {t t' : Int} (ha : a.Mono) (hb : b.Mono) (sa : a.Steady) (sb : b.Steady)
    (h : Copied pa pb a b g t t') {x : Nat} (hx : t = a.mono x) {d : Int} (hd : Near d (a.wall x) (b.wall x)) : Near (g + d) t' (b.mono x) := by
  obtain ⟨x1, x2, y1, y2, v, hx1, hx', hy, hy', h1, h2⟩ := h
  have k := C61_exact h1 h2
  have m1 := ha x1 x2 hx1
  have m2 := hb y1 y2 hy
  have s1 := sa x x1
  have s2 := sb x y1
  unfold Near at *
  omega

/-- **When writing fails.** If the system time is representable, writing fails just if the nanoseconds do not fit in an `i64`, with an error;
reading fails just if the instant is not representable, with a panic. -/
theorem C61_errors (p : Ranges) (sys now : Int) :
    (∀ t, p.system.Has (t + (sys - now)) → p.chrono.Has (t + (sys - now)) →
      ((∃ v, serInstant p sys now t = .ok v ∧ v < 2 ^ 64) ↔ -2 ^ 63 ≤ t + (sys - now) ∧ t + (sys - now) < 2 ^ 63) ∧
      (serInstant p sys now t = .error .range ↔ ¬ (-2 ^ 63 ≤ t + (sys - now) ∧ t + (sys - now) < 2 ^ 63))) ∧
    (∀ s, p.system.Has s → -2 ^ 63 ≤ s → s < 2 ^ 63 →
      deInstant p sys now (asU64 s) = if p.instant.Has (now + (s - sys)) then .ok (now + (s - sys)) else .error .panic) := by
  refine ⟨fun t h1 h2 => ?_, fun s h1 h2 h3 => ?_⟩
  · rw [serInstant_eq, if_pos ⟨h1, h2⟩]
    have hi : i64.Has (t + (sys - now)) ↔ -2 ^ 63 ≤ t + (sys - now) ∧ t + (sys - now) < 2 ^ 63 := by
      unfold TRange.Has; simp only [i64]; omega
    by_cases hk : i64.Has (t + (sys - now))
    · rw [if_pos hk]
      exact ⟨⟨fun _ => hi.1 hk, fun _ => ⟨_, rfl, (asI64_asU64 hk).2⟩⟩, ⟨fun h => (by cases h), fun h => absurd (hi.1 hk) h⟩⟩
    · rw [if_neg hk]
      exact ⟨⟨fun ⟨v, h, _⟩ => (by cases h), fun h => absurd (hi.2 h) hk⟩, ⟨fun _ h => hk (hi.2 h), fun _ => rfl⟩⟩
  · have hi : i64.Has s := by unfold TRange.Has; simp only [i64]; omega
    rw [deInstant_eq, (asI64_asU64 hi).1]
    rw [show s - (sys - now) = now + (s - sys) by omega]
    simp [h1]

/-- **Every number** that is read, in whatever way it came, is written again as the same number at the same moment. -/
theorem C61_number {p : Ranges} {sys now t : Int} {v : Nat} (hv : v < 2 ^ 64) (hc : p.chrono.Has (t + (sys - now))) (h : deInstant p sys now v = .ok t) :
    serInstant p sys now t = .ok v := by
  rw [deInstant_eq] at h
  split at h
  · next hk =>
    have ht : asI64 v - (sys - now) = t := Except.ok.inj h
    have he : t + (sys - now) = asI64 v := by omega
    rw [he] at hc
    rw [serInstant_eq, he, if_pos ⟨hk.1, hc⟩, if_pos (asU64_asI64 hv).2, (asU64_asI64 hv).1]
  · cases h

/-- `elapsed` and `saturating_duration_since` take any two instants: an instant that is read may be in the future. -/
theorem C61_elapsed (now t : Int) : instElapsed now t = max 0 (now - t) ∧ satSince now t = max 0 (now - t) := by
  unfold instElapsed satSince
  omega

/-! ## Concrete cases -/

/-- numbers as on Linux: seconds are `i64` for both clocks; `chrono` has about 262000 years -/
def linux61 : Ranges := ⟨⟨-(2 ^ 63) * 10 ^ 9, 2 ^ 63 * 10 ^ 9 - 1⟩, ⟨-(2 ^ 63) * 10 ^ 9, 2 ^ 63 * 10 ^ 9 - 1⟩, ⟨-8334601228800 * 10 ^ 9, 8210266876799 * 10 ^ 9⟩⟩
/-- a platform on which an instant is a time since the start of the machine, not less -/
def boot61 : Ranges := { linux61 with instant := ⟨0, 2 ^ 64⟩ }
/-- 2024-07-24, by the test in the code -/
def day61 : Int := 1721829051211301916

/-- clocks that are not set: the machine was started 1000 s before the day -/
def ok61 : Clocks := ⟨fun x => day61 + x, fun x => 1000 * 10 ^ 9 + x⟩
/-- clocks of which the system clock is set forward by one second, at the moment 500 -/
def set61 : Clocks := ⟨fun x => day61 + x + if x < 500 then 0 else 10 ^ 9, fun x => 1000 * 10 ^ 9 + x⟩
/-- another machine, started one second before the day, its system clock 3 ms ahead -/
def other61 : Clocks := ⟨fun x => day61 + 3 * 10 ^ 6 + x, fun x => 10 ^ 9 + x⟩

theorem ok61_mono : ok61.Mono := by intro x y h; simp only [ok61]; omega
theorem ok61_steady : ok61.Steady := by intro x y; simp only [ok61]; omega
theorem set61_mono : set61.Mono := by intro x y h; simp only [set61]; omega
theorem other61_mono : other61.Mono := by intro x y h; simp only [other61]; omega
theorem other61_steady : other61.Steady := by intro x y; simp only [other61]; omega

/-- the instant 42 ns ago is written, with 30 ns between the clocks, and read later with 70: it is 40 ns later -/
theorem copied61 : Copied linux61 linux61 ok61 ok61 100 (ok61.mono 0) (ok61.mono 0 + 40) :=
  ⟨42, 72, 1000, 1070, (day61 - 30).toNat, by decide, by decide, by decide, by decide, by rfl, by rfl⟩
example : Near 100 (ok61.mono 0 + 40) (ok61.mono 0) := C61_steady_partial ok61_mono ok61_steady copied61

/-- the same on another machine, where the moment is another instant -/
theorem copied61' : Copied linux61 linux61 ok61 other61 100 (ok61.mono 0) (other61.mono 0 - 3 * 10 ^ 6 + 40) :=
  ⟨42, 72, 1000, 1070, (day61 - 30).toNat, by decide, by decide, by decide, by decide, by rfl, by rfl⟩
example : Near (100 + 3 * 10 ^ 6) (other61.mono 0 - 3 * 10 ^ 6 + 40) (other61.mono 0) :=
  C61_elsewhere ok61_mono other61_mono ok61_steady other61_steady copied61' rfl (d := 3 * 10 ^ 6) (by unfold Near; decide +kernel)

/-- **C61 is false**: the system clock is set forward by a second between writing and reading, and the instant moves back by a second. -/
theorem C61_false : ¬ C61_statement := by
  intro h
  have k : Near 100 (set61.mono 0 - 10 ^ 9) (set61.mono 0) := h linux61 set61 100 (set61.mono 0) (set61.mono 0 - 10 ^ 9) set61_mono
    ⟨42, 72, 1000, 1030, (day61 - 30).toNat, by decide, by decide, by decide, by decide, by rfl, by rfl⟩
  unfold Near at k
  revert k
  decide +kernel

/-- **The order of two instants is not kept**: `t` before `u`, written one after the other, are read in the other order. -/
theorem C61_order : ∃ t u t' u', t < u ∧ Copied linux61 linux61 ok61 ok61 100 t t' ∧ Copied linux61 linux61 ok61 ok61 100 u u' ∧ u' < t' :=
  ⟨ok61.mono 0, ok61.mono 10, ok61.mono 0 + 40, ok61.mono 10 - 60, by decide +kernel, copied61,
    ⟨200, 270, 1000, 1010, (day61 - 60).toNat, by decide, by decide, by decide, by decide, by rfl, by rfl⟩, by decide +kernel⟩

/-- **Reading may panic**: a moment before the start of the machine that reads, where an instant cannot be before that. -/
theorem C61_panic : ∃ v, serInstant linux61 (ok61.wall 42) (ok61.mono 72) (ok61.mono 0 - 60 * 10 ^ 9) = .ok v ∧
    deInstant boot61 (other61.wall 1000) (other61.mono 1070) v = .error .panic :=
  ⟨(day61 - 30 - 60 * 10 ^ 9).toNat, by rfl, by rfl⟩

/-- before 1970, and too late: 300 years after 1970 -/
example : serInstant linux61 (-5) 10 3 = .ok (2 ^ 64 - 12) ∧ deInstant linux61 (-5) 10 (2 ^ 64 - 12) = .ok 3 := ⟨by rfl, by rfl⟩
example : serInstant linux61 (300 * 365 * 86400 * 10 ^ 9) 10 3 = .error .range := by rfl
example : serInstant linux61 day61 7 ((300 : Int)) = .ok ((day61 + 293).toNat) := by rfl

end Openraft.Props
