import Verif.Rt.Balancer
import Mathlib.Logic.Function.Iterate

/-!
# C37: the event loop serves both queues
-/

set_option autoImplicit false

namespace Openraft.Props
open Openraft.Rt

variable {M : Type}

theorem bal_inv {total : Nat} (ht : 10 ≤ total) {s : Loop M} (h : LoopRun total s) :
    s.bal.total = total ∧ 1 ≤ s.bal.raftMsg ∧ s.bal.raftMsg ≤ total / 2 := by
  induction h with
  | start => simp only [Balancer.new]; exact ⟨trivial, by omega, by omega⟩
  | arrive _ _ _ ih => exact ih
  | @turn s t _ arrA arrN ht' ih =>
    obtain ⟨h1, h2, h3⟩ := ih
    simp only [Rt.turn] at ht'
    split at ht'
    · cases ht'
    · injection ht' with ht'; subst ht'
      simp only
      split
      · simp only [Balancer.increaseNotification]
        refine ⟨h1, ?_, ?_⟩
        · split <;> omega
        · split <;> omega
      · split
        · simp only [Balancer.increaseRaftMsg]
          rw [h1]
          refine ⟨rfl, ?_, ?_⟩
          · split <;> omega
          · split <;> omega
        · exact ⟨h1, h2, h3⟩

theorem drainFrom_spec (arr : Nat → List M) : ∀ (fuel i : Nat) (q acc : List M),
    ∃ n, n ≤ fuel ∧ (drainFrom arr i fuel q acc).handled.length = acc.length + n ∧
      acc <+: (drainFrom arr i fuel q acc).handled ∧
      (∀ k, k < fuel → k < q.length → (drainFrom arr i fuel q acc).handled[acc.length + k]? = q[k]?) ∧
      (fuel ≤ q.length → n = fuel) ∧ (q.length ≤ fuel → q.length ≤ n) ∧
      q.drop n <+: (drainFrom arr i fuel q acc).rest := by
  intro fuel
  induction fuel with
  | zero =>
    intro i q acc
    exact ⟨0, by omega, by simp [drainFrom], by simp [drainFrom], by omega, by omega,
      by omega, by simp [drainFrom]⟩
  | succ f ih =>
    intro i q acc
    simp only [drainFrom]
    split
    · rename_i h
      have hq : q = [] := by
        cases q with
        | nil => rfl
        | cons => simp at h
      subst hq
      exact ⟨0, by omega, by simp, by simp, by simp, by simp, by simp, by simp⟩
    · rename_i m q' h
      obtain ⟨n, h1, h2, h3, h4, h5, h6, h7⟩ := ih (i + 1) q' (acc ++ [m])
      have hq' : ∀ k, k < q.length → (m :: q')[k]? = q[k]? := by
        intro k hk
        rw [← h, List.getElem?_append_left hk]
      have hlen : q.length ≤ q'.length + 1 := by
        have := congrArg List.length h
        simp at this; omega
      refine ⟨n + 1, by omega, by rw [h2]; simp; omega,
        (List.prefix_append acc [m]).trans h3, ?_, ?_, ?_, ?_⟩
      · intro k hk hkq
        cases k with
        | zero =>
          obtain ⟨r, hr⟩ := h3
          rw [← hr]
          have := hq' 0 hkq
          simp at this
          simp [← this]
        | succ k =>
          have := h4 k (by omega) (by omega)
          rw [List.length_append] at this
          rw [show acc.length + (k + 1) = acc.length + [m].length + k by simp; omega, this]
          have := hq' (k + 1) hkq
          simpa using this
      · intro hf
        have := h5 (by omega)
        omega
      · intro hf
        by_cases h0 : q.length ≤ n + 1
        · exact h0
        · by_cases h8 : q'.length ≤ f
          · have := h6 h8; omega
          · have := h5 (by omega); omega
      · refine List.IsPrefix.trans ?_ h7
        cases q with
        | nil => simp
        | cons x xs =>
          simp only [List.cons_append, List.cons.injEq] at h
          rw [← h.2]
          simp only [List.drop_succ_cons, List.drop_append]
          exact List.prefix_append _ _

/-- **C37 (budgets).** In every state of the event loop both queues have at least one slot, the two
budgets add up to the configured total, and notifications always keep at least half of it.
The code uses `total = 10_000` (`core/raft_core.rs:908`). -/
theorem C37_budgets {total : Nat} (ht : 10 ≤ total) {s : Loop M} (h : LoopRun total s) :
    1 ≤ s.bal.raftMsg ∧ 1 ≤ s.bal.notification ∧
      s.bal.raftMsg + s.bal.notification = total ∧ total ≤ 2 * s.bal.notification := by
  obtain ⟨h1, h2, h3⟩ := bal_inv ht h
  simp only [Balancer.notification, h1]
  omega

/-- **C37 (service).** Every turn handles at least one waiting message of each non-empty queue, in
queue order, and at most `total` messages besides the one that woke the loop up. -/
theorem C37_turn_serves_both {total : Nat} (ht : 10 ≤ total) {s : Loop M} (h : LoopRun total s)
    {arrA arrN : Nat → List M} {t : Turn M} (e : turn s arrA arrN = some t) :
    (∀ m, s.api.head? = some m → t.apiHandled.head? = some m) ∧
    (∀ m, s.ntf.head? = some m → t.ntfHandled.head? = some m) ∧
    t.apiHandled.length + t.ntfHandled.length ≤ total + 1 := by
  obtain ⟨b1, b2, b3, _⟩ := C37_budgets ht h
  have hz : ∀ (k : Nat) (arr : Nat → List M) (q : List M), 1 ≤ k →
      ∀ m, q.head? = some m → (drain k arr q).handled.head? = some m := by
    intro k arr q hk m hm
    obtain ⟨n, _, _, _, h4, _⟩ := drainFrom_spec arr k 0 q []
    cases q with
    | nil => simp at hm
    | cons x xs =>
      have := h4 0 (by omega) (by simp)
      simp only [List.length_nil, Nat.zero_add, List.getElem?_cons_zero] at this
      rw [List.head?_eq_getElem?]
      simp only [List.head?_cons] at hm
      rw [← hm]; exact this
  have hl : ∀ (k : Nat) (arr : Nat → List M) (q : List M),
      (drain k arr q).handled.length ≤ k := by
    intro k arr q
    obtain ⟨n, h1, h2, _⟩ := drainFrom_spec arr k 0 q []
    simp only [drain]
    simp at h2; omega
  simp only [turn, wake] at e
  rcases hn : s.ntf with _ | ⟨n, ns⟩
  · rcases ha : s.api with _ | ⟨a, as⟩
    · simp [hn, ha] at e
    · simp only [hn, ha] at e
      injection e with e; subst e
      refine ⟨by simp, by simp, ?_⟩
      have h1 := hl s.bal.raftMsg arrA as
      have h2 := hl s.bal.notification arrN []
      simp; omega
  · simp only [hn] at e
    injection e with e; subst e
    refine ⟨?_, by simp, ?_⟩
    · intro m hm
      simpa using hz _ arrA s.api b1 m hm
    · have h1 := hl s.bal.raftMsg arrA s.api
      have h2 := hl s.bal.notification arrN ns
      simp; omega

/-- The position of a message in a queue shrinks with every turn: whatever is in place `k` of the
API queue is either handled in this turn or in a place `< k` afterwards. -/
theorem C37_position_shrinks {total : Nat} (ht : 10 ≤ total) {s : Loop M} (h : LoopRun total s)
    {arrA arrN : Nat → List M} {t : Turn M} (e : turn s arrA arrN = some t) {k : Nat} {m : M}
    (hk : s.api[k]? = some m) :
    t.apiHandled[k]? = some m ∨ ∃ j, j < k ∧ t.st.api[j]? = some m := by
  obtain ⟨b1, b2, b3, _⟩ := C37_budgets ht h
  have key : ∀ (b : Nat) (arr : Nat → List M) (q : List M) (k : Nat), 1 ≤ b → q[k]? = some m →
      (drain b arr q).handled[k]? = some m ∨ ∃ j, j < k ∧ (drain b arr q).rest[j]? = some m := by
    intro b arr q k hb hq
    obtain ⟨n, h1, h2, _, h4, h5, h6, r, h7⟩ := drainFrom_spec arr b 0 q []
    have hkl : k < q.length := by
      by_contra hc
      rw [List.getElem?_eq_none (by omega)] at hq
      cases hq
    by_cases hkb : k < b
    · left
      have := h4 k hkb hkl
      simp only [List.length_nil, Nat.zero_add] at this
      rw [drain, this, hq]
    · right
      have hn : n = b := h5 (by omega)
      refine ⟨k - b, by omega, ?_⟩
      have hlt : k - b < (q.drop n).length := by simp; omega
      rw [drain, ← h7, List.getElem?_append_left hlt, List.getElem?_drop, hn,
        show b + (k - b) = k by omega, hq]
  simp only [turn, wake] at e
  rcases hn : s.ntf with _ | ⟨n, ns⟩
  · rcases ha : s.api with _ | ⟨a, as⟩
    · simp [ha] at hk
    · simp only [hn, ha] at e
      injection e with e; subst e
      rw [ha] at hk
      cases k with
      | zero => left; simpa using hk
      | succ k =>
        simp only [List.getElem?_cons_succ] at hk
        rcases key _ arrA _ _ b1 hk with h | ⟨j, h1, h2⟩
        · left; simpa using h
        · right; exact ⟨j, by omega, h2⟩
  · simp only [hn] at e
    injection e with e; subst e
    simpa using key _ arrA _ _ b1 hk

/-- `n` turns with arbitrary arrivals; the API messages handled during them are collected. -/
inductive Turns : Loop M → Nat → List M → Loop M → Prop
  | zero (s : Loop M) : Turns s 0 [] s
  | arrive {s s' : Loop M} {n : Nat} {out : List M} (a b : List M)
      (r : Turns { s with api := s.api ++ a, ntf := s.ntf ++ b } n out s') : Turns s n out s'
  | turn {s s' : Loop M} {n : Nat} {out : List M} {t : Turn M} (arrA arrN : Nat → List M)
      (ht : Rt.turn s arrA arrN = some t) (r : Turns t.st n out s') :
      Turns s (n + 1) (t.apiHandled ++ out) s'

/-- **C37 (no starvation).** An API message with `k` messages in front of it is handled within
`k + 1` turns, however many notifications and further messages arrive. -/
theorem C37_no_starvation {total : Nat} (ht : 10 ≤ total) {s s' : Loop M} (h : LoopRun total s)
    {k n : Nat} {m : M} (hk : s.api[k]? = some m) {out : List M} (r : Turns s n out s')
    (hn : k < n) : m ∈ out := by
  induction r generalizing k with
  | zero => omega
  | arrive a b _ ih =>
    refine ih (h.arrive a b) ?_ hn
    have : k < List.length _ := (List.getElem?_eq_some_iff.1 hk).1
    simp only
    rw [List.getElem?_append_left this]
    exact hk
  | turn arrA arrN e _ ih =>
    rcases C37_position_shrinks ht h e hk with h1 | ⟨j, h1, h2⟩
    · exact List.mem_append_left _ (List.mem_of_getElem? h1)
    · exact List.mem_append_right _ (ih (h.turn arrA arrN e) h2 (by omega))

/-- **C37 (no overflow).** All products formed by the balancer stay below `17 · total / 2`, so with
`total = 10_000` no `u64` operation overflows. -/
theorem C37_no_overflow {s : Loop M} (h : LoopRun 10000 s) :
    s.bal.raftMsg * 17 < 2 ^ 64 ∧ s.bal.raftMsg ≤ s.bal.total := by
  obtain ⟨h1, _, h3⟩ := bal_inv (by omega) h
  rw [h1]
  omega

/-- A case with non-empty queues and a re-balance in each direction. -/
example : (turn ⟨Balancer.new 20, [1, 2, 3, 4], [5, 6]⟩ (fun _ => []) (fun _ => [])).map
      (fun t => (t.apiHandled, t.ntfHandled, t.st.api, t.st.bal.raftMsg)) =
    some ([1, 2], [5, 6], [3, 4], 2) := by decide

example : ((turn ⟨⟨40, 16⟩, [1], (List.range 60)⟩ (fun _ => []) (fun _ => [])).map
      (fun t => (t.ntfHandled.length, t.st.bal.raftMsg))) = some (25, 15) := by decide

/-- The budgets need `total ≥ 10`: a smaller total leaves API messages without a slot. -/
theorem C37_small_total : ∃ s : Loop Nat, LoopRun 9 s ∧ s.bal.raftMsg = 0 :=
  ⟨⟨Balancer.new 9, [], []⟩, .start [] [], by decide⟩

/-- **C37 (finding).** The share of API messages is not adaptive in both directions: once it has
fallen below 16 of 10 000 (after a long burst of notifications) it never grows again, because
`r * 17 / 16 = r` for `r < 16`. -/
theorem C37_share_never_recovers {total : Nat} (ht : 10 ≤ total) {s : Loop M}
    (h : LoopRun total s) (hlow : s.bal.raftMsg < 16) {n : Nat} {out : List M} {s' : Loop M}
    (r : Turns s n out s') : s'.bal.raftMsg ≤ s.bal.raftMsg := by
  induction r with
  | zero => exact Nat.le_refl _
  | arrive a b _ ih => exact ih (h.arrive a b) hlow
  | @turn s s' n out t arrA arrN e _ ih =>
    have hle : t.st.bal.raftMsg ≤ s.bal.raftMsg := by
      obtain ⟨h1, h2, h3⟩ := bal_inv ht h
      have e' := e
      simp only [Rt.turn] at e'
      split at e'
      · cases e'
      · injection e' with e'; subst e'
        simp only
        split
        · simp only [Balancer.increaseNotification]
          split <;> omega
        · split
          · simp only [Balancer.increaseRaftMsg]
            split <;> omega
          · exact Nat.le_refl _
    exact Nat.le_trans (ih (h.turn arrA arrN e) (by omega)) hle

theorem drainFrom_flood (m : M) : ∀ (fuel i : Nat) (q acc : List M),
    (drainFrom (fun _ => [m]) i fuel q acc).ret = i + fuel := by
  intro fuel
  induction fuel with
  | zero => intro i q acc; rfl
  | succ f ih =>
    intro i q acc
    simp only [drainFrom]
    split
    · rename_i h; simp at h
    · rw [ih]; omega

/-- The low share is reachable with the code's own total: a burst of notifications that fills every
budget for 150 turns brings the API share from 1 000 down below 16. -/
theorem C37_low_share_reachable :
    ∃ s : Loop Nat, LoopRun 10000 s ∧ s.bal.raftMsg < 16 := by
  have key : ∀ n : Nat, ∃ s : Loop Nat, LoopRun 10000 s ∧
      s.bal = (Balancer.increaseNotification)^[n] (Balancer.new 10000) := by
    intro n
    induction n with
    | zero => exact ⟨⟨Balancer.new 10000, [], []⟩, .start [] [], rfl⟩
    | succ n ih =>
      obtain ⟨s, h, e⟩ := ih
      have h' := h.arrive [] [0]
      obtain ⟨x, xs, hx⟩ : ∃ x xs, s.ntf ++ [0] = x :: xs := by
        cases s.ntf with
        | nil => exact ⟨_, _, rfl⟩
        | cons y ys => exact ⟨_, _, rfl⟩
      have ht : ∃ t, turn { s with api := s.api ++ [], ntf := s.ntf ++ [0] } (fun _ => [])
          (fun _ => [0]) = some t ∧ t.st.bal = s.bal.increaseNotification := by
        simp only [turn, wake, hx, drain, drainFrom_flood]
        exact ⟨_, rfl, by simp⟩
      obtain ⟨t, ht, hb⟩ := ht
      exact ⟨t.st, h'.turn _ _ ht, by rw [hb, e, Function.iterate_succ_apply']⟩
  obtain ⟨s, h, e⟩ := key 150
  refine ⟨s, h, ?_⟩
  rw [e]
  decide +kernel

end Openraft.Props
