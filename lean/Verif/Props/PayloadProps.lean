import Verif.Rt.Config
import Verif.Rt.Payload
import Verif.Repl.SessionInv
import Mathlib.Logic.Function.Iterate

/-!
# C38: accepted configurations; C39: replication payloads
-/

set_option autoImplicit false

namespace Openraft.Props
open Openraft Openraft.Rt
open Openraft.Repl (WfIds Has Entry LogView)

/-! ## C38 -/

/-- **C38.** What `validate` accepts is exactly `heartbeat < min < max` with a non-zero payload
limit, and it returns the configuration unchanged. -/
theorem C38_validate_exact (c : Config) :
    (∃ c', c.validate = .ok c') ↔
      c.heartbeatInterval < c.electionTimeoutMin ∧ c.electionTimeoutMin < c.electionTimeoutMax ∧
      0 < c.maxPayloadEntries := by
  unfold Config.validate
  constructor
  · rintro ⟨c', h⟩
    split at h
    · cases h
    · split at h
      · cases h
      · split at h
        · cases h
        · omega
  · rintro ⟨h1, h2, h3⟩
    rw [if_neg (by omega), if_neg (by omega), if_neg (by omega)]
    exact ⟨c, rfl⟩

theorem C38_validate_unchanged {c c' : Config} (h : c.validate = .ok c') : c' = c := by
  unfold Config.validate at h
  split at h
  · cases h
  · split at h
    · cases h
    · split at h
      · cases h
      · injection h with h; exact h.symm

/-- **C38.** For a validated configuration every random election timeout exists (`gen_range` does
not panic), lies in `[min, max)` and above the heartbeat interval, and every value of that interval
is possible. -/
theorem C38_rand_timeout {c c' : Config} (h : c.validate = .ok c') (r : Nat) :
    ∃ t, c.randElectionTimeout r = some t ∧ c.electionTimeoutMin ≤ t ∧ t < c.electionTimeoutMax ∧
      c.heartbeatInterval < t := by
  obtain ⟨h1, h2, h3⟩ := (C38_validate_exact c).1 ⟨c', h⟩
  have := Nat.mod_lt r (show 0 < c.electionTimeoutMax - c.electionTimeoutMin by omega)
  exact ⟨_, if_pos h2, by omega, by omega, by omega⟩

theorem C38_rand_timeout_all {c c' : Config} (h : c.validate = .ok c') {t : Nat}
    (h1 : c.electionTimeoutMin ≤ t) (h2 : t < c.electionTimeoutMax) :
    ∃ r, c.randElectionTimeout r = some t := by
  refine ⟨t - c.electionTimeoutMin, ?_⟩
  unfold Config.randElectionTimeout
  rw [if_pos (by omega), Nat.mod_eq_of_lt (by omega)]
  congr 1
  omega

/-- **C38 (derived times).** Without validation the engine configuration may not exist; with it, a
node waits longer than the lease of a leader before it competes because of an election timeout, and
a node that knows of a longer log waits longer than any other node's election timeout. -/
theorem C38_timer {c c' : Config} (h : c.validate = .ok c') (r r' : Nat) :
    ∃ t t', c.timer r = some t ∧ c.timer r' = some t' ∧ 0 < t.electionTimeout ∧
      t'.electionTimeout < t.smallerLogTimeout ∧ c.heartbeatInterval < t.leaderLease := by
  obtain ⟨x, hx, h1, h2, h3⟩ := C38_rand_timeout h r
  obtain ⟨y, hy, g1, g2, g3⟩ := C38_rand_timeout h r'
  refine ⟨_, _, by rw [Config.timer, hx]; rfl, by rw [Config.timer, hy]; rfl, ?_, ?_, ?_⟩ <;>
    simp <;> omega

/-- the default configuration is accepted; equal bounds are not and would make `gen_range` panic -/
example : (Config.mk 150 300 50 300 1000 1).validate = .ok ⟨150, 300, 50, 300, 1000, 1⟩ := by decide
example : (Config.mk 150 150 50 300 1000 1).validate = .error (.electionTimeout 150 150) ∧
    (Config.mk 150 150 50 300 1000 1).randElectionTimeout 3 = none := by decide
example : (Config.mk 150 300 150 300 1000 1).validate =
    .error (.electionTimeoutLTHeartBeat 150 150) := by decide
example : (Config.mk 150 300 50 0 1000 1).validate = .error .maxPayloadIs0 := by decide

/-! ## C39 -/

open Openraft.Repl (has_lt has_le has_next_le has_inj)

theorem limitedGet_length (log : List LogId) (start e lim : Nat) :
    (limitedGet log start e lim).length = min (lim + 1) (min (e - start) (log.length - start)) := by
  simp [limitedGet]

theorem limitedGet_get {log : List LogId} {start e lim k : Nat}
    (h : k < (limitedGet log start e lim).length) :
    (limitedGet log start e lim)[k]? = log[start + k]? := by
  rw [limitedGet_length] at h
  have h1 : k < lim + 1 := by omega
  have h2 : k < e - start := by omega
  simp only [limitedGet]
  rw [List.getElem?_take_of_lt h1, List.getElem?_take_of_lt h2, List.getElem?_drop]

/-- the end of the range that is read -/
theorem sendRange_end (s : Sender) : (sendRange s).1 = nextIndex s.prev ∧
    (sendRange s).2.1 ≤ nextIndex s.last ∧
    (0 < s.hint.ttl → (sendRange s).2.1 ≤ nextIndex s.prev + s.hint.n ∧
      (sendRange s).2.2 = ⟨s.hint.n, s.hint.ttl - 1⟩) ∧
    (s.hint.ttl = 0 → (sendRange s).2.1 = nextIndex s.last ∧ (sendRange s).2.2 = s.hint) ∧
    (nextIndex s.prev < nextIndex s.last → (s.hint.ttl = 0 ∨ 0 < s.hint.n) →
      nextIndex s.prev < (sendRange s).2.1) := by
  unfold sendRange Hint.get
  by_cases h : 0 < s.hint.ttl
  · simp only [gt_iff_lt, h, if_true]
    refine ⟨trivial, by omega, fun _ => ⟨by omega, trivial⟩, fun h0 => by omega, ?_⟩
    omega
  · have h0 : s.hint.ttl = 0 := by omega
    simp [h0]

/-- **C39 (shape of a request).** Whatever the storage limit and the hint: building a request from
an action `(prev, last]` of the leader's log does not abort; the request carries `prev` and the
entries that follow it in the log, consecutively, none beyond `last`; a hint that is in force bounds
their number; and unless a hint of zero is in force there is at least one entry. -/
theorem C39_request_shape {log : List LogId} (hw : WfIds log) {s : Sender} (hs : SenderOk log s)
    (lim : Nat) : ∃ r s', buildRequest log lim s = some (r, s') ∧ r.prev = s.prev ∧
      (∀ k l, r.entries[k]? = some l →
        log[nextIndex s.prev + k]? = some l ∧ l.index = nextIndex s.prev + k) ∧
      nextIndex s.prev + r.entries.length ≤ nextIndex s.last ∧
      (0 < s.hint.ttl → r.entries.length ≤ s.hint.n) ∧
      (s.hint.ttl = 0 ∨ 0 < s.hint.n → r.entries ≠ []) ∧
      s'.prev = s.prev ∧ s'.last = s.last ∧ s'.hint = ⟨s.hint.n, s.hint.ttl - 1⟩ := by
  obtain ⟨e1, e2, e3, e4, e5⟩ := sendRange_end s
  have hlt := (has_lt hw hs.prev hs.last).1 hs.lt
  have hll := has_next_le hs.last
  have hh : (sendRange s).2.2 = ⟨s.hint.n, s.hint.ttl - 1⟩ := by
    by_cases h : 0 < s.hint.ttl
    · exact (e3 h).2
    · have h0 : s.hint.ttl = 0 := by omega
      rw [(e4 h0).2]
      obtain ⟨sp, sl, hn, ht⟩ := s
      simp only at h0
      simp [h0]
  unfold buildRequest
  by_cases heq : (sendRange s).1 = (sendRange s).2.1
  · simp only [heq, if_true]
    refine ⟨_, _, rfl, rfl, by simp, by simp; omega, by simp, ?_, rfl, rfl, hh⟩
    intro h
    have := e5 hlt h
    omega
  · simp only [heq, if_false]
    have hne : (sendRange s).1 < (sendRange s).2.1 := by
      rcases Nat.eq_zero_or_pos s.hint.ttl with h | h
      · have := (e4 h).1; omega
      · by_cases h0 : 0 < s.hint.n
        · have := e5 hlt (Or.inr h0); omega
        · exfalso
          have h1 : (sendRange s).2.1 = nextIndex s.prev := by
            simp only [sendRange, Hint.get, gt_iff_lt, h, if_true]
            omega
          omega
    have hlen := limitedGet_length log (sendRange s).1 (sendRange s).2.1 lim
    have hget : ∀ k, k < (limitedGet log (sendRange s).1 (sendRange s).2.1 lim).length → _ :=
      fun k hk => limitedGet_get (log := log) hk
    cases hq : limitedGet log (sendRange s).1 (sendRange s).2.1 lim with
    | nil => rw [hq] at hlen; simp at hlen; omega
    | cons x xs =>
      rw [hq] at hlen hget
      simp only
      refine ⟨_, _, rfl, rfl, ?_, ?_, ?_, by simp, rfl, rfl, hh⟩
      · intro k l hk
        have hkl := (List.getElem?_eq_some_iff.1 hk).1
        have := hget k hkl
        simp only at hk
        rw [this, e1] at hk
        exact ⟨hk, hw.1 _ _ hk⟩
      · simp only; omega
      · intro h
        have := (e3 h).1
        simp only; omega

/-- **C39 (limit).** Every request that is built from an action chosen by `next_send` with limit
`max`, also after any part of the action was acknowledged, has at most `max` entries. -/
theorem C39_at_most_max {dbg exact : Bool} {s0 s : Repl.Sess} (h0 : Repl.Initial s0)
    (hx : dbg = true → exact = true) (h : Repl.Run dbg exact s0 s) {max lim : Nat} {e : Entry}
    (hs : s.entry.nextSend dbg s.view max = .ok (true, e)) {p l : Option LogId}
    (hi : e.inflight = .logs p l) {snd snd' : Sender} {r : Request} (hok : SenderOk s.view.ids snd)
    (hp : p ≤ snd.prev) (hl : snd.last = l) (hb : buildRequest s.view.ids lim snd = some (r, snd')) :
    r.entries.length ≤ max := by
  have inv := h.inv hx h0
  obtain ⟨r', s', hb', _, _, h1, _⟩ := C39_request_shape inv.wf hok lim
  rw [hb] at hb'; cases hb'
  have hni : s.entry.inflight = .none := by
    by_contra hc
    unfold Entry.nextSend at hs
    simp only [ne_eq, hc, not_false_eq_true, if_true, pure, Except.pure] at hs
    cases hs
  rcases Repl.nextSend_spec (dbg := dbg) inv.wf inv.purged_le inv.entry hni max with
    ⟨_, h2⟩ | ⟨_, start, _, _, _, ⟨_, h2⟩ | ⟨_, p', l', a1, a2, a3, a4, h2⟩⟩
  · rw [hs] at h2; cases h2; cases hi
  · rw [hs] at h2; cases h2
  · rw [hs] at h2; cases h2; cases hi
    rw [hl, a4] at h1
    have := (has_le inv.wf a1 hok.prev).1 hp
    have h3 : Nat.min (start + max) s.view.ids.length ≤ start + max := Nat.min_le_left _ _
    omega

/-- **C39 (progress).** After a success the action goes on strictly later than before, or is
finished because everything up to `last` was acknowledged. -/
theorem C39_success_progress {log : List LogId} (hw : WfIds log) {s : Sender} (hs : SenderOk log s)
    {lim : Nat} {r : Request} {s' : Sender} (hb : buildRequest log lim s = some (r, s'))
    (hne : r.entries ≠ []) :
    s.prev < r.lastId ∧ Has log r.lastId ∧
    ((onSuccess s' r = none ∧ r.lastId = s.last) ∨
     ∃ s2, onSuccess s' r = some s2 ∧ SenderOk log s2 ∧ s2.prev = r.lastId ∧ s2.last = s.last ∧
       s2.hint = s'.hint ∧ nextIndex s2.prev = nextIndex s.prev + r.entries.length) := by
  obtain ⟨r', s1, hb', _, h2, h3, _, _, g1, g2, _⟩ := C39_request_shape hw hs lim
  rw [hb] at hb'; cases hb'
  obtain ⟨x, hx⟩ : ∃ x, r.entries.getLast? = some x := by
    cases h : r.entries.getLast? with
    | none => rw [List.getLast?_eq_none_iff] at h; exact absurd h hne
    | some x => exact ⟨x, rfl⟩
  have hlast : r.lastId = some x := by simp only [Request.lastId, hx]
  have hpos : 0 < r.entries.length := List.length_pos_iff.2 hne
  rw [List.getLast?_eq_getElem?] at hx
  obtain ⟨k1, k2⟩ := h2 _ _ hx
  have hhas : Has log (some x) := by
    simp only [Has]; rw [k2]; exact k1
  have hnx : nextIndex (some x) = nextIndex s.prev + r.entries.length := by
    simp only [nextIndex_some]; omega
  rw [hlast]
  refine ⟨(has_lt hw hs.prev hhas).2 (by omega), hhas, ?_⟩
  simp only [onSuccess, Repl.nextAction, hlast, g2]
  by_cases hlt : some x < s.last
  · right
    rw [if_pos hlt]
    exact ⟨_, rfl, ⟨hhas, hs.last, hlt⟩, rfl, rfl, rfl, hnx⟩
  · left
    rw [if_neg hlt]
    refine ⟨rfl, ?_⟩
    have : nextIndex s.last ≤ nextIndex (some x) := by
      have := (has_lt hw hhas hs.last).not.1 hlt; omega
    exact has_inj hhas hs.last (by omega)

/-- **C39 (no progress, no loss).** When a request without entries succeeds (a hint of zero), the action goes on exactly where it
was: nothing is taken for acknowledged, and nothing is sent twice that was acknowledged. -/
theorem C39_empty_success {log : List LogId} (hw : WfIds log) {s : Sender} (hs : SenderOk log s)
    {lim : Nat} {r : Request} {s' : Sender} (hb : buildRequest log lim s = some (r, s')) (he : r.entries = []) :
    ∃ s2, onSuccess s' r = some s2 ∧ s2.prev = s.prev ∧ s2.last = s.last ∧ SenderOk log s2 := by
  obtain ⟨r', s1, hb', h1, _, _, _, _, g1, g2, _⟩ := C39_request_shape hw hs lim
  rw [hb] at hb'; cases hb'
  have hl : r.lastId = s.prev := by simp [Request.lastId, he, h1]
  simp only [onSuccess, Repl.nextAction, hl, g2, if_pos hs.lt]
  exact ⟨_, rfl, rfl, rfl, hs.prev, hs.last, hs.lt⟩

example : (buildRequest ((List.range 30).map fun i => ⟨⟨1, 1⟩, i⟩) 100
    ⟨some ⟨⟨1, 1⟩, 2⟩, some ⟨⟨1, 1⟩, 29⟩, ⟨0, 10⟩⟩).map (fun x => (x.1.entries, (onSuccess x.2 x.1).map (·.prev)))
    = some ([], some (some ⟨⟨1, 1⟩, 2⟩)) := by decide

/-- **C39 (the hint expires).** A hint is used for exactly ten requests. -/
theorem C39_hint_expires (s : Sender) (n k : Nat) :
    (((fun h : Hint => h.get.2)^[k]) (onTooLarge s n).hint).get.1 =
      if k < 10 then some n else none := by
  have : ∀ k, ((fun h : Hint => h.get.2)^[k]) ⟨n, 10⟩ = ⟨n, 10 - k⟩ := by
    intro k
    induction k with
    | zero => rfl
    | succ k ih =>
      rw [Function.iterate_succ_apply', ih]
      simp only [Hint.get]
      split
      · simp; omega
      · simp; omega
  rw [show (onTooLarge s n).hint = ⟨n, 10⟩ from rfl, this]
  unfold Hint.get
  by_cases h : k < 10
  · rw [if_pos (show 10 - k > 0 by omega), if_pos h]
  · rw [if_neg (show ¬ 10 - k > 0 by omega), if_neg h]

/-- what is left to do: entries not yet acknowledged, and whether the next request is limited -/
def work (s : Sender) : Nat :=
  2 * (nextIndex s.last - nextIndex s.prev) + if s.hint.ttl = 0 then 1 else 0

/-- **C39 (termination).** Against a network that refuses every request with more than `cap ≥ 1`
entries and answers with `cap` as the hint, an action is finished after a bounded number of requests
and never aborts, for every behaviour of the storage limit. -/
theorem C39_terminates {log : List LogId} (hw : WfIds log) {cap : Nat} (hcap : 0 < cap)
    (lims : Nat → Nat) {s : Sender} (hs : SenderOk log s)
    (hh : s.hint.ttl = 0 ∨ s.hint.n = cap) {n : Nat} (hn : work s ≤ n) :
    netRun log cap lims n s = some none := by
  induction n generalizing s with
  | zero =>
    have := (has_lt hw hs.prev hs.last).1 hs.lt
    unfold work at hn; omega
  | succ n ih =>
    obtain ⟨r, s1, hb, _, h2, h3, h4, h5, g1, g2, g3⟩ := C39_request_shape hw hs (lims n)
    have hlt := (has_lt hw hs.prev hs.last).1 hs.lt
    have hne : r.entries ≠ [] := h5 (by omega)
    have hpos : 0 < r.entries.length := List.length_pos_iff.2 hne
    simp only [netRun, netStep, hb]
    by_cases hc : r.entries.length ≤ cap
    · simp only [hc, if_true]
      obtain ⟨_, _, ⟨e1, _⟩ | ⟨s2, e1, e2, e3, e4, e5, e6⟩⟩ :=
        C39_success_progress hw hs hb hne
      · simp [e1]
      · simp only [e1]
        refine ih e2 ?_ ?_
        · rw [e5, g3]; simp only; omega
        · unfold work at hn ⊢
          rw [e4, e5, e6, g3]
          simp only
          split
          · split at hn <;> omega
          · split at hn <;> omega
    · simp only [hc, if_false]
      have ht : s.hint.ttl = 0 := by
        rcases hh with h | h
        · exact h
        · by_contra h0
          have := h4 (by omega)
          omega
      refine ih (s := onTooLarge s1 cap) ⟨by simpa [onTooLarge, g1] using hs.prev,
        by simpa [onTooLarge, g2] using hs.last, by simpa [onTooLarge, g1, g2] using hs.lt⟩
        (Or.inr rfl) ?_
      unfold work at hn ⊢
      simp only [onTooLarge, g1, g2]
      simp only [ht, if_true] at hn
      simp; omega

/-- a log of 30 entries, a network limit of 4 and a storage that returns at most 3 entries -/
example : netRun ((List.range 30).map fun i => ⟨⟨1, 1⟩, i⟩) 4 (fun _ => 2) 60
    ⟨some ⟨⟨1, 1⟩, 2⟩, some ⟨⟨1, 1⟩, 29⟩, Hint.default⟩ = some none := by decide

example : (buildRequest ((List.range 30).map fun i => ⟨⟨1, 1⟩, i⟩) 100
    ⟨some ⟨⟨1, 1⟩, 2⟩, some ⟨⟨1, 1⟩, 29⟩, ⟨2, 10⟩⟩).map (fun x => (x.1.entries.length, x.2.hint.ttl))
    = some (2, 9) := by decide

/-- **C39 (finding).** A hint of zero (`PayloadTooLarge::new_entries_hint` only rejects it in debug
builds) makes the sender send empty requests, which the follower accepts without making progress,
and then the refused request again: the action never ends. -/
theorem C39_zero_hint_livelock :
    let log : List LogId := [⟨⟨1, 1⟩, 0⟩, ⟨⟨1, 1⟩, 1⟩]
    let s : Sender := ⟨none, some ⟨⟨1, 1⟩, 1⟩, Hint.default⟩
    netRun log 0 (fun _ => 5) 11 s = some (some s) ∧
      ∀ k, netRun log 0 (fun _ => 5) (11 * k) s = some (some s) := by
  refine ⟨by decide, ?_⟩
  have add : ∀ (a b : Nat) (log : List LogId) (s s' : Sender),
      netRun log 0 (fun _ => 5) a s = some (some s') →
      netRun log 0 (fun _ => 5) (a + b) s = netRun log 0 (fun _ => 5) b s' := by
    intro a
    induction a with
    | zero => intro b log s s' h; simp only [netRun, Option.some.injEq] at h; rw [h, Nat.zero_add]
    | succ a ih =>
      intro b log s s' h
      rw [show a + 1 + b = (a + b) + 1 by omega]
      simp only [netRun] at h ⊢
      split at h
      · cases h
      · cases h
      · rename_i s2 _
        exact ih b log _ _ h
  intro k
  induction k with
  | zero => rfl
  | succ k ih =>
    rw [show 11 * (k + 1) = 11 + 11 * k by omega, add 11 (11 * k) _ ⟨none, some ⟨⟨1, 1⟩, 1⟩, Hint.default⟩
      ⟨none, some ⟨⟨1, 1⟩, 1⟩, Hint.default⟩ (by decide)]
    exact ih

end Openraft.Props
