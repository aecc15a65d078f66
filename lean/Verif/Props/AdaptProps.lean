import Verif.Rt.Adapt

/-!
# C66: what becomes of the errors of a network

A network of version 1 returns any result; the theorems say what the replication task does with it (`BkRes`, whose meaning is C64).
-/

set_option autoImplicit false

namespace Openraft.Props
open Openraft.Rt

/-- the network says that the target cannot be reached, or that its Raft is dead -/
def Down {ρ ε : Type} (r : Except (NRpc (NRaft ε)) ρ) : Prop :=
  (∃ s, r = .error (.unreachable s)) ∨ ∃ t f, r = .error (.remote t (.fatal f))

/-- the same of a stream -/
def DownStream {ρ : Type} (r : Except (NStream NFatal) ρ) : Prop :=
  (∃ s, r = .error (.unreachable s)) ∨ ∃ t f, r = .error (.remote t f)

/-- C66: a result of `append_entries` or `vote` of version 1. The adapter does not panic; an answer stays that answer, and no error becomes one; the task backs off
exactly when the target is down; a request that is too large stays one, with its hint, and so do a
timeout and an error of the network; no error of the network or of the target ends the task. -/
theorem C66_rpc {ρ : Type} (r : Except (NRpc (NRaft Empty)) ρ) :
    ∃ x, v1Rpc r = some x ∧ (∀ a, x = .ok a ↔ r = .ok a) ∧ (∀ h, x = .error (.tooLarge h) ↔ r = .error (.tooLarge h)) ∧
      (∀ n, x = .error (.timeout n) ↔ r = .error (.timeout n)) ∧ (∀ n, x = .error (.network n) ↔ r = .error (.network n)) ∧
      ∀ e, x = .error e → (NRepl.rpc e).res ≠ .quit ∧ ((NRepl.rpc e).res = .unreachable ↔ Down r) := by
  rcases r with e | a
  · cases e with
    | remote t e =>
      cases e with
      | api e => exact e.elim
      | fatal f => exact ⟨_, rfl, by simp, by simp, by simp, by simp, by rintro e ⟨⟩; simp [NRepl.res, Down]⟩
    | _ => exact ⟨_, rfl, by simp, by simp, by simp, by simp, by rintro e ⟨⟩; simp [NRepl.res, Down]⟩
  · exact ⟨_, rfl, by simp, by simp, by simp, by simp, by simp⟩

example : v1Rpc (ρ := Nat) (.error (.remote 3 (.fatal .stopped))) = some (.error (.unreachable (.fatal .stopped))) := rfl

example : Down (ρ := Nat) (ε := Empty) (.error (.remote 3 (.fatal .panicked))) ∧ ¬ Down (ρ := Nat) (ε := Empty) (.error (.network 3)) := by
  simp [Down]

/-- C66: a result of `send_snapshot`, whatever it is, and what the task does with it. There is no panic; the task goes on with the log id of the snapshot exactly
when the target answered with a vote that is not greater; it ends exactly for a greater vote, when it was closed, and when the own storage failed; it
backs off exactly when the target is down. -/
theorem C66_stream (vote last : Nat) (r : Except (NStream NFatal) Nat) :
    ∃ x y, v1Stream r = some x ∧ snapRes vote last x = some y ∧
      (∀ m n, y = .ok m n ↔ (∃ v, r = .ok v ∧ v ≤ vote) ∧ m = last ∧ n = none) ∧
      (y = .quit ↔ (∃ v, r = .ok v ∧ vote < v) ∨ r = .error .closed ∨ ∃ e, r = .error (.storage e)) ∧
      (y = .unreachable ↔ DownStream r) ∧ y ≠ .tooLarge := by
  rcases r with e | v
  · cases e <;> exact ⟨_, _, rfl, rfl, by simp [NRepl.res], by simp [NRepl.res], by simp [NRepl.res, DownStream], by simp [NRepl.res]⟩
  · refine ⟨_, _, rfl, rfl, ?_⟩
    by_cases h : vote < v
    · refine ⟨fun m n => ?_, by simp [h, NRepl.res], by simp [h, NRepl.res, DownStream], by simp [h, NRepl.res]⟩
      simp only [h, if_true, NRepl.res, reduceCtorEq, Except.ok.injEq, exists_eq_left', false_iff]
      omega
    · simp only [h, if_false]
      refine ⟨fun m n => ?_, by simp [h], by simp [DownStream], by simp⟩
      have h' : v ≤ vote := by omega
      simp only [BkRes.ok.injEq, Except.ok.injEq, exists_eq_left', h', true_and]
      constructor
      · rintro ⟨rfl, rfl⟩; exact ⟨rfl, rfl⟩
      · rintro ⟨rfl, rfl⟩; exact ⟨rfl, rfl⟩

example : ((v1Stream (.error (.remote 2 .stopped))).bind (snapRes 5 9)) = some .unreachable := rfl
example : ((v1Stream (.ok 6)).bind (snapRes 5 9)) = some .quit := rfl
example : ((v1Stream (.ok 5)).bind (snapRes 5 9)) = some (.ok 9 none) := rfl

/-- C66: the two ways from a `StreamingError` with a `Fatal` to a `ReplicationError` agree: by `decompose`, and by the conversion -/
theorem C66_ways (e : NStream NFatal) :
    ∃ x, v1Stream (ρ := Nat) (.error e) = some (.error x) ∧ x.repl = some e.replFatal := by
  cases e <;> exact ⟨_, rfl, rfl⟩

example : (NStream.remote 3 (NFatal.storage 4)).replFatal = .rpc (.unreachable (.fatal (.storage 4))) := rfl

/-- C66: `decompose` of the result of a call of the API splits it without loss: the answer, the error of the API, the fatal error -/
theorem C66_api {ρ ε : Type} (r : Except (NRaft ε) ρ) :
    (∀ a, decomposeRaft r = .ok (.ok a) ↔ r = .ok a) ∧ (∀ e, decomposeRaft r = .ok (.error e) ↔ r = .error (.api e)) ∧
      ∀ f, decomposeRaft r = .error (.fatal f) ↔ r = .error (.fatal f) := by
  rcases r with (e | f) | a <;> simp [decomposeRaft]

example : decomposeRaft (ρ := Nat) (ε := Nat) (.error (.api 7)) = .ok (.error 7) := rfl

/-- C66: the conversion of an `RPCError` to a `StreamingError`, open to applications, panics for a request that is too large, and for nothing else -/
theorem C66_converts (e : NRpc Empty) : e.stream = none ↔ ∃ h, e = .tooLarge h := by
  cases e <;> simp [NRpc.stream]

example : (NRpc.tooLarge 3).stream = none ∧ (NRpc.network 3).stream = some (.network 3) := ⟨rfl, rfl⟩

/-! ## Snapshots in chunks -/

/-- the result is one of these -/
def ChunkResult (s : ChunkSend) : Prop := ∀ x, s.result = some x → (∃ v, x = .ok v) ∨ x = .error .closed ∨ ∃ e, x = .error (.storage e)

theorem ChunkResult.turn {vote fin cap : Nat} {s : ChunkSend} (h : ChunkResult s) (t : ChunkTurn) : ChunkResult (s.turn vote fin cap t) := by
  unfold ChunkSend.turn
  split
  · exact h
  · rename_i hn
    cases t with
    | cancelled => rintro x ⟨⟩; simp
    | readFails e => rintro x ⟨⟩; simp
    | rpc took a =>
      intro x hx
      dsimp only at hx
      unfold ChunkSend.answer at hx
      split at hx
      · simp [hn] at hx
      · simp [hn] at hx
      · simp [hn] at hx
      · split at hx
        · simp only [Option.some.injEq] at hx; exact Or.inl ⟨_, hx.symm⟩
        · split at hx
          · simp only [Option.some.injEq] at hx; exact Or.inl ⟨_, hx.symm⟩
          · simp [hn] at hx

/-- C66: whatever the network and the target do, sending a snapshot in chunks never makes the task back off, and never reports an error to the core except that
the own storage failed: the task goes on, or ends -/
theorem C66_chunked (vote last fin cap : Nat) (b : Option Nat) (ts : List ChunkTurn) {x : Except (NStream NFatal) Nat}
    (hx : (ChunkSend.run vote fin cap (.start b) ts).result = some x) :
    ∃ y, (v1Stream x).bind (snapRes vote last) = some y ∧ (y = .quit ∨ y = .ok last none) := by
  have h : ∀ (ts : List ChunkTurn) (s : ChunkSend), ChunkResult s → ChunkResult (ChunkSend.run vote fin cap s ts) := by
    intro ts
    induction ts with
    | nil => exact fun s hs => hs
    | cons t ts ih => exact fun s hs => ih _ (hs.turn t)
  have h0 : ChunkResult (.start b) := by cases b <;> simp [ChunkResult, ChunkSend.start]
  rcases h ts _ h0 x hx with ⟨v, rfl⟩ | rfl | ⟨e, rfl⟩
  · by_cases hv : vote < v
    · exact ⟨_, rfl, Or.inl (by simp [hv, NRepl.res])⟩
    · exact ⟨_, rfl, Or.inr (by simp [hv])⟩
  · exact ⟨_, rfl, Or.inl rfl⟩
  · exact ⟨_, rfl, Or.inl rfl⟩

/-- C66: a target that is down (or gives any error but a mismatch, or no answer in time) is asked again for the same chunk, a millisecond later, and
the sender does not return: for every number of such answers -/
theorem C66_chunked_again {vote fin cap : Nat} {s : ChunkSend} (hs : s.result = none) (as : List (Nat × ChunkAns))
    (ha : ∀ p ∈ as, p.2 = .late ∨ ∃ e, p.2 = .err e ∧ ∀ t, e ≠ .remote t (.api ())) :
    let s' := ChunkSend.run vote fin cap s (as.map fun p => .rpc p.1 p.2)
    s'.result = none ∧ s'.offset = s.offset ∧ s'.now = s.now + as.length + (as.map Prod.fst).sum ∧ s'.calls.length = s.calls.length + as.length := by
  induction as generalizing s with
  | nil => exact ⟨hs, rfl, rfl, rfl⟩
  | cons p as ih =>
    have hp : s.turn vote fin cap (.rpc p.1 p.2) = { s with now := s.now + 1 + p.1, calls := (s.now + 1, s.offset, p.2) :: s.calls } := by
      unfold ChunkSend.turn
      rw [hs]
      rcases ha p (by simp) with h | ⟨e, h, he⟩
      · simp [h, ChunkSend.answer]
      · simp only [h]
        unfold ChunkSend.answer
        split
        · simp_all
        · rename_i heq; simp only [ChunkAns.err.injEq] at heq; exact absurd heq (he _)
        · rfl
        · simp_all
    have := ih (s := s.turn vote fin cap (.rpc p.1 p.2)) (by rw [hp]; exact hs) (fun q hq => ha q (by simp [hq]))
    obtain ⟨h1, h2, h3, h4⟩ := this
    rw [hp] at h1 h2 h3 h4
    simp only [List.map_cons, ChunkSend.run, List.foldl_cons]
    rw [hp]
    refine ⟨h1, h2, ?_, ?_⟩
    · rw [ChunkSend.run] at h3; rw [h3]; simp; omega
    · rw [ChunkSend.run] at h4; rw [h4]; simp; omega

example : (ChunkSend.run 1 5 2 (.start none) ((List.replicate 1000 (0, .err (.unreachable (.net 0)))).map fun p => .rpc p.1 p.2)).now = 1000 :=
  (C66_chunked_again (s := .start none) rfl _ (by
    intro p hp
    rw [List.eq_of_mem_replicate hp]
    exact Or.inr ⟨_, rfl, by simp⟩)).2.2.1.trans (by rw [List.map_replicate, List.length_replicate]; decide +kernel)

/-- C66 is false for snapshots in chunks: a target that is down is not reported, so that the task does not back off. (The witness: after 999 such
answers, the next.) -/
theorem C66_false : ¬ ∀ (vote fin cap : Nat) (ts : List ChunkTurn) (took : Nat) (e : NRpc (NRaft Unit)), Down (ρ := Nat) (.error e) →
    (ChunkSend.run vote fin cap (.start none) ts).result = none →
    ∃ x, (ChunkSend.run vote fin cap (.start none) (ts ++ [.rpc took (.err e)])).result = some (.error x) ∧ DownStream (ρ := Nat) (.error x) := by
  intro h
  have ha := C66_chunked_again (vote := 1) (fin := 5) (cap := 2) (s := .start none) rfl (List.replicate 1000 (0, .err (.unreachable (.net 0)))) (by
    intro p hp
    rw [List.eq_of_mem_replicate hp]
    exact Or.inr ⟨_, rfl, by simp⟩)
  have hb := C66_chunked_again (vote := 1) (fin := 5) (cap := 2) (s := .start none) rfl (List.replicate 999 (0, .err (.unreachable (.net 0)))) (by
    intro p hp
    rw [List.eq_of_mem_replicate hp]
    exact Or.inr ⟨_, rfl, by simp⟩)
  rw [List.map_replicate] at ha hb
  obtain ⟨x, hx, _⟩ := h 1 5 2 _ 0 (.unreachable (.net 0)) (Or.inl ⟨_, rfl⟩) hb.1
  rw [← List.replicate_succ'] at hx
  rw [ha.1] at hx
  exact absurd hx (by simp)

/-- C66: once it is cancelled the sender sends nothing, and the task ends -/
theorem C66_cancelled {vote fin cap : Nat} {s : ChunkSend} (hs : s.result = none) (ts : List ChunkTurn) :
    (ChunkSend.run vote fin cap s (.cancelled :: ts)).calls = s.calls ∧ (ChunkSend.run vote fin cap s (.cancelled :: ts)).result = some (.error .closed) := by
  have h : ∀ (ts : List ChunkTurn) (s : ChunkSend) (x : _), s.result = some x → ChunkSend.run vote fin cap s ts = s := by
    intro ts
    induction ts with
    | nil => exact fun s x _ => rfl
    | cons t ts ih =>
      intro s x hx
      have : s.turn vote fin cap t = s := by simp [ChunkSend.turn, hx]
      rw [ChunkSend.run, List.foldl_cons, this]
      exact ih s x hx
  have ht : s.turn vote fin cap .cancelled = { s with result := some (.error .closed) } := by simp [ChunkSend.turn, hs]
  rw [ChunkSend.run, List.foldl_cons, ht]
  have := h ts { s with result := some (.error .closed) } _ rfl
  rw [ChunkSend.run] at this
  rw [this]
  exact ⟨rfl, rfl⟩

/-- the position was in a chunk that the target answered with a vote that is not greater -/
def Acked (vote fin cap : Nat) (l : List (Nat × Nat × ChunkAns)) (p : Nat) : Prop :=
  ∃ t o v, (t, o, ChunkAns.vote v) ∈ l ∧ v ≤ vote ∧ o ≤ p ∧ p < o + min cap (fin - o)

/-- the target said that it does not have what was sent before -/
def isMismatch : ChunkAns → Bool
  | .err (.remote _ (.api ())) => true
  | _ => false

/-- the chunks since the last mismatch -/
def recent (l : List (Nat × Nat × ChunkAns)) : List (Nat × Nat × ChunkAns) := l.takeWhile fun c => !isMismatch c.2.2

/-- the invariant of the sender -/
def ChunkInv (vote fin cap : Nat) (s : ChunkSend) : Prop :=
  s.offset ≤ fin ∧ (∀ p, p < s.offset → Acked vote fin cap (recent s.calls) p) ∧
    ∀ v, s.result = some (.ok v) → v ≤ vote → ∀ p, p < fin → Acked vote fin cap (recent s.calls) p

theorem Acked.cons {vote fin cap p : Nat} {l : List (Nat × Nat × ChunkAns)} (h : Acked vote fin cap (recent l) p) {c : Nat × Nat × ChunkAns}
    (hc : isMismatch c.2.2 = false) : Acked vote fin cap (recent (c :: l)) p := by
  obtain ⟨t, o, v, hm, hr⟩ := h
  refine ⟨t, o, v, ?_, hr⟩
  rw [recent, List.takeWhile_cons, hc]
  exact List.mem_cons_of_mem _ hm

theorem ChunkInv.turn {vote fin cap : Nat} {s : ChunkSend} (h : ChunkInv vote fin cap s) (t : ChunkTurn) :
    ChunkInv vote fin cap (s.turn vote fin cap t) := by
  obtain ⟨h1, h2, h3⟩ := h
  unfold ChunkSend.turn
  split
  · exact ⟨h1, h2, h3⟩
  · rename_i hn
    cases t with
    | cancelled => exact ⟨h1, h2, by simp⟩
    | readFails e => exact ⟨h1, h2, by simp⟩
    | rpc took a =>
      dsimp only
      unfold ChunkSend.answer
      split
      · exact ⟨h1, fun p hp => (h2 p hp).cons rfl, by simp [hn]⟩
      · exact ⟨Nat.zero_le _, fun p hp => absurd hp (Nat.not_lt_zero _), by simp [hn]⟩
      · rename_i e he
        have hm : isMismatch (.err e) = false := by
          unfold isMismatch
          split
          · rename_i heq; simp only [ChunkAns.err.injEq] at heq; exact absurd heq (he _)
          · rfl
        exact ⟨h1, fun p hp => (h2 p hp).cons hm, by simp [hn]⟩
      · rename_i v
        have cover : ¬ vote < v → ∀ p, p < s.offset + min cap (fin - s.offset) →
            Acked vote fin cap (recent ((s.now + 1, s.offset, ChunkAns.vote v) :: s.calls)) p := by
          intro hv p hp
          by_cases hlt : p < s.offset
          · exact (h2 p hlt).cons rfl
          · refine ⟨s.now + 1, s.offset, v, ?_, by omega, by omega, hp⟩
            simp [recent, List.takeWhile_cons, isMismatch]
        split
        · rename_i hv
          refine ⟨h1, fun p hp => (h2 p hp).cons rfl, ?_⟩
          intro w hw hle
          simp only [Option.some.injEq, Except.ok.injEq] at hw
          omega
        · rename_i hv
          split
          · rename_i hd
            simp only at hd
            refine ⟨h1, fun p hp => (h2 p hp).cons rfl, fun w _ _ p hp => cover hv p (by omega)⟩
          · refine ⟨by simp only; omega, fun p hp => cover hv p hp, by simp [hn]⟩

/-- C66: when a snapshot in chunks counts as sent, every byte of it was in a chunk that the target has answered, not with a greater vote, and after the last time
it asked for all of it again -/
theorem C66_chunked_all (vote fin cap : Nat) (b : Option Nat) (ts : List ChunkTurn) {v : Nat}
    (hx : (ChunkSend.run vote fin cap (.start b) ts).result = some (.ok v)) (hv : v ≤ vote) :
    ∀ p, p < fin → Acked vote fin cap (recent (ChunkSend.run vote fin cap (.start b) ts).calls) p := by
  have h : ∀ (ts : List ChunkTurn) (s : ChunkSend), ChunkInv vote fin cap s → ChunkInv vote fin cap (ChunkSend.run vote fin cap s ts) := by
    intro ts
    induction ts with
    | nil => exact fun s hs => hs
    | cons t ts ih => exact fun s hs => ih _ (hs.turn t)
  have h0 : ChunkInv vote fin cap (.start b) := by cases b <;> simp [ChunkInv, ChunkSend.start]
  exact (h ts _ h0).2.2 v hx hv

/-- C66: a greater vote ends the sending at once, and is what the sender returns; a chunk that reaches the end of the snapshot does so too -/
theorem C66_chunked_ends {vote fin cap : Nat} {s : ChunkSend} (hs : s.result = none) (took v : Nat) :
    (s.turn vote fin cap (.rpc took (.vote v))).result = some (.ok v) ↔ vote < v ∨ s.offset + min cap (fin - s.offset) = fin := by
  by_cases h1 : vote < v <;> by_cases h2 : s.offset + min cap (fin - s.offset) = fin <;> simp [ChunkSend.turn, ChunkSend.answer, hs, h1, h2]

example : (ChunkSend.run 1 5 2 (.start none) [.rpc 3 (.vote 1), .rpc 3 (.vote 4)]).result = some (.ok 4) := rfl

/-- C66: a transfer whose target answers again gets to its end: from wherever a sender has got to, whatever errors came before, if the chunks are not empty and the
target answers the next `fin - offset + 1` of them with votes that are not greater, the snapshot counts as sent -/
theorem C66_chunked_completes (vote fin cap : Nat) (hc : 0 < cap) (ts : List ChunkTurn)
    (hn : (ChunkSend.run vote fin cap (.start none) ts).result = none) (as : List (Nat × Nat)) (ha : ∀ a ∈ as, a.2 ≤ vote)
    (hl : fin - (ChunkSend.run vote fin cap (.start none) ts).offset + 1 ≤ as.length) :
    ∃ v, v ≤ vote ∧ (ChunkSend.run vote fin cap (.start none) (ts ++ as.map fun a => .rpc a.1 (.vote a.2))).result = some (.ok v) := by
  have hi : ∀ (ts : List ChunkTurn) (s : ChunkSend), ChunkInv vote fin cap s → ChunkInv vote fin cap (ChunkSend.run vote fin cap s ts) := by
    intro ts
    induction ts with
    | nil => exact fun s hs => hs
    | cons t ts ih => exact fun s hs => ih _ (hs.turn t)
  have hstay : ∀ (ts : List ChunkTurn) (s : ChunkSend) (x : _), s.result = some x → (ChunkSend.run vote fin cap s ts).result = some x := by
    intro ts
    induction ts with
    | nil => exact fun s x hx => hx
    | cons t ts ih => exact fun s x hx => ih _ x (by simp [ChunkSend.turn, hx])
  have main : ∀ (as : List (Nat × Nat)) (s : ChunkSend), s.result = none → s.offset ≤ fin → (∀ a ∈ as, a.2 ≤ vote) → fin - s.offset + 1 ≤ as.length →
      ∃ v, v ≤ vote ∧ (ChunkSend.run vote fin cap s (as.map fun a => .rpc a.1 (.vote a.2))).result = some (.ok v) := by
    intro as
    induction as with
    | nil => intro s _ _ _ h; simp at h
    | cons a as ih =>
      intro s hs ho hv hlen
      have hle : a.2 ≤ vote := hv a (by simp)
      have hlt : ¬ vote < a.2 := by omega
      by_cases hd : s.offset + min cap (fin - s.offset) = fin
      · have hr := (C66_chunked_ends (vote := vote) hs a.1 a.2).2 (Or.inr hd)
        have := hstay (as.map fun a => .rpc a.1 (.vote a.2)) _ _ hr
        exact ⟨a.2, hle, this⟩
      · have ht : s.turn vote fin cap (.rpc a.1 (.vote a.2)) =
            { s with now := s.now + 1 + a.1, calls := (s.now + 1, s.offset, .vote a.2) :: s.calls, offset := s.offset + min cap (fin - s.offset) } := by
          simp [ChunkSend.turn, ChunkSend.answer, hs, hlt, hd]
        have := ih (s.turn vote fin cap (.rpc a.1 (.vote a.2))) (by rw [ht]; exact hs) (by rw [ht]; simp only; omega)
          (fun b hb => hv b (by simp [hb])) (by rw [ht]; simp only [List.length_cons] at hlen ⊢; omega)
        exact this
  have h0 : ChunkInv vote fin cap (.start none) := by simp [ChunkInv, ChunkSend.start]
  have := main as _ hn (hi ts _ h0).1 ha hl
  rw [ChunkSend.run, List.foldl_append]
  exact this

example : ∃ v, v ≤ 1 ∧ (ChunkSend.run 1 5 2 (.start none)
    ([.rpc 3 (.vote 1), .rpc 0 (.err (.network 7))] ++ [(3, 1), (3, 0), (1, 1), (1, 1)].map fun a => .rpc a.1 (.vote a.2))).result = some (.ok v) :=
  C66_chunked_completes 1 5 2 (by omega) _ rfl _ (by decide) (by decide)

/-- what `Rt/Backoff`, the model of C64, calls the result of a stream -/
def bkSnapOf (vote last : Nat) : Except (NStream NFatal) Nat → BkSnap
  | .ok v => if v ≤ vote then .ok last else .higherVote
  | .error .closed => .closed
  | .error (.storage _) => .storage
  | .error (.timeout _) => .timeout
  | .error (.unreachable _) => .unreachable
  | .error (.network _) => .network
  | .error (.remote _ _) => .remote

/-- C66: the callbacks of C64 are these results, so that C64 holds for networks of version 1: what the loop there does with a callback is what comes out here -/
theorem C66_callback (vote last : Nat) (r : Except (NStream NFatal) Nat) :
    (v1Stream r).bind (snapRes vote last) = some (bkSnapOf vote last r).toRes := by
  rcases r with e | v
  · cases e <;> rfl
  · by_cases h : vote < v
    · have h' : ¬ v ≤ vote := by omega
      simp [v1Stream, infallible, decomposeStream, intoOk, snapRes, bkSnapOf, BkSnap.toRes, NRepl.res, h, h']
    · have h' : v ≤ vote := by omega
      simp [v1Stream, infallible, decomposeStream, intoOk, snapRes, bkSnapOf, BkSnap.toRes, h, h']

example : (bkSnapOf 5 9 (.error (.remote 2 .stopped))).toRes = .unreachable := rfl

/-- a snapshot of five bytes in chunks of two: an error, a mismatch and a late answer on the way -/
def chunkRun : List ChunkTurn :=
  [.rpc 3 (.vote 1), .rpc 0 (.err (.network 7)), .rpc 2 (.err (.remote 2 (.api ()))), .rpc 1 (.vote 1), .rpc 9 .late, .rpc 1 (.vote 1), .rpc 1 (.vote 1)]

theorem chunkRun_result : (ChunkSend.run 1 5 2 (.start none) chunkRun).result = some (.ok 1) := rfl

example : (ChunkSend.run 1 5 2 (.start none) chunkRun).calls.map (fun c => (c.1, c.2.1)) =
    [(23, 4), (21, 2), (11, 2), (9, 0), (6, 2), (5, 2), (1, 0)] := by
  decide +kernel

example : Acked 1 5 2 (recent (ChunkSend.run 1 5 2 (.start none) chunkRun).calls) 3 := C66_chunked_all 1 5 2 none chunkRun chunkRun_result (by omega) 3 (by omega)

example : ∃ y, (v1Stream (.ok 1)).bind (snapRes 1 8) = some y ∧ (y = .quit ∨ y = .ok 8 none) := C66_chunked 1 8 5 2 none chunkRun chunkRun_result

example : (ChunkSend.run 1 5 2 (.start none) [.rpc 3 (.vote 1), .cancelled, .rpc 3 (.vote 1)]).result = some (.error .closed) ∧
    (ChunkSend.run 1 5 2 (.start none) [.rpc 3 (.vote 1), .cancelled, .rpc 3 (.vote 1)]).calls.length = 1 := ⟨rfl, rfl⟩

end Openraft.Props
