import Verif.Rt.Chunked
import Mathlib.Logic.Function.Basic

/-!
# C22: a chunked snapshot is received as it was sent
-/

set_option autoImplicit false

namespace Openraft.Props
open Openraft.Rt.Chunked

variable {α : Type}

theorem writeAt_prefix (zero : α) {content file : List α} {off cap : Nat}
    (hf : file = content.take file.length) (ho : off ≤ file.length) :
    let d := (content.drop off).take cap
    let f' := writeAt zero file off d
    f' = content.take f'.length ∧ off + d.length ≤ f'.length ∧ file.length ≤ f'.length := by
  intro d f'
  have hfl : file.length ≤ content.length := by
    have := congrArg List.length hf
    rw [List.length_take] at this; omega
  have hd : d.length = min cap (content.length - off) := by simp [d]
  have hdg : ∀ j, j < d.length → d[j]? = content[off + j]? := by
    intro j hj
    have hj' : j < cap := by omega
    simp only [d]
    rw [List.getElem?_take_of_lt hj', List.getElem?_drop]
  clear_value d
  have hlen : f'.length = max file.length (off + d.length) := by
    simp only [f', writeAt, List.length_append, List.length_take, List.length_replicate,
      List.length_drop]
    omega
  refine ⟨?_, by omega, by omega⟩
  apply List.ext_getElem?
  intro k
  rw [hlen]
  have hget : ∀ j, j < file.length → file[j]? = content[j]? := by
    intro j hj
    rw [hf, List.getElem?_take_of_lt hj]
  have hz : off - file.length = 0 := by omega
  simp only [f', writeAt, hz, List.replicate_zero, List.append_nil]
  have htl : (file.take off).length = off := by rw [List.length_take]; omega
  rcases Nat.lt_or_ge k off with h1 | h1
  · rw [List.append_assoc, List.getElem?_append_left (by omega), List.getElem?_take_of_lt h1,
      List.getElem?_take_of_lt (by omega)]
    exact hget k (by omega)
  · rw [List.append_assoc, List.getElem?_append_right (by omega), htl]
    rcases Nat.lt_or_ge (k - off) d.length with h2 | h2
    · rw [List.getElem?_append_left h2, List.getElem?_take_of_lt (by omega), hdg _ h2]
      congr 1; omega
    · rw [List.getElem?_append_right h2, List.getElem?_drop]
      rcases Nat.lt_or_ge k file.length with h3 | h3
      · rw [List.getElem?_take_of_lt (by omega), ← hget k h3]
        congr 1; omega
      · rw [List.getElem?_eq_none (by omega), List.getElem?_eq_none]
        rw [List.length_take]; omega

/-- a chunk that was cut from the content of its snapshot -/
def Honest (content : Nat → List α) (c : Chunk α) : Prop :=
  ∃ cap, c = nextChunk (content c.id) c.id cap c.offset

/-- the streaming state holds a prefix of the snapshot -/
def StreamOk (content : Nat → List α) (st : Option (Streaming α)) : Prop :=
  ∀ s, st = some s → s.file = (content s.id).take s.file.length

/-- the receiver has no gap before the chunk -/
def NoGap (st : Option (Streaming α)) (c : Chunk α) : Prop :=
  ∀ s, st = some s → s.id = c.id → c.offset ≤ s.file.length

theorem receive_spec (zero : α) {content : Nat → List α} {st : Option (Streaming α)} {c : Chunk α}
    (hc : Honest content c) (hs : StreamOk content st) (hg : NoGap st c) :
    StreamOk content (receive zero st c).1 ∧
    (∀ x, (receive zero st c).2.2 = some x → x = (c.id, content c.id)) ∧
    ((receive zero st c).2.1 = .ok → c.done = false →
      ∃ s', (receive zero st c).1 = some s' ∧ s'.id = c.id ∧
        c.offset + c.data.length ≤ s'.file.length) ∧
    (∀ s, st = some s → s.id = c.id → ∀ s', (receive zero st c).1 = some s' →
      s'.id = c.id ∧ s.file.length ≤ s'.file.length) ∧
    (∀ s', (receive zero st c).1 = some s' → s'.id ≠ c.id → st = some s') := by
  obtain ⟨cap, hcap⟩ := hc
  have core : ∀ s : Streaming α, s.id = c.id → s.file = (content c.id).take s.file.length →
      c.offset ≤ s.file.length →
      (s.receive zero c).id = c.id ∧
      (s.receive zero c).file = (content c.id).take (s.receive zero c).file.length ∧
      c.offset + c.data.length ≤ (s.receive zero c).file.length ∧
      s.file.length ≤ (s.receive zero c).file.length ∧
      (c.done = true → (s.receive zero c).file = content c.id) := by
    intro s hid hf ho
    have hpos : (if c.offset ≠ s.offset then c.offset else s.offset) = c.offset := by
      split
      · rfl
      · rename_i h; simp at h; exact h.symm
    have hdata : c.data = ((content c.id).drop c.offset).take cap := by rw [hcap]; rfl
    obtain ⟨p1, p2, p3⟩ := writeAt_prefix zero (cap := cap) hf ho
    simp only [Streaming.receive, hpos]
    rw [← hdata] at p1 p2 p3
    refine ⟨hid, p1, p2, p3, ?_⟩
    intro hd
    have hl : c.offset + c.data.length = (content c.id).length := by
      have h1 : (nextChunk (content c.id) c.id cap c.offset).done = true := by rw [← hcap]; exact hd
      simp only [nextChunk, beq_iff_eq] at h1
      rw [hdata]; exact h1
    rw [p1]
    exact List.take_of_length_le (by omega)
  unfold receive
  by_cases hid : st.map (·.id) = some c.id
  · obtain ⟨s, hst, hsid⟩ := Option.map_eq_some_iff.1 hid
    subst hst
    have hf := hs s rfl
    rw [hsid] at hf
    obtain ⟨c1, c2, c3, c4, c5⟩ := core s hsid hf (hg s rfl hsid)
    simp only [hid, ne_eq, not_true_eq_false, if_false]
    cases hd : c.done with
    | true =>
      simp only [if_true]
      refine ⟨fun _ h => by simp at h, ?_, by simp, by simp, by simp⟩
      intro x hx
      simp only [Option.some.injEq] at hx
      rw [← hx, c5 hd]
    | false =>
      simp only [Bool.false_eq_true, if_false]
      refine ⟨?_, by simp, ?_, ?_, ?_⟩
      · intro s' h
        simp only [Option.some.injEq] at h
        rw [← h, c1]; exact c2
      · intro _ _
        exact ⟨_, rfl, c1, c3⟩
      · intro s0 h0 _ s' h
        simp only [Option.some.injEq] at h h0
        rw [← h, ← h0]; exact ⟨c1, c4⟩
      · intro s' h hne
        simp only [Option.some.injEq] at h
        rw [← h] at hne
        exact absurd c1 hne
  · simp only [ne_eq, hid, not_false_eq_true, if_true]
    by_cases ho : c.offset = 0
    · simp only [ho, not_true_eq_false, if_false]
      obtain ⟨c1, c2, c3, c4, c5⟩ := core ⟨c.id, 0, []⟩ rfl (by simp) (by simp [ho])
      cases hd : c.done with
      | true =>
        simp only [if_true]
        refine ⟨fun _ h => by simp at h, ?_, by simp, by simp, by simp⟩
        intro x hx
        simp only [Option.some.injEq] at hx
        rw [← hx, c5 hd]
      | false =>
        simp only [Bool.false_eq_true, if_false]
        refine ⟨?_, by simp, ?_, ?_, ?_⟩
        · intro s' h
          simp only [Option.some.injEq] at h
          rw [← h, c1]; exact c2
        · intro _ _
          rw [ho] at c3
          exact ⟨_, rfl, c1, c3⟩
        · intro s0 h0 hsid
          rw [h0] at hid
          simp [hsid] at hid
        · intro s' h hne
          simp only [Option.some.injEq] at h
          rw [← h] at hne
          exact absurd c1 hne
    · simp only [ho, not_false_eq_true, if_true]
      refine ⟨hs, by simp, by simp, ?_, fun s' h _ => h⟩
      intro s0 h0 hsid
      rw [h0] at hid
      simp [hsid] at hid

/-- **C22 (receiver).** If the receiver's streaming state holds a prefix of the snapshot and there is
no gap before the chunk, a snapshot that is reported as complete equals the sender's. -/
theorem C22_receiver (zero : α) {content : Nat → List α} {st : Option (Streaming α)} {c : Chunk α}
    (hc : Honest content c) (hs : StreamOk content st) (hg : NoGap st c) {id : Nat} {d : List α}
    (h : (receive zero st c).2.2 = some (id, d)) : id = c.id ∧ d = content id := by
  have := (receive_spec zero hc hs hg).2.1 _ h
  injection this with h1 h2
  exact ⟨h1, by rw [h1]; exact h2⟩

/-- the invariant of the whole system -/
structure SysInv (content : Nat → List α) (s : Sys α) : Prop where
  stream : StreamOk content s.recv
  same : ∀ id, ∀ c ∈ (s.tr id).transit, c.id = id ∧ c.offset = (s.tr id).offset ∧ Honest content c
  cover : ∀ st, s.recv = some st → (s.tr st.id).finished = false →
    (s.tr st.id).offset ≤ st.file.length
  fin : ∀ id, (s.tr id).finished = true → (s.tr id).transit = []
  out : ∀ x ∈ s.out, x.2 = content x.1

theorem SysInv.step (zero : α) {content : Nat → List α} {s s' : Sys α} (h : SysInv content s)
    (st : Step zero content true s s') : SysInv content s' := by
  have upd : ∀ (id j : Nat) (t : Transfer α),
      (Function.update s.tr id t) j = if j = id then t else s.tr j := by
    intro id j t
    by_cases hj : j = id
    · subst hj; simp
    · simp [hj]
  have nogap : ∀ (id : Nat) (c : Chunk α), c ∈ (s.tr id).transit → NoGap s.recv c := by
    intro id c hc s0 h0 hid
    obtain ⟨c1, c2, _⟩ := h.same id c hc
    have hnf : (s.tr id).finished = false := by
      cases hf : (s.tr id).finished with
      | false => rfl
      | true => rw [h.fin id hf] at hc; simp at hc
    have := h.cover s0 h0 (by rw [hid, c1]; exact hnf)
    rw [hid, c1] at this
    omega
  cases st with
  | send id cap hcap hnf =>
    refine ⟨h.stream, ?_, ?_, ?_, h.out⟩
    · intro j c hc
      simp only [Sys.setTr, upd] at hc ⊢
      split at hc
      · rename_i hj; subst hj
        simp only [if_true]
        rcases List.mem_append.1 hc with h1 | h1
        · exact h.same _ _ h1
        · simp only [List.mem_singleton] at h1
          subst h1
          exact ⟨rfl, rfl, cap, rfl⟩
      · rename_i hj
        simp only [hj, if_false]
        exact h.same _ _ hc
    · intro st hst hf
      simp only [Sys.setTr, upd] at hf ⊢
      split
      · rename_i hj
        simp only [hj, if_true] at hf
        have := h.cover st hst (by rw [hj]; exact hf)
        rw [hj] at this; exact this
      · rename_i hj
        simp only [hj, if_false] at hf
        exact h.cover st hst hf
    · intro j hf
      simp only [Sys.setTr, upd] at hf ⊢
      split at hf
      · rw [hnf] at hf; cases hf
      · rename_i hj
        simp only [hj, if_false]
        exact h.fin j hf
  | lose id a b c hab =>
    refine ⟨h.stream, ?_, ?_, ?_, h.out⟩
    · intro j x hx
      simp only [Sys.setTr, upd] at hx ⊢
      split at hx
      · rename_i hj; subst hj
        simp only [if_true]
        refine h.same j x ?_
        rw [hab]
        rcases List.mem_append.1 hx with h1 | h1
        · exact List.mem_append_left _ h1
        · exact List.mem_append_right _ (List.mem_cons_of_mem _ h1)
      · rename_i hj
        simp only [hj, if_false]
        exact h.same _ _ hx
    · intro st hst hf
      simp only [Sys.setTr, upd] at hf ⊢
      split
      · rename_i hj
        simp only [hj, if_true] at hf
        have := h.cover st hst (by rw [hj]; exact hf)
        rw [hj] at this; exact this
      · rename_i hj
        simp only [hj, if_false] at hf
        exact h.cover st hst hf
    · intro j hf
      simp only [Sys.setTr, upd] at hf ⊢
      split at hf
      · rename_i hj; subst hj
        have := h.fin j hf
        rw [hab] at this; simp at this
      · rename_i hj
        simp only [hj, if_false]
        exact h.fin j hf
  | arrive id a b c hab hfi =>
    have ha : a = [] := hfi rfl
    subst ha
    have hcm : c ∈ (s.tr id).transit := by rw [hab]; simp
    obtain ⟨c1, c2, c3⟩ := h.same id c hcm
    obtain ⟨r1, r2, r3, r4, r5⟩ := receive_spec zero c3 h.stream (nogap id c hcm)
    have hnf : (s.tr id).finished = false := by
      cases hf : (s.tr id).finished with
      | false => rfl
      | true => rw [h.fin id hf] at hcm; simp at hcm
    refine ⟨r1, ?_, ?_, ?_, ?_⟩
    · intro j x hx
      simp only [Sys.setTr, upd] at hx ⊢
      split at hx
      · rename_i hj; subst hj
        simp only [if_true]
        refine h.same j x ?_
        rw [hab]
        exact List.mem_append_right _ (List.mem_cons_of_mem _ (by simpa using hx))
      · rename_i hj
        simp only [hj, if_false]
        exact h.same _ _ hx
    · intro st hst hf
      simp only at hst
      have key : (s.tr st.id).finished = false → (s.tr st.id).offset ≤ st.file.length := by
        intro hf'
        by_cases hid : st.id = c.id
        · rw [hid, c1]
          by_cases hmatch : ∃ s0, s.recv = some s0 ∧ s0.id = c.id
          · obtain ⟨s0, e1, e2⟩ := hmatch
            have := h.cover s0 e1 (by rw [e2, c1]; exact hnf)
            rw [e2, c1] at this
            have := (r4 s0 e1 e2 st hst).2
            omega
          · -- a new stream: the chunk has offset 0
            have : c.offset = 0 := by
              by_contra hne
              have hm : s.recv.map (·.id) ≠ some c.id := by
                intro hm
                obtain ⟨s0, e1, e2⟩ := Option.map_eq_some_iff.1 hm
                exact hmatch ⟨s0, e1, e2⟩
              have : (receive zero s.recv c).1 = s.recv := by
                simp [receive, hm, hne]
              rw [this] at hst
              exact hmatch ⟨st, hst, hid⟩
            omega
        · have := r5 st hst hid
          exact h.cover st this hf'
      simp only [Sys.setTr, upd] at hf ⊢
      split
      · rename_i hj
        simp only [hj, if_true] at hf
        have := key (by rw [hj]; exact hf)
        rw [hj] at this; exact this
      · rename_i hj
        simp only [hj, if_false] at hf
        exact key hf
    · intro j hf
      simp only [Sys.setTr, upd] at hf ⊢
      split at hf
      · rw [hnf] at hf; cases hf
      · rename_i hj
        simp only [hj, if_false]
        exact h.fin j hf
    · intro x hx
      rcases List.mem_append.1 hx with h1 | h1
      · exact h.out x h1
      · rw [Option.mem_toList] at h1
        have := r2 x h1
        rw [this]
  | arriveAnswered id a c hab hfi =>
    have ha : a = [] := hfi rfl
    subst ha
    have hcm : c ∈ (s.tr id).transit := by rw [hab]; simp
    obtain ⟨c1, c2, c3⟩ := h.same id c hcm
    obtain ⟨r1, r2, r3, r4, r5⟩ := receive_spec zero c3 h.stream (nogap id c hcm)
    have htr : (Transfer.answered { s.tr id with transit := [] } c (receive zero s.recv c).2.1).transit
        = [] := by
      cases (receive zero s.recv c).2.1 with
      | ok => simp only [Transfer.answered]; split <;> rfl
      | mismatch => rfl
    refine ⟨r1, ?_, ?_, ?_, ?_⟩
    · intro j x hx
      simp only [Sys.setTr, upd] at hx ⊢
      split at hx
      · rw [htr] at hx; simp at hx
      · rename_i hj
        simp only [hj, if_false]
        exact h.same _ _ hx
    · intro st hst hf
      simp only at hst
      simp only [Sys.setTr, upd] at hf ⊢
      split
      · rename_i hj
        simp only [hj, if_true] at hf
        cases hans : (receive zero s.recv c).2.1 with
        | mismatch => simp [Transfer.answered]
        | ok =>
          rw [hans] at hf
          simp only [Transfer.answered] at hf ⊢
          cases hd : c.done with
          | true => rw [hd] at hf; simp at hf
          | false =>
            obtain ⟨s', e1, _, e3⟩ := r3 hans hd
            rw [hst] at e1; cases e1
            simp only [Bool.false_eq_true, if_false]
            omega
      · rename_i hj
        simp only [hj, if_false] at hf
        exact h.cover st (r5 st hst (by rw [c1]; exact hj)) hf
    · intro j hf
      simp only [Sys.setTr, upd] at hf ⊢
      split at hf
      · rename_i hj
        simp only [hj, if_true]
        exact htr
      · rename_i hj
        simp only [hj, if_false]
        exact h.fin j hf
    · intro x hx
      rcases List.mem_append.1 hx with h1 | h1
      · exact h.out x h1
      · rw [Option.mem_toList] at h1
        have := r2 x h1
        rw [this]
  | again id hfi =>
    have ht := hfi rfl
    refine ⟨h.stream, ?_, ?_, ?_, h.out⟩
    · intro j x hx
      simp only [Sys.setTr, upd] at hx ⊢
      split at hx
      · simp only [ht] at hx; simp at hx
      · rename_i hj
        simp only [hj, if_false]
        exact h.same _ _ hx
    · intro st hst hf
      simp only [Sys.setTr, upd] at hf ⊢
      split
      · simp
      · rename_i hj
        simp only [hj, if_false] at hf
        exact h.cover st hst hf
    · intro j hf
      simp only [Sys.setTr, upd] at hf ⊢
      split at hf
      · cases hf
      · rename_i hj
        simp only [hj, if_false]
        exact h.fin j hf
  | crash =>
    exact ⟨fun _ h => by simp at h, h.same, fun _ h => by simp at h, h.fin, h.out⟩

/-- **C22.** Any number of transfers of different snapshots to one receiver, with lost requests, lost
and late answers, retries, repeated transfers and restarts of the receiver: as long as the requests
of one snapshot arrive in the order in which they were sent, each at most once, every snapshot that
the receiver reports as complete equals the sender's byte for byte.

Missing for the full property: requests that overtake each other (`C22_late_chunk_corrupts`). -/
theorem C22_received_as_sent_partial (zero : α) {content : Nat → List α} {s : Sys α}
    (h : Run zero content true s) {id : Nat} {d : List α} (hx : (id, d) ∈ s.out) :
    d = content id := by
  have inv : SysInv content s := by
    clear hx
    induction h with
    | init =>
      exact ⟨fun _ h => by simp [Sys.init] at h, fun _ _ h => by simp [Sys.init] at h,
        fun _ h => by simp [Sys.init] at h, fun _ _ => rfl, fun _ h => by simp [Sys.init] at h⟩
    | step _ st ih => exact ih.step zero st
  exact inv.out _ hx

/-- a run with a retry, a restart of the receiver and a completed snapshot -/
example : ∃ s : Sys Nat, Run 0 (fun _ => [1, 2]) true s ∧ s.out = [(7, [1, 2])] := by
  have e := Run.init (zero := 0) (content := fun _ => [1, 2]) (fifo := true)
  have e := e.step (.send _ 7 1 (by decide) rfl)
  have e := e.step (.arriveAnswered _ 7 [] ⟨7, 0, [1], false⟩ rfl (by simp))
  have e := e.step (.crash _)
  have e := e.step (.send _ 7 1 (by decide) rfl)
  have e := e.step (.arriveAnswered _ 7 [] ⟨7, 1, [2], true⟩ rfl (by simp))
  have e := e.step (.send _ 7 5 (by decide) rfl)
  have e := e.step (.send _ 7 5 (by decide) rfl)
  have e := e.step (.lose _ 7 [] [⟨7, 0, [1, 2], true⟩] ⟨7, 0, [1, 2], true⟩ rfl)
  have e := e.step (.arriveAnswered _ 7 [] ⟨7, 0, [1, 2], true⟩ rfl (by simp))
  exact ⟨_, e, rfl⟩

/-- The corresponding full property fails: a request that times out is sent again, the receiver has
meanwhile restarted, and the late copy of the last chunk arrives after the transfer has begun anew.
The receiver then reports a snapshot with a hole (zeros) as complete. No request is delivered
twice. -/
theorem C22_late_chunk_corrupts :
    ∃ (content : Nat → List Nat) (s : Sys Nat), Run 0 content false s ∧ content 7 = [1, 2, 3] ∧
      s.out = [(7, [1, 0, 3])] := by
  let content : Nat → List Nat := fun _ => [1, 2, 3]
  let c0 : Chunk Nat := ⟨7, 0, [1], false⟩
  let c1 : Chunk Nat := ⟨7, 1, [2], false⟩
  let c2 : Chunk Nat := ⟨7, 2, [3], true⟩
  have e := Run.init (zero := 0) (content := content) (fifo := false)
  have e := e.step (.send _ 7 1 (by decide) rfl)
  have e := e.step (.arriveAnswered _ 7 [] c0 rfl (by simp))
  have e := e.step (.send _ 7 1 (by decide) rfl)
  have e := e.step (.arriveAnswered _ 7 [] c1 rfl (by simp))
  -- the last chunk is sent but stays under way
  have e := e.step (.send _ 7 1 (by decide) rfl)
  have e := e.step (.crash _)
  -- the retry is answered with a mismatch, the transfer starts again
  have e := e.step (.send _ 7 1 (by decide) rfl)
  have e := e.step (.arriveAnswered _ 7 [c2] c2 rfl (by simp))
  have e := e.step (.send _ 7 1 (by decide) rfl)
  have e := e.step (.arriveAnswered _ 7 [c2] c0 rfl (by simp))
  -- now the late chunk arrives
  have e := e.step (.arrive _ 7 [] [] c2 rfl (by simp))
  exact ⟨content, _, e, rfl, rfl⟩

theorem receive_cases (zero : α) (st : Option (Streaming α)) (c : Chunk α) :
    (receive zero st c = (st, .mismatch, none) ∧ st.map (·.id) ≠ some c.id ∧ c.offset ≠ 0) ∨
    ((receive zero st c).2.1 = .ok ∧ (c.done = true → (receive zero st c).2.2 ≠ none)) := by
  unfold receive
  by_cases h1 : st.map (·.id) = some c.id
  · right
    obtain ⟨s, hst, hsid⟩ := Option.map_eq_some_iff.1 h1
    subst hst
    simp only [h1, ne_eq, not_true_eq_false, if_false]
    cases c.done <;> simp
  · by_cases h2 : c.offset = 0
    · right
      simp only [h1, ne_eq, not_false_eq_true, if_true, h2, not_true_eq_false, if_false]
      cases c.done <;> simp
    · left
      refine ⟨?_, h1, h2⟩
      simp only [h1, ne_eq, not_false_eq_true, if_true, h2]

/-- **C22 (completion).** Without faults a transfer completes, with the sender's data, after at most
one request per chunk plus one restart, whatever the receiver's streaming state is. -/
theorem C22_clean_completes (zero : α) {content : Nat → List α} {id cap : Nat} (hcap : 0 < cap)
    {st : Option (Streaming α)} (hs : StreamOk content st) {off : Nat} (ho : off ≤ (content id).length)
    (hg : ∀ s, st = some s → s.id = id → off ≤ s.file.length) (hpos : off = (content id).length → off = 0)
    {fuel : Nat} (hf : (content id).length - off + (if st.map (·.id) = some id ∨ off = 0 then 0
      else (content id).length + 1) < fuel) :
    clean zero (content id) id cap fuel st off = some (id, content id) := by
  induction fuel generalizing st off with
  | zero => omega
  | succ fuel ih =>
    have hc : Honest content (nextChunk (content id) id cap off) := ⟨cap, rfl⟩
    obtain ⟨r1, r2, r3, r4, r5⟩ := receive_spec zero hc hs (fun s h1 h2 => hg s h1 h2)
    simp only [clean]
    cases hr : (receive zero st (nextChunk (content id) id cap off)).2.2 with
    | some x =>
      rw [r2 x hr]; rfl
    | none =>
      simp only
      have hlen : (nextChunk (content id) id cap off).data.length =
          min cap ((content id).length - off) := by simp [nextChunk]
      cases ha : (receive zero st (nextChunk (content id) id cap off)).2.1 with
      | mismatch =>
        rcases receive_cases zero st (nextChunk (content id) id cap off) with ⟨m1, m2, m3⟩ | ⟨m1, _⟩
        · have h2 : ¬ (st.map (·.id) = some id ∨ off = 0) := by
            rintro (h | h)
            · exact m2 h
            · exact m3 h
          rw [m1]
          simp only
          rw [if_neg h2] at hf
          refine ih hs (by omega) (fun s _ _ => by omega) (fun _ => rfl) ?_
          rw [if_pos (Or.inr rfl)]
          omega
        · rw [ha] at m1; cases m1
      | ok =>
        simp only
        have hnd : (nextChunk (content id) id cap off).done = false := by
          cases hd : (nextChunk (content id) id cap off).done with
          | false => rfl
          | true =>
            exfalso
            rcases receive_cases zero st (nextChunk (content id) id cap off) with ⟨m1, _⟩ | ⟨_, m2⟩
            · rw [m1] at ha; cases ha
            · exact m2 hd hr
        obtain ⟨s', e1, e2, e3⟩ := r3 ha hnd
        have hid : (nextChunk (content id) id cap off).id = id := rfl
        have hoff : (nextChunk (content id) id cap off).offset = off := rfl
        rw [hid] at e2
        rw [hoff] at e3
        have hne : off + (nextChunk (content id) id cap off).data.length ≠ (content id).length := by
          intro h
          simp only [nextChunk, beq_eq_false_iff_ne, ne_eq] at hnd
          exact hnd h
        have hlt : off < (content id).length := by omega
        refine ih r1 (by omega) ?_ (fun h => absurd h hne) ?_
        · intro s hst hsid
          rw [e1] at hst; cases hst
          exact e3
        · rw [e1]
          rw [if_pos (Or.inl (by simp [e2]))]
          split at hf <;> omega

example : clean 0 [1, 2, 3, 4, 5] 7 2 4 (some ⟨3, 4, [9, 9, 9, 9]⟩) 0 = some (7, [1, 2, 3, 4, 5]) := by
  decide

/-- a chunk size of zero is not rejected by the configuration check and never completes -/
theorem C22_zero_chunk_never_completes (fuel : Nat) (st : Option (Streaming Nat))
    (hs : st = none ∨ st = some ⟨7, 0, []⟩) : clean 0 [1, 2, 3] 7 0 fuel st 0 = none := by
  induction fuel generalizing st with
  | zero => rfl
  | succ f ih =>
    have : clean 0 [1, 2, 3] 7 0 (f + 1) st 0 = clean 0 [1, 2, 3] 7 0 f (some ⟨7, 0, []⟩) 0 := by
      rcases hs with h | h <;> subst h <;> rfl
    rw [this]
    exact ih _ (Or.inr rfl)

end Openraft.Props
