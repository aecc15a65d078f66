import Verif.Engine.Store
import Mathlib.Data.List.TakeDrop
import Mathlib.Data.List.Induction

/-!
# C31: the membership found at start-up is the last one stored
-/

set_option autoImplicit false

namespace Openraft.Props
open Openraft Openraft.Engine

/-- all memberships of a list of entries, in log order -/
def mems (es : List Ent) : List StoredMem := es.filterMap Ent.stored?

/-- the last two elements of a list, in order -/
def lastTwo {α : Type} (l : List α) : List α := l.drop (l.length - 2)

theorem mems_append (a b : List Ent) : mems (a ++ b) = mems a ++ mems b := by
  simp [mems]

theorem lastTwo_append_of_two {α : Type} {a b : List α} (h : b.length = 2) : lastTwo (a ++ b) = b := by
  unfold lastTwo
  rw [List.length_append, h, Nat.add_sub_cancel, List.drop_left]

theorem lastTwo_of_lt {α : Type} {a : List α} (h : a.length ≤ 2) : lastTwo a = a := by
  unfold lastTwo
  rw [show a.length - 2 = 0 by omega]; rfl

theorem scanChunk_spec (es : List Ent) : ∀ (res : List StoredMem), res.length < 2 →
    (∀ r, scanChunk es.reverse res = .error r →
      r = lastTwo (mems es ++ res) ∧ r.length = 2) ∧
    (∀ r, scanChunk es.reverse res = .ok r → r = mems es ++ res ∧ r.length < 2) := by
  induction es using List.reverseRecOn with
  | nil =>
    intro res hr
    constructor
    · intro r h; simp [scanChunk] at h
    · intro r h
      simp only [List.reverse_nil, scanChunk, Except.ok.injEq] at h
      subst h
      exact ⟨by simp [mems], hr⟩
  | append_singleton es e ih =>
    intro res hr
    rw [List.reverse_append, List.reverse_singleton, List.singleton_append, mems_append]
    simp only [scanChunk]
    cases hm : e.stored? with
    | none =>
      have h0 : mems [e] = [] := by simp [mems, hm]
      rw [h0, List.append_nil]
      exact ih res hr
    | some m =>
      have h0 : mems [e] = [m] := by simp [mems, hm]
      rw [h0, List.append_assoc, List.singleton_append]
      simp only
      by_cases h2 : (m :: res).length = 2
      · rw [if_pos h2]
        constructor
        · intro r h
          simp only [Except.error.injEq] at h
          subst h
          exact ⟨(lastTwo_append_of_two h2).symm, h2⟩
        · intro r h; simp at h
      · rw [if_neg h2]
        exact ih (m :: res) (by simp at h2 ⊢; omega)

/-- entries with increasing indexes: a range splits -/
theorem read_split {s : LogStore} (hc : s.Consecutive) {a b c : Nat} (h1 : a ≤ b) (h2 : b ≤ c) :
    s.read a c = s.read a b ++ s.read b c := by
  have gen : ∀ (es : List Ent) (n : Nat),
      (∀ (i : Nat) (e : Ent), es[i]? = some e → e.id.index = n + i) →
      es.filter (fun e => decide (a ≤ e.id.index) && decide (e.id.index < c)) =
        es.filter (fun e => decide (a ≤ e.id.index) && decide (e.id.index < b)) ++
        es.filter (fun e => decide (b ≤ e.id.index) && decide (e.id.index < c)) := by
    intro es
    induction es with
    | nil => intro n _; rfl
    | cons e es ih =>
      intro n hn
      have he : e.id.index = n := by simpa using hn 0 e (by simp)
      have ih' := ih (n + 1) (by
        intro i x hx
        have := hn (i + 1) x (by simpa using hx)
        omega)
      simp only [List.filter_cons]
      by_cases hb : e.id.index < b
      · have hnb : ¬ b ≤ e.id.index := by omega
        have hc' : e.id.index < c := by omega
        by_cases ha : a ≤ e.id.index
        · simp only [ha, hb, hc', hnb, decide_true, Bool.and_self, if_true, decide_false,
            Bool.false_and, Bool.false_eq_true, if_false, List.cons_append]
          rw [ih']
        · simp only [ha, hnb, decide_false, Bool.false_and, Bool.false_eq_true, if_false]
          exact ih'
      · have hnb : b ≤ e.id.index := by omega
        have ha : a ≤ e.id.index := by omega
        -- nothing of the rest is below `b`
        have hz : es.filter (fun e => decide (a ≤ e.id.index) && decide (e.id.index < b)) = [] := by
          rw [List.filter_eq_nil_iff]
          intro x hx
          obtain ⟨i, hi⟩ := List.mem_iff_getElem?.1 hx
          have := hn (i + 1) x (by simpa using hi)
          have hxb : ¬ x.id.index < b := by omega
          simp [hxb]
        rw [hz] at ih' ⊢
        simp only [ha, hb, hnb, decide_true, Bool.true_and, decide_false, Bool.false_eq_true,
          if_false, List.nil_append] at ih' ⊢
        rw [ih']
  exact gen s.entries _ hc

theorem read_all {s : LogStore} (hc : s.Consecutive) {a b : Nat} (hb : nextIndex s.lastLogId ≤ b) :
    s.read a b = s.entries.filter fun e => decide (a ≤ e.id.index) := by
  unfold LogStore.read
  apply List.filter_congr
  intro e he
  have hlast : e.id.index < b := by
    obtain ⟨i, hi⟩ := List.mem_iff_getElem?.1 he
    have h1 := hc i e hi
    have hil := (List.getElem?_eq_some_iff.1 hi).1
    unfold LogStore.lastLogId at hb
    rw [List.getLast?_eq_getElem?] at hb
    cases hl : s.entries[s.entries.length - 1]? with
    | none => rw [List.getElem?_eq_none_iff] at hl; omega
    | some l =>
      have h2 := hc _ l hl
      rw [hl] at hb
      simp at hb
      omega
  simp [hlast]

theorem lastMemLoop_spec {s : LogStore} (hc : s.Consecutive) {step start : Nat} (hs : 0 < step) :
    ∀ (e : Nat) (res : List StoredMem), res.length < 2 →
      lastMemLoop s step start hs e res = lastTwo (mems (s.read start e) ++ res) := by
  intro e
  induction e using Nat.strongRecOn with
  | ind e ih =>
    intro res hr
    rw [lastMemLoop]
    by_cases h : start < e
    · rw [dif_pos h]
      obtain ⟨e1, e2⟩ := scanChunk_spec (s.read (max start (e - step)) e) res hr
      have hsplit : s.read start e = s.read start (max start (e - step)) ++
          s.read (max start (e - step)) e := read_split hc (by omega) (by omega)
      cases hsc : scanChunk (s.read (max start (e - step)) e).reverse res with
      | error r =>
        obtain ⟨h1, h2⟩ := e1 r hsc
        simp only
        rw [hsplit, mems_append, List.append_assoc]
        have h3 : 2 ≤ (mems (s.read (max start (e - step)) e) ++ res).length := by
          have := congrArg List.length h1
          unfold lastTwo at this
          rw [List.length_drop] at this
          omega
        rw [h1]
        generalize mems (s.read (max start (e - step)) e) ++ res = B at h3 ⊢
        generalize mems (s.read start (max start (e - step))) = A
        unfold lastTwo
        rw [List.length_append, List.drop_append,
          List.drop_eq_nil_of_le (as := A) (by omega), List.nil_append]
        congr 1
        omega
      | ok r =>
        obtain ⟨h1, h2⟩ := e2 r hsc
        simp only
        rw [ih (e - step) (by omega) r h2, hsplit, mems_append, List.append_assoc, ← h1]
        by_cases hle : start ≤ e - step
        · rw [show max start (e - step) = e - step by omega]
        · have hz : ∀ x y : Nat, y ≤ x → s.read x y = [] := by
            intro x y hxy
            unfold LogStore.read
            rw [List.filter_eq_nil_iff]
            intro z _ hz
            simp at hz; omega
          rw [hz start (e - step) (by omega), hz start (max start (e - step)) (by omega)]
    · rw [dif_neg h]
      have hz : s.read start e = [] := by
        unfold LogStore.read
        rw [List.filter_eq_nil_iff]
        intro z _ hz
        simp at hz; omega
      rw [hz]
      simp only [mems, List.filterMap_nil, List.nil_append]
      exact (lastTwo_of_lt (by omega)).symm

/-- **C31.** For every gapless log store and every `since`, the backward scan in chunks of 64 returns
exactly the last two (or fewer) membership entries of the log with an index at or after `since`, in
log order. Termination is part of the definition of `lastMemLoop`. -/
theorem C31_scan_exact {s : LogStore} (hc : s.Consecutive) (since : Nat) :
    lastMembershipInLog s since =
      lastTwo (mems (s.entries.filter fun e => decide (since ≤ e.id.index))) := by
  unfold lastMembershipInLog
  rw [lastMemLoop_spec hc (by omega) _ _ (by simp), List.append_nil, read_all hc (Nat.le_refl _)]
  congr 2
  apply List.filter_congr
  intro e he
  obtain ⟨i, hi⟩ := List.mem_iff_getElem?.1 he
  have := hc i e hi
  by_cases h : since ≤ e.id.index
  · simp [h]; omega
  · have : ¬ max (nextIndex s.purged) since ≤ e.id.index := by omega
    simp [h]; omega

/-- the chunk size does not matter -/
theorem C31_any_chunk_size {s : LogStore} (hc : s.Consecutive) {step : Nat} (hs : 0 < step)
    (start : Nat) : lastMemLoop s step start hs (nextIndex s.lastLogId) [] =
      lastTwo (mems (s.entries.filter fun e => decide (start ≤ e.id.index))) := by
  rw [lastMemLoop_spec hc hs _ _ (by simp), List.append_nil, read_all hc (Nat.le_refl _)]

/-- **C31 (get_membership).** The effective membership found at start-up is the one of the last
membership entry after the applied position, or the state machine's if there is none; the committed
one is the second to last, or the state machine's. -/
theorem C31_get_membership {s : LogStore} (hc : s.Consecutive) (applied : Option LogId)
    (smMem : StoredMem) :
    let ms := mems (s.entries.filter fun e => decide (nextIndex applied ≤ e.id.index))
    (getMembership s applied smMem).effective = (ms.getLast?).getD smMem ∧
    (getMembership s applied smMem).committed = (ms.dropLast.getLast?).getD smMem := by
  intro ms
  have h := C31_scan_exact hc (nextIndex applied)
  unfold getMembership
  rw [h]
  have gen : ∀ ms : List StoredMem, (match lastTwo ms with
      | [a, b] => (⟨a, b⟩ : MemState)
      | [] => ⟨smMem, smMem⟩
      | a :: _ => ⟨smMem, a⟩) = ⟨(ms.dropLast.getLast?).getD smMem, (ms.getLast?).getD smMem⟩ := by
    intro ms
    rcases List.eq_nil_or_concat ms with rfl | ⟨l, b, rfl⟩
    · simp [lastTwo]
    · rcases List.eq_nil_or_concat l with rfl | ⟨l', a, rfl⟩
      · simp [lastTwo]
      · have : lastTwo (l' ++ [a] ++ [b]) = [a, b] := by
          rw [List.append_assoc]
          exact lastTwo_append_of_two rfl
        simp only [List.concat_eq_append] at *
        rw [this]
        simp
  exact ⟨congrArg MemState.effective (gen ms), congrArg MemState.committed (gen ms)⟩

/-- a log with three membership entries, two of them in different chunks -/
def sampleStore : LogStore :=
  ⟨some ⟨⟨1, 1⟩, 9⟩, (List.range 200).map fun i => ⟨⟨⟨2, 1⟩, 10 + i⟩,
    if i = 3 ∨ i = 50 ∨ i = 130 then .membership ⟨[[i]], [(i, 0)]⟩ else .blank⟩⟩

example : sampleStore.Consecutive := by
  intro i e h
  simp only [sampleStore, List.getElem?_map] at h ⊢
  cases hr : (List.range 200)[i]? with
  | none => rw [hr] at h; simp at h
  | some j =>
    rw [hr] at h
    have : j = i := by
      rw [List.getElem?_eq_some_iff] at hr
      obtain ⟨_, hr⟩ := hr
      simpa using hr.symm
    simp at h
    rw [← h]; simp; omega

example : (lastTwo (mems (sampleStore.entries.filter fun e => decide (0 ≤ e.id.index)))).map
    (·.mem.configs) = [[[50]], [[130]]] := by decide +kernel

end Openraft.Props
