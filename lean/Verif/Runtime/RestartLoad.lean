import Verif.Runtime.Restart
import Verif.Props.LogIdProps
import Verif.Props.StartupProps

/-!
# What the start-up reads is what the log holds
-/

set_option autoImplicit false

namespace Openraft.Runtime
open Openraft.Engine Openraft.LogIdList

/-- the log ids of a log store, from the purged one on -/
def LogStore.all (s : LogStore) : List LogId := s.purged.toList ++ s.entries.map (·.id)

/-- a log store without holes, with leader ids that do not decrease -/
structure LogWf (s : LogStore) : Prop where
  cons : Cons (LogStore.all s)
  start : ∀ e, s.entries.head? = some e → e.id.index = nextIndex s.purged

namespace LogWf
variable {s : LogStore}

theorem consecutive (h : LogWf s) : s.Consecutive := by
  intro i e he
  cases hn : s.entries with
  | nil => rw [hn] at he; cases he
  | cons a r =>
    have h0 := h.start a (by rw [hn]; rfl)
    have hc := (cons_append.1 h.cons).2.1
    rw [hn] at hc he
    have h1 : ((a :: r).map (·.id))[i]? = some e.id := by rw [List.getElem?_map, he]; rfl
    have := Cons.getElem? hc h1
    simp only at this
    omega

theorem last_eq (s : LogStore) : s.lastLogId = (LogStore.all s).getLast? := by
  unfold LogStore.lastLogId LogStore.all
  cases he : s.entries.getLast? with
  | none =>
    rw [List.getLast?_eq_none_iff] at he
    simp only [he, List.map_nil, List.append_nil]
    cases s.purged <;> rfl
  | some e =>
    have : (s.entries.map (·.id)).getLast? = some e.id := by simp [he]
    rw [List.getLast?_append, this]; rfl

theorem next_last (h : LogWf s) : nextIndex s.lastLogId = nextIndex s.purged + s.entries.length := by
  unfold LogStore.lastLogId
  cases he : s.entries.getLast? with
  | none => rw [List.getLast?_eq_none_iff] at he; simp [he]
  | some e =>
    rw [List.getLast?_eq_getElem?] at he
    have h1 := h.consecutive _ e he
    have h2 := (List.getElem?_eq_some_iff.1 he).1
    simp only [nextIndex_some]; omega

end LogWf

theorem filter_range (es : List Ent) (n a b : Nat) (hc : ∀ (i : Nat) (e : Ent), es[i]? = some e → e.id.index = n + i) (ha : n ≤ a) :
    es.filter (fun e => decide (a ≤ e.id.index) && decide (e.id.index < b)) = (es.drop (a - n)).take (b - a) := by
  induction es generalizing n a with
  | nil => simp
  | cons e es ih =>
    have h0 : e.id.index = n := by simpa using hc 0 e (by simp)
    have hc' : ∀ (i : Nat) (x : Ent), es[i]? = some x → x.id.index = (n + 1) + i := by
      intro i x hx
      have := hc (i + 1) x (by simpa using hx)
      omega
    by_cases h1 : a = n
    · subst h1
      by_cases h2 : a < b
      · rw [List.filter_cons_of_pos (by simp; omega), Nat.sub_self, List.drop_zero,
          show b - a = (b - (a + 1)) + 1 by omega, List.take_succ_cons]
        congr 1
        have := ih (a + 1) (a + 1) hc' (Nat.le_refl _)
        rw [Nat.sub_self, List.drop_zero] at this
        rw [← this]
        apply List.filter_congr
        intro x hx
        obtain ⟨i, hi⟩ := List.mem_iff_getElem?.1 hx
        have := hc' i x hi
        have h3 : a ≤ x.id.index := by omega
        have h4 : a + 1 ≤ x.id.index := by omega
        simp [h3, h4]
      · rw [show b - a = 0 by omega, List.take_zero, List.filter_eq_nil_iff]
        intro x _
        simp; omega
    · rw [List.filter_cons_of_neg (by simp; omega), ih (n + 1) a hc' (by omega),
        show a - n = (a - (n + 1)) + 1 by omega, List.drop_succ_cons]

theorem LogWf.read_eq {s : LogStore} (h : LogWf s) {a : Nat} (b : Nat) (ha : nextIndex s.purged ≤ a) :
    s.read a b = (s.entries.drop (a - nextIndex s.purged)).take (b - a) :=
  filter_range s.entries _ a b h.consecutive ha

theorem LogWf.read_spec {s : LogStore} (h : LogWf s) {a b : Nat} (ha : nextIndex s.purged ≤ a) (hb : b ≤ nextIndex s.lastLogId) (hab : a < b) :
    (s.read a b).length = b - a ∧ (s.read a b).head?.map (·.id.index) = some a ∧
    (s.read a b).getLast?.map (·.id.index) = some (b - 1) := by
  rw [h.next_last] at hb
  have hlen : (s.read a b).length = b - a := by
    rw [h.read_eq b ha, List.length_take, List.length_drop]; omega
  have hget : ∀ (i : Nat) (e : Ent), (s.read a b)[i]? = some e → e.id.index = a + i := by
    intro i e he
    rw [h.read_eq b ha, List.getElem?_take] at he
    split at he
    · rw [List.getElem?_drop] at he
      have := h.consecutive _ e he
      omega
    · cases he
  refine ⟨hlen, ?_, ?_⟩
  · rw [List.head?_eq_getElem?]
    cases hx : (s.read a b)[0]? with
    | none => rw [List.getElem?_eq_none_iff] at hx; omega
    | some e => have := hget 0 e hx; simp [this]
  · rw [List.getLast?_eq_getElem?, hlen]
    cases hx : (s.read a b)[b - a - 1]? with
    | none => rw [List.getElem?_eq_none_iff] at hx; omega
    | some e =>
      have := hget _ e hx
      simp only [Option.map_some, Option.some.injEq]; omega

/-! ## re-applying -/

theorem Sm.apply_nil (s : Sm) : s.apply [] = s := by
  cases s; simp [Sm.apply, Node.memAfter]

theorem Sm.apply_append (s : Sm) (a b : List Ent) : (s.apply a).apply b = s.apply (a ++ b) := by
  unfold Sm.apply
  simp only [List.append_assoc, Sm.mk.injEq, and_true]
  constructor
  · rw [List.getLast?_append]
    cases b.getLast? <;> simp
  · unfold Node.memAfter
    rw [List.filterMap_append, List.getLastD_eq_getLast?, List.getLastD_eq_getLast?, List.getLastD_eq_getLast?, List.getLast?_append]
    cases (b.filterMap (·.stored?)).getLast? <;> simp

/-- every entry from `start` on is applied once, in order -/
theorem reapply_ok {st : LogStore} (h : LogWf st) {stop : Nat} (hs : stop ≤ nextIndex st.lastLogId) (fuel start : Nat) (s : Sm)
    (hp : nextIndex st.purged ≤ start) (hf : stop - start ≤ fuel) :
    reapply st stop fuel start s = .ok (s.apply (st.read start stop)) := by
  have hz : ∀ x y : Nat, y ≤ x → st.read x y = [] := by
    intro x y hxy
    unfold LogStore.read
    rw [List.filter_eq_nil_iff]
    intro z _ hz
    simp at hz; omega
  induction fuel generalizing start s with
  | zero =>
    unfold reapply
    rw [hz _ _ (by omega), Sm.apply_nil]
  | succ fuel ih =>
    unfold reapply
    split
    · next hlt =>
      obtain ⟨h1, h2, h3⟩ := h.read_spec (b := min stop (start + 64)) hp (by omega) (by omega)
      simp only
      rw [if_pos h2, if_pos h3, ih _ _ (by omega) (by omega), Sm.apply_append,
        ← Openraft.Props.read_split h.consecutive (by omega) (by omega)]
    · rw [hz _ _ (by omega), Sm.apply_nil]

/-! ## loading the key log ids -/

theorem getLogIdAt_ok {st : LogStore} (h : LogWf st) {x : LogId} (hx : x ∈ st.entries.map (·.id)) :
    getLogIdAt st x.index = .ok x := by
  obtain ⟨e, he, rfl⟩ := List.mem_map.1 hx
  obtain ⟨i, hi⟩ := List.mem_iff_getElem?.1 he
  have h1 := h.consecutive i e hi
  have h2 := (List.getElem?_eq_some_iff.1 hi).1
  unfold getLogIdAt
  rw [h.read_eq _ (by omega), List.head?_eq_getElem?, List.getElem?_take, if_pos (by omega), List.getElem?_drop,
    show e.id.index - nextIndex st.purged + 0 = i by omega, hi]

theorem loadLoop_of {st : LogStore} {ids : Nat → LogId} {F L : Nat} (hrd : ∀ i, F < i → i < L → getLogIdAt st i = .ok (ids i))
    (hidx : ∀ i, F ≤ i → i ≤ L → (ids i).index = i) (fuel : Nat) (stack : List (LogId × LogId)) (res r : LogIdList)
    (hst : ∀ p ∈ stack, F ≤ p.1.index ∧ p.2.index ≤ L ∧ p.1.index ≤ p.2.index ∧ (p.1.index = p.2.index → p.1 = p.2))
    (hr : LogIdList.loadLoop ids fuel stack res = some r) : loadLoop st fuel stack res = .ok r := by
  induction fuel generalizing stack res with
  | zero => cases hr
  | succ fuel ih =>
    cases stack with
    | nil => simp only [LogIdList.loadLoop, Option.some.injEq] at hr; subst hr; rfl
    | cons p stack =>
      obtain ⟨first, last⟩ := p
      obtain ⟨h1, h2, h3, h4⟩ := hst _ (List.mem_cons_self)
      have hst' : ∀ p ∈ stack, _ := fun p hp => hst p (List.mem_cons_of_mem _ hp)
      unfold LogIdList.loadLoop at hr
      unfold loadLoop
      split at hr
      · next hc => rw [if_pos hc]; exact ih _ _ hst' hr
      · next hc =>
        rw [if_neg hc]
        split at hr
        · next hd => rw [if_pos hd]; exact ih _ _ hst' hr
        · next hd =>
          rw [if_neg hd]
          simp only at h1 h2 h3 h4
          have hlt : first.index < last.index := by
            rcases Nat.lt_or_ge first.index last.index with h5 | h5
            · exact h5
            · exact absurd (congrArg LogId.leaderId (h4 (by omega))) hc
          have hm1 : first.index < (first.index + last.index) / 2 := by omega
          have hm2 : (first.index + last.index) / 2 < last.index := by omega
          have hmi := hidx ((first.index + last.index) / 2) (by omega) (by omega)
          rw [hrd _ (by omega) (by omega)]
          simp only at hr ⊢
          have a1 : F ≤ first.index ∧ (ids ((first.index + last.index) / 2)).index ≤ L ∧
              first.index ≤ (ids ((first.index + last.index) / 2)).index ∧
              (first.index = (ids ((first.index + last.index) / 2)).index → first = ids ((first.index + last.index) / 2)) :=
            ⟨h1, by omega, by omega, fun h => by omega⟩
          have a2 : F ≤ (ids ((first.index + last.index) / 2)).index ∧ last.index ≤ L ∧
              (ids ((first.index + last.index) / 2)).index ≤ last.index ∧
              ((ids ((first.index + last.index) / 2)).index = last.index → ids ((first.index + last.index) / 2) = last) :=
            ⟨by omega, h2, by omega, fun h => by omega⟩
          split at hr
          · next he =>
            rw [if_pos he]
            refine ih _ _ ?_ hr
            intro p hp
            rcases List.mem_cons.1 hp with rfl | hp
            · exact a2
            · exact hst' p hp
          · next he =>
            rw [if_neg he]
            split at hr
            · next hf =>
              rw [if_pos hf]
              refine ih _ _ ?_ hr
              intro p hp
              rcases List.mem_cons.1 hp with rfl | hp
              · exact a1
              · exact hst' p hp
            · next hf =>
              rw [if_neg hf]
              refine ih _ _ ?_ hr
              intro p hp
              rcases List.mem_cons.1 hp with rfl | hp
              · exact a1
              · rcases List.mem_cons.1 hp with rfl | hp
                · exact a2
                · exact hst' p hp

/-- the loaded list stands for the ids of the log -/
theorem loadLogIds_ok {st : LogStore} (h : LogWf st) :
    ∃ ks, loadLogIds st st.purged st.lastLogId = .ok ks ∧ SortedIdx ks ∧ expand ks = LogStore.all st := by
  rw [LogWf.last_eq]
  cases hl : (LogStore.all st).getLast? with
  | none =>
    rw [List.getLast?_eq_none_iff] at hl
    exact ⟨[], rfl, by simp [SortedIdx], by rw [hl]; rfl⟩
  | some last =>
    have hcons := h.cons
    cases hall : LogStore.all st with
    | nil => rw [hall] at hl; cases hl
    | cons a r =>
      rw [hall] at hl hcons
      have hlast : last.index = a.index + r.length := by
        rw [List.getLast?_eq_getElem?] at hl
        have := hcons.getElem? hl
        simpa using this
      let ids : Nat → LogId := fun i => ((a :: r)[i - a.index]?).getD a
      have hids : ∀ (i : Nat) (x : LogId), (a :: r)[i]? = some x → ids (a.index + i) = x := by
        intro i x hx
        show ((a :: r)[a.index + i - a.index]?).getD a = x
        rw [Nat.add_sub_cancel_left, hx]; rfl
      have hget : ∀ i, a.index ≤ i → i ≤ last.index → (a :: r)[i - a.index]? = some (ids i) := by
        intro i h1 h2
        have hlt : i - a.index < (a :: r).length := by simp; omega
        show _ = some (((a :: r)[i - a.index]?).getD a)
        rw [List.getElem?_eq_getElem hlt]; rfl
      have hidx : ∀ i, a.index ≤ i → i ≤ last.index → (ids i).index = i := by
        intro i h1 h2
        have := hcons.getElem? (hget i h1 h2)
        omega
      have hmem : ∀ i, a.index ≤ i → i ≤ last.index → ids i ∈ a :: r := fun i h1 h2 => List.mem_of_getElem? (hget i h1 h2)
      have hmono : ∀ i j, a.index ≤ i → i ≤ j → j ≤ last.index → (ids i).leaderId ≤ (ids j).leaderId := by
        intro i j h1 h2 h3
        refine hcons.mono (hmem i h1 (by omega)) (hmem j (by omega) h3) ?_
        rw [hidx i h1 (by omega), hidx j (by omega) h3]; exact h2
      have hfirst : match st.purged with
          | none => a.index = 0
          | some p => a = p := by
        unfold LogStore.all at hall
        cases hp : st.purged with
        | none =>
          rw [hp] at hall
          simp only [Option.toList_none, List.nil_append, List.map_eq_cons_iff] at hall
          obtain ⟨e, es, h1, h2, _⟩ := hall
          have := h.start e (by rw [h1]; rfl)
          rw [hp, h2] at this; simpa using this
        | some p => rw [hp] at hall; simp at hall; exact hall.1.symm
      have hf0 : ids a.index = a := by have := hids 0 a rfl; simpa using this
      have hl0 : ids last.index = last := by
        have := hids r.length last (by rw [List.getLast?_eq_getElem?] at hl; simpa using hl)
        rw [← hlast] at this; exact this
      obtain ⟨ks, k1, k2, _, k4⟩ := Openraft.Props.load_expand (ids := ids) (purged := st.purged) (first := a) (last := last)
        (fuel := 2 * last.index + 2) hfirst (by omega) hf0 hl0 hidx hmono (by omega)
      refine ⟨ks, ?_, k2, ?_⟩
      · have hloop : ∃ res, LogIdList.loadLoop ids (2 * last.index + 2) [(a, last)] [] = some res ∧
            ks = if res.getLast? ≠ some last then res ++ [last] else res := by
          have hfst : st.purged.getD (ids 0) = a := by
            cases hp : st.purged with
            | none => rw [hp] at hfirst; simp only at hfirst; rw [Option.getD_none, ← hfirst]; exact hf0
            | some p => rw [hp] at hfirst; exact hfirst.symm
          have : LogIdList.loadLogIds st.purged (some last) ids (2 * last.index + 2) =
              match LogIdList.loadLoop ids (2 * last.index + 2) [(st.purged.getD (ids 0), last)] [] with
              | none => none
              | some res => some (if res.getLast? ≠ some last then res ++ [last] else res) := by
            unfold LogIdList.loadLogIds; cases st.purged <;> rfl
          rw [this, hfst] at k1
          cases hx : LogIdList.loadLoop ids (2 * last.index + 2) [(a, last)] [] with
          | none => rw [hx] at k1; cases k1
          | some res => rw [hx] at k1; simp only [Option.some.injEq] at k1; exact ⟨res, rfl, k1.symm⟩
        obtain ⟨res, hres, hks⟩ := hloop
        have hrd : ∀ i, a.index < i → i < last.index → getLogIdAt st i = .ok (ids i) := by
          intro i h1 h2
          have hm := hmem i (by omega) (by omega)
          have hi := hidx i (by omega) (by omega)
          rw [← hall] at hm
          unfold LogStore.all at hm
          have hm' : ids i ∈ st.entries.map (·.id) := by
            rcases List.mem_append.1 hm with hm | hm
            · exfalso
              cases hp : st.purged with
              | none => rw [hp] at hm; cases hm
              | some p =>
                rw [hp] at hm hfirst
                simp at hm hfirst
                rw [hm, ← hfirst] at hi; omega
            · exact hm
          have := getLogIdAt_ok h hm'
          rw [hi] at this; exact this
        have hE := loadLoop_of hrd hidx (2 * last.index + 2) [(a, last)] [] res (by
          intro p hp
          simp only [List.mem_singleton] at hp
          subst hp
          refine ⟨Nat.le_refl _, Nat.le_refl _, by simp only; omega, fun hh => ?_⟩
          simp only at hh ⊢
          rw [← hf0, ← hl0, hh]) hres
        have hfE : (match st.purged with
            | none => getLogIdAt st 0
            | some x => Except.ok x) = Except.ok a := by
          cases hp : st.purged with
          | some p => rw [hp] at hfirst; simp only at hfirst; rw [hfirst]
          | none =>
            rw [hp] at hfirst
            simp only at hfirst ⊢
            have hm : a ∈ st.entries.map (·.id) := by
              have : a ∈ LogStore.all st := by rw [hall]; simp
              unfold LogStore.all at this
              rw [hp] at this; simpa using this
            have := getLogIdAt_ok h hm
            rw [hfirst] at this; exact this
        unfold loadLogIds
        simp only [bind, Except.bind, pure, Except.pure]
        cases hp : st.purged with
        | none =>
          rw [hp] at hfE
          simp only at hfE ⊢
          rw [hfE]
          simp only
          rw [hE]
          simp only
          rw [hks]
        | some p =>
          rw [hp] at hfE
          simp only [Except.ok.injEq] at hfE ⊢
          rw [hfE, hE]
          simp only
          rw [hks]
      · rw [k4]
        unfold idsTo
        apply List.ext_getElem?
        intro i
        rw [List.getElem?_map]
        by_cases hi : i < r.length + 1
        · rw [List.getElem?_range' (by omega)]
          have := hget (a.index + i) (by omega) (by omega)
          rw [Nat.add_sub_cancel_left] at this
          rw [this]; simp
        · rw [List.getElem?_eq_none (by simp; omega), List.getElem?_eq_none (by simp; omega)]; rfl

end Openraft.Runtime
