import Verif.Repl.Session
import Mathlib.Order.Nat
import Mathlib.Data.Nat.Basic

/-!
# Invariant of a replication session
-/

set_option autoImplicit false

namespace Openraft.Repl

variable {ids : List LogId} {a b : Option LogId}

theorem has_lt_length {l : LogId} (h : Has ids (some l)) : l.index < ids.length := by
  simp only [Has] at h
  by_contra hc
  rw [List.getElem?_eq_none (by omega)] at h
  cases h

theorem has_next_le (h : Has ids a) : nextIndex a ≤ ids.length := by
  cases a with
  | none => simp
  | some l => have := has_lt_length h; simp; omega

theorem has_inj (ha : Has ids a) (hb : Has ids b) (h : nextIndex a = nextIndex b) : a = b := by
  cases a with
  | none => cases b with
    | none => rfl
    | some y => simp at h
  | some x => cases b with
    | none => simp at h
    | some y =>
      simp at h
      simp only [Has] at ha hb
      simp only [h] at ha
      rw [ha] at hb
      exact hb

theorem has_lt (w : WfIds ids) (ha : Has ids a) (hb : Has ids b) :
    a < b ↔ nextIndex a < nextIndex b := by
  cases a with
  | none => cases b with
    | none => simp
    | some y => exact ⟨fun _ => by simp, fun _ => OptOrd.none_lt_some'⟩
  | some x => cases b with
    | none => exact ⟨fun h => absurd h OptOrd.not_lt_none', fun h => by simp at h⟩
    | some y =>
      simp only [nextIndex_some, Nat.add_lt_add_iff_right]
      constructor
      · intro h
        by_contra hc
        rcases Nat.lt_or_eq_of_le (Nat.le_of_not_lt hc) with h1 | h1
        · have := w.2 y.index x.index y x h1 hb ha
          rcases (h : x < y) with h2 | ⟨_, h2⟩
          · exact absurd h2 (not_lt.mpr this)
          · omega
        · have : (some x : Option LogId) = some y := has_inj ha hb (by simp [h1])
          rw [this] at h
          exact lt_irrefl _ h
      · intro h
        have := w.2 x.index y.index x y h ha hb
        show x < y
        rcases lt_or_eq_of_le this with h1 | h1
        · exact Or.inl h1
        · exact Or.inr ⟨h1, h⟩

theorem has_le (w : WfIds ids) (ha : Has ids a) (hb : Has ids b) :
    a ≤ b ↔ nextIndex a ≤ nextIndex b := by
  rw [← not_lt, has_lt w hb ha, not_lt]

theorem has_append (h : Has ids a) (new : List LogId) : Has (ids ++ new) a := by
  cases a with
  | none => trivial
  | some l =>
    have := has_lt_length h
    simp only [Has] at h ⊢
    rw [List.getElem?_append_left this]
    exact h

/-- the id before position `n`, when it is not purged -/
theorem prevLogId_spec {s : LogView} (w : WfIds s.ids) {n : Nat}
    (hp : nextIndex s.purged ≤ n) (hn : n ≤ s.ids.length) :
    Has s.ids (s.prevLogId n) ∧ nextIndex (s.prevLogId n) = n := by
  unfold LogView.prevLogId
  by_cases h0 : n = 0
  · simp [h0, Has]
  · rw [if_neg h0]
    have hg : s.getLogId (n - 1) = s.ids[n-1]? := by
      unfold LogView.getLogId
      cases hq : s.purged with
      | none => rfl
      | some p =>
        rw [hq] at hp
        simp at hp
        simp only
        rw [if_neg (by omega)]
    rw [hg]
    have hlt : n - 1 < s.ids.length := by omega
    rw [List.getElem?_eq_getElem hlt]
    have hidx := w.1 (n-1) _ (List.getElem?_eq_getElem hlt)
    constructor
    · unfold Has
      simp only [hidx]
      exact List.getElem?_eq_getElem hlt
    · simp only [nextIndex_some, hidx]
      omega

/-- what holds for the entry of the leader -/
structure EOk (v : LogView) (F : List LogId) (e : Entry) : Prop where
  hm : Has v.ids e.matching
  hf : Has F e.matching
  lo : nextIndex e.matching ≤ e.searchingEnd
  hi : e.searchingEnd ≤ v.ids.length
  logs : ∀ p l, e.inflight = .logs p l → Has v.ids p ∧ Has v.ids l ∧ nextIndex p < nextIndex l ∧
    nextIndex e.matching ≤ nextIndex p ∧ nextIndex p ≤ e.searchingEnd ∧
    nextIndex v.purged ≤ nextIndex p
  snap : ∀ x, e.inflight = .snapshot x → Has v.ids x ∧ nextIndex e.matching < nextIndex x

/-- a report that fits what the leader has in flight -/
def Legit (dbg : Bool) (v : LogView) (F : List LogId) (e : Entry) : Report → Prop
  | .ok m => Has v.ids m ∧ Has F m ∧
    match e.inflight with
    | .none => False
    | .logs p l => nextIndex p ≤ nextIndex m ∧ nextIndex m ≤ nextIndex l
    | .snapshot x => nextIndex x ≤ nextIndex m ∧ (dbg = true → m = x)
  | .conflict c => (∃ l, e.inflight = .logs (some c) l) ∧ nextIndex e.matching ≤ c.index
  | .err => e.inflight ≠ .none

/-- the entry after a report that fits -/
def after (e : Entry) : Report → Entry
  | .ok m => { matching := m
               inflight := match e.inflight with
                 | .logs _ l => Inflight.mkLogs m l
                 | _ => .none
               searchingEnd := max e.searchingEnd (nextIndex m) }
  | .conflict c => { e with inflight := .none, searchingEnd := c.index }
  | .err => e.resetInflight

/-- the queued reports fit one after the other, and the task executes what remains -/
def Chain (dbg : Bool) (v : LogView) (F : List LogId) : Entry → List Report → Inflight → Prop
  | e, [], t => t = e.inflight
  | e, r :: q, t => Legit dbg v F e r ∧ Chain dbg v F (after e r) q t

variable {v : LogView} {F : List LogId} {e : Entry} {r : Report} {dbg exact : Bool}

theorem EOk.after (w : WfIds v.ids) (h : EOk v F e) (l : Legit dbg v F e r) :
    EOk v F (after e r) := by
  cases r with
  | err =>
    exact ⟨h.hm, h.hf, h.lo, h.hi, fun p l h => (by cases h), fun x h => (by cases h)⟩
  | conflict c =>
    obtain ⟨⟨ll, hl⟩, hc⟩ := l
    have h3 := h.logs _ _ hl
    simp at h3
    exact ⟨h.hm, h.hf, hc, (by show c.index ≤ _; have := h.hi; omega),
      fun p l h => (by cases h), fun x h => (by cases h)⟩
  | ok m =>
    obtain ⟨h1, h2, h3⟩ := l
    have hlen := has_next_le h1
    have hhi := h.hi
    refine ⟨h1, h2, ?_, ?_, ?_, ?_⟩
    · exact Nat.le_max_right _ _
    · exact Nat.max_le.mpr ⟨hhi, hlen⟩
    · intro p l hpl
      simp only [Repl.after] at hpl ⊢
      cases hi : e.inflight with
      | none => rw [hi] at hpl; cases hpl
      | snapshot x => rw [hi] at hpl; cases hpl
      | logs p0 l0 =>
        rw [hi] at hpl h3
        simp only [Inflight.mkLogs] at hpl
        split at hpl
        · next hlt =>
          cases hpl
          obtain ⟨k1, k2, k3, k4, k5, k6⟩ := h.logs _ _ hi
          refine ⟨h1, k2, (has_lt w h1 k2).mp hlt, le_refl _, by omega, by omega⟩
        · cases hpl
    · intro x hx
      simp only [Repl.after] at hx
      cases hi : e.inflight with
      | none => rw [hi] at hx; cases hx
      | snapshot x => rw [hi] at hx; cases hx
      | logs p0 l0 =>
        rw [hi] at hx
        simp only [Inflight.mkLogs] at hx
        split at hx <;> cases hx

theorem handle_legit (w : WfIds v.ids) (h : EOk v F e) (l : Legit dbg v F e r) :
    handle dbg e r = .ok (after e r) := by
  cases r with
  | err => rfl
  | conflict c =>
    obtain ⟨⟨ll, hl⟩, hc⟩ := l
    have h3 := h.logs _ _ hl
    simp at h3
    have h4 : c.index < e.searchingEnd := by omega
    simp [handle, Entry.updateConflicting, Inflight.conflict, hl, dassert, after, hc, h4, bind,
      Except.bind, pure, Except.pure]
  | ok m =>
    obtain ⟨h1, h2, h3⟩ := l
    cases hi : e.inflight with
    | none => rw [hi] at h3; exact h3.elim
    | logs p0 l0 =>
      rw [hi] at h3
      obtain ⟨k1, k2, k3, k4, k5, k6⟩ := h.logs _ _ hi
      have a1 : p0 ≤ m := (has_le w k1 h1).mpr h3.1
      have a2 : m ≤ l0 := (has_le w h1 k2).mpr h3.2
      have a3 : e.matching ≤ m := (has_le w h.hm h1).mpr (by omega)
      simp [handle, Entry.updateMatching, Inflight.ack, hi, dassert, after, a1, a2, a3, bind,
        Except.bind, pure, Except.pure]
    | snapshot x =>
      rw [hi] at h3
      obtain ⟨k1, k2⟩ := h.snap _ hi
      have a3 : e.matching ≤ m := (has_le w h.hm h1).mpr (by omega)
      cases hd : dbg with
      | false =>
        simp [handle, Entry.updateMatching, Inflight.ack, hi, dassert, after, bind,
          Except.bind, pure, Except.pure]
      | true =>
        have hx := h3.2 hd
        subst hx
        simp [handle, Entry.updateMatching, Inflight.ack, hi, dassert, after, a3, bind,
          Except.bind, pure, Except.pure]

/-- the entry after all queued reports -/
def final (e : Entry) (q : List Report) : Entry := q.foldl after e

theorem Chain.final {q : List Report} {t : Inflight} (w : WfIds v.ids) (h : EOk v F e)
    (c : Chain dbg v F e q t) : EOk v F (final e q) ∧ t = (final e q).inflight := by
  induction q generalizing e with
  | nil => exact ⟨h, c⟩
  | cons r q ih => exact ih (h.after w c.1) c.2

theorem Chain.snoc {q : List Report} {t t' : Inflight} (c : Chain dbg v F e q t)
    (l : Legit dbg v F (Repl.final e q) r) (ht : t' = (Repl.after (Repl.final e q) r).inflight) :
    Chain dbg v F e (q ++ [r]) t' := by
  induction q generalizing e with
  | nil => exact ⟨l, ht⟩
  | cons r' q ih => exact ⟨c.1, ih c.2 l ht⟩

theorem Chain.mono {v' : LogView} {F' : List LogId} {q : List Report} {t : Inflight}
    (c : Chain dbg v F e q t) (hv : ∀ o, Has v.ids o → Has v'.ids o)
    (hF : ∀ m, Report.ok m ∈ q → Has F' m) : Chain dbg v' F' e q t := by
  induction q generalizing e with
  | nil => exact c
  | cons r q ih =>
    refine ⟨?_, ih c.2 fun m hm => hF m (List.mem_cons_of_mem _ hm)⟩
    have l := c.1
    cases r with
    | ok m => exact ⟨hv _ l.1, hF m List.mem_cons_self, l.2.2⟩
    | conflict c => exact l
    | err => exact l

theorem Chain.okHas {q : List Report} {t : Inflight} (c : Chain dbg v F e q t) :
    ∀ m, Report.ok m ∈ q → Has F m := by
  induction q generalizing e with
  | nil => intro m hm; cases hm
  | cons r q ih =>
    intro m hm
    rcases List.mem_cons.mp hm with rfl | h
    · exact c.1.2.1
    · exact ih c.2 m h

/-- the invariant of a session -/
structure SInv (dbg : Bool) (s : Sess) : Prop where
  wf : WfIds s.view.ids
  lm : LogMatching s.view.ids s.follower
  purged : Has s.view.ids s.view.purged
  upto : Has s.view.ids s.view.purgeUpto
  snap : Has s.view.ids s.view.snapshot
  purged_le : nextIndex s.view.purged ≤ nextIndex s.view.purgeUpto
  upto_le : nextIndex s.view.purgeUpto ≤ nextIndex s.view.snapshot
  entry : EOk s.view s.follower s.entry
  chain : Chain dbg s.view s.follower s.entry s.queue s.task

theorem Initial.inv {s : Sess} (h : Initial s) : SInv dbg s := by
  obtain ⟨e, he, hs⟩ := h.entry
  refine ⟨h.wf, h.lm, h.purged, h.upto, h.snap, (has_le h.wf h.purged h.upto).mp h.purged_le,
    (has_le h.wf h.upto h.snap).mp h.upto_le, ?_, ?_⟩
  · rw [hs]
    exact ⟨trivial, trivial, by simp [Entry.empty], he, fun p l h => (by simp [Entry.empty] at h),
      fun x h => (by simp [Entry.empty] at h)⟩
  · rw [h.queue, h.task, hs]; rfl

/-- what `next_send` does when it is allowed to start an action -/
theorem nextSend_spec (w : WfIds v.ids)
    (hpu : nextIndex v.purged ≤ nextIndex v.purgeUpto)
    (he : EOk v F e) (hi : e.inflight = .none) (max : Nat) :
    (e.searchingEnd < nextIndex v.purgeUpto ∧
      e.nextSend dbg v max = .ok (true, { e with inflight := .snapshot v.snapshot })) ∨
    (nextIndex v.purgeUpto ≤ e.searchingEnd ∧ ∃ start,
      start = Nat.max (nextIndex e.matching + (e.searchingEnd - nextIndex e.matching) / 16 * 8)
        (nextIndex v.purgeUpto) ∧
      nextIndex e.matching ≤ start ∧ start ≤ e.searchingEnd ∧
      ((start = Nat.min (start + max) v.ids.length ∧ e.nextSend dbg v max = .ok (false, e)) ∨
       (start < Nat.min (start + max) v.ids.length ∧ ∃ p l, Has v.ids p ∧ Has v.ids l ∧
         nextIndex p = start ∧ nextIndex l = Nat.min (start + max) v.ids.length ∧
         e.nextSend dbg v max = .ok (true, { e with inflight := .logs p l })))) := by
  have h1 := he.lo
  have h2 := he.hi
  by_cases hs : e.searchingEnd < nextIndex v.purgeUpto
  · left
    refine ⟨hs, ?_⟩
    simp [Entry.nextSend, hi, dassert, LogView.lastNext, h2, hs, bind, Except.bind, pure,
      Except.pure]
  · right
    refine ⟨Nat.le_of_not_lt hs, _, rfl, ?_, ?_, ?_⟩
    · exact Nat.le_trans (Nat.le_add_right _ _) (Nat.le_max_left _ _)
    · exact Nat.max_le.mpr ⟨by omega, by omega⟩
    · generalize hst : Nat.max (nextIndex e.matching +
        (e.searchingEnd - nextIndex e.matching) / 16 * 8) (nextIndex v.purgeUpto) = start
      have hle : start ≤ v.ids.length := by
        rw [← hst]; exact Nat.max_le.mpr ⟨by omega, by omega⟩
      have hge : nextIndex v.purgeUpto ≤ start := by rw [← hst]; exact Nat.le_max_right _ _
      have hst' : (if nextIndex e.matching + (e.searchingEnd - nextIndex e.matching) / 16 * 8 <
          nextIndex v.purgeUpto then nextIndex v.purgeUpto else nextIndex e.matching +
          (e.searchingEnd - nextIndex e.matching) / 16 * 8) = start := by
        rw [← hst]
        show _ = Max.max _ _
        split
        · next h => exact (Nat.max_eq_right (by omega)).symm
        · next h => exact (Nat.max_eq_left (by omega)).symm
      by_cases heq : start = Nat.min (start + max) v.ids.length
      · left
        refine ⟨heq, ?_⟩
        have heq' : start = Min.min (start + max) v.ids.length := heq
        simp only [Entry.nextSend, hi, dassert, LogView.lastNext, h2, hs, Entry.calcMid, h1, bind,
          Except.bind, pure, Except.pure, ne_eq, not_true_eq_false, if_false, decide_true,
          Bool.not_true, Bool.and_false, Bool.false_eq_true, hst', ← heq', if_true]
        cases e; cases hi; rfl
      · right
        have hmin : Nat.min (start + max) v.ids.length ≤ v.ids.length := Nat.min_le_right _ _
        have hlt : start < Nat.min (start + max) v.ids.length := by
          have : start ≤ Nat.min (start + max) v.ids.length :=
            Nat.le_min.mpr ⟨by omega, hle⟩
          omega
        obtain ⟨a1, a2⟩ := prevLogId_spec w (Nat.le_trans hpu hge) hle
        obtain ⟨b1, b2⟩ := prevLogId_spec w
          (Nat.le_trans (Nat.le_trans hpu hge) (Nat.le_of_lt hlt)) hmin
        refine ⟨hlt, _, _, a1, b1, a2, b2, ?_⟩
        have hpl : v.prevLogId start < v.prevLogId (Min.min (start + max) v.ids.length) := by
          rw [has_lt w a1 b1, a2]
          exact lt_of_lt_of_eq hlt b2.symm
        have heq' : ¬ start = Min.min (start + max) v.ids.length := heq
        simp only [Entry.nextSend, hi, dassert, LogView.lastNext, h2, hs, Entry.calcMid, h1, bind,
          Except.bind, pure, Except.pure, ne_eq, not_true_eq_false, if_false, decide_true,
          Bool.not_true, Bool.and_false, Bool.false_eq_true, hst', if_neg heq', Inflight.mkLogs,
          if_pos hpl]

theorem Has.of_matching {F : List LogId} {m c : LogId} (lm : LogMatching ids F)
    (hm : Has ids (some m)) (hf : Has F (some m)) (hc : Has ids (some c)) (h : c.index ≤ m.index) :
    Has F (some c) := by
  have := lm m.index m hm hf c.index h
  show F[c.index]? = some c
  rw [← this]
  exact hc

theorem EOk.mono {v' : LogView} {F' : List LogId} (h : EOk v F e)
    (hv : ∀ o, Has v.ids o → Has v'.ids o) (hl : v.ids.length ≤ v'.ids.length)
    (hp : v'.purged = v.purged) (hF : Has F' e.matching) : EOk v' F' e := by
  refine ⟨hv _ h.hm, hF, h.lo, Nat.le_trans h.hi hl, ?_, ?_⟩
  · intro p l hpl
    obtain ⟨k1, k2, k3, k4, k5, k6⟩ := h.logs _ _ hpl
    exact ⟨hv _ k1, hv _ k2, k3, k4, k5, by rw [hp]; exact k6⟩
  · intro x hx
    obtain ⟨k1, k2⟩ := h.snap _ hx
    exact ⟨hv _ k1, k2⟩

/-- the invariant is kept and no event aborts -/
theorem SInv.step {s : Sess} {res : Except Panic Sess} (h : SInv dbg s)
    (hx : dbg = true → exact = true) (st : Step dbg exact s res) :
    ∃ s', res = .ok s' ∧ SInv dbg s' := by
  obtain ⟨wf, lm, purged, upto, snap, purged_le, upto_le, entry, chain⟩ := h
  cases st with
  | append new hw hl =>
    have hm : ∀ o, Has s.view.ids o → Has (s.view.ids ++ new) o := fun o ho => has_append ho new
    refine ⟨_, rfl, ⟨hw, hl, hm _ purged, hm _ upto, hm _ snap, purged_le, upto_le, ?_, ?_⟩⟩
    · exact entry.mono hm (by simp) rfl entry.hf
    · exact chain.mono hm chain.okHas
  | snapshot x hx1 hx2 =>
    refine ⟨_, rfl, ⟨wf, lm, purged, upto, hx1, purged_le, ?_, ?_, ?_⟩⟩
    · exact Nat.le_trans upto_le ((has_le wf snap hx1).mp hx2)
    · exact entry.mono (fun _ h => h) (Nat.le_refl _) rfl entry.hf
    · exact chain.mono (fun _ h => h) chain.okHas
  | schedule x hx1 hx2 hx3 =>
    refine ⟨_, rfl, ⟨wf, lm, purged, hx1, snap, ?_, ?_, ?_, ?_⟩⟩
    · exact (has_le wf purged hx1).mp hx2
    · exact (has_le wf hx1 snap).mp hx3
    · exact entry.mono (fun _ h => h) (Nat.le_refl _) rfl entry.hf
    · exact chain.mono (fun _ h => h) chain.okHas
  | purge =>
    refine ⟨_, rfl, ?_⟩
    unfold tryPurge
    split
    · exact ⟨wf, lm, purged, upto, snap, purged_le, upto_le, entry, chain⟩
    · split
      · exact ⟨wf, lm, purged, upto, snap, purged_le, upto_le, entry, chain⟩
      · next u hu =>
        split
        · exact ⟨wf, lm, purged, upto, snap, purged_le, upto_le, entry, chain⟩
        · next hin =>
          have hhas : Has s.view.ids (some u) := hu ▸ upto
          refine ⟨wf, lm, hhas, upto, snap, ?_, upto_le, ?_, ?_⟩
          · show nextIndex (some u) ≤ nextIndex s.view.purgeUpto
            rw [hu]
          · refine ⟨entry.hm, entry.hf, entry.lo, entry.hi, ?_, entry.snap⟩
            intro p l hpl
            obtain ⟨k1, k2, k3, k4, k5, _⟩ := entry.logs _ _ hpl
            refine ⟨k1, k2, k3, k4, k5, ?_⟩
            have hnl : ¬ (p < some u) := by
              intro hlt
              apply hin
              have hpl' : s.entry.inflight = .logs p l := hpl
              simp [Entry.isLogRangeInflight, hpl', hlt]
            rw [has_lt wf k1 hhas] at hnl
            exact Nat.le_of_not_lt hnl
          · exact chain.mono (fun _ h => h) chain.okHas
  | sendNothing max e' hs =>
    by_cases hi : s.entry.inflight = .none
    · have hse : e' = s.entry := by
        rcases nextSend_spec (dbg := dbg) wf purged_le entry hi max with
          ⟨_, h2⟩ | ⟨_, st, _, _, _, ⟨_, h2⟩ | ⟨_, p, l, _, _, _, _, h2⟩⟩
        · rw [h2] at hs; cases hs
        · rw [h2] at hs; cases hs; rfl
        · rw [h2] at hs; cases hs
      subst hse
      exact ⟨_, rfl, ⟨wf, lm, purged, upto, snap, purged_le, upto_le, entry, chain⟩⟩
    · have hse : e' = s.entry := by
        simp [Entry.nextSend, hi, bind, Except.bind, pure, Except.pure] at hs
        exact hs.symm
      subst hse
      exact ⟨_, rfl, ⟨wf, lm, purged, upto, snap, purged_le, upto_le, entry, chain⟩⟩
  | send max e' a hmax hs hsend =>
    by_cases hi : s.entry.inflight = .none
    · have hq : s.queue = [] := by
        cases hq : s.queue with
        | nil => rfl
        | cons r q =>
          rw [hq] at chain
          have := chain.1
          cases r with
          | ok m => simp [Legit, hi] at this
          | conflict c => simp [Legit, hi] at this
          | err => exact absurd hi this
      refine ⟨_, rfl, ?_⟩
      have key : EOk s.view s.follower e' ∧ a = e'.inflight := by
        rcases nextSend_spec (dbg := dbg) wf purged_le entry hi max with
          ⟨h1, h2⟩ | ⟨h0, st, hst, hlo, hhi, ⟨_, h2⟩ | ⟨hlt, p, l, hp, hl, hpn, hln, h2⟩⟩
        · rw [h2] at hs; cases hs
          cases hsend
          refine ⟨⟨entry.hm, entry.hf, entry.lo, entry.hi, fun _ _ h => (by cases h), ?_⟩, rfl⟩
          intro x hx
          cases hx
          have := entry.lo
          refine ⟨snap, ?_⟩
          show nextIndex s.entry.matching < nextIndex s.view.snapshot
          omega
        · rw [h2] at hs; cases hs
        · rw [h2] at hs; cases hs
          cases hsend
          refine ⟨⟨entry.hm, entry.hf, entry.lo, entry.hi, ?_, fun _ h => (by cases h)⟩, rfl⟩
          intro p' l' hpl
          cases hpl
          refine ⟨hp, hl, by rw [hpn, hln]; exact hlt, by rw [hpn]; exact hlo,
            by rw [hpn]; exact hhi, ?_⟩
          rw [hpn, hst]
          exact Nat.le_trans purged_le (Nat.le_max_right _ _)
      refine ⟨wf, lm, purged, upto, snap, purged_le, upto_le, key.1, ?_⟩
      show Chain dbg s.view s.follower e' s.queue a
      rw [hq]
      exact key.2
    · simp [Entry.nextSend, hi, bind, Except.bind, pure, Except.pure] at hs
  | sendAborts max p hs =>
    exfalso
    by_cases hi : s.entry.inflight = .none
    · rcases nextSend_spec (dbg := dbg) wf purged_le entry hi max with
        ⟨_, h2⟩ | ⟨_, st, _, _, _, ⟨_, h2⟩ | ⟨_, p, l, _, _, _, _, h2⟩⟩
      all_goals (rw [h2] at hs; cases hs)
    · simp [Entry.nextSend, hi, bind, Except.bind, pure, Except.pure] at hs
  | sendNoneAborts max e' p hmax hs hsend =>
    exfalso
    by_cases hi : s.entry.inflight = .none
    · rcases nextSend_spec (dbg := dbg) wf purged_le entry hi max with
        ⟨_, h2⟩ | ⟨_, st, _, _, _, ⟨_, h2⟩ | ⟨_, p, l, _, _, _, _, h2⟩⟩
      all_goals (rw [h2] at hs; cases hs)
      all_goals (cases hsend)
    · simp [Entry.nextSend, hi, bind, Except.bind, pure, Except.pure] at hs
  | rpcOk prev last m e' htask hread he hpe hel hm hpm hme hfm =>
    obtain ⟨fok, ft⟩ := chain.final wf entry
    rw [htask] at ft
    obtain ⟨k1, k2, k3, k4, k5, k6⟩ := fok.logs _ _ ft.symm
    have hml : m ≤ last := le_trans hme hel
    have leg : Legit dbg s.view s.follower (final s.entry s.queue) (.ok m) := by
      refine ⟨hm, hfm, ?_⟩
      rw [← ft]
      exact ⟨(has_le wf k1 hm).mp hpm, (has_le wf hm k2).mp hml⟩
    refine ⟨_, rfl, ⟨wf, lm, purged, upto, snap, purged_le, upto_le, entry, ?_⟩⟩
    refine chain.snoc leg ?_
    simp only [Repl.after, ← ft, nextAction, Inflight.mkLogs]
  | rpcReadAborts prev last htask hread =>
    exfalso
    obtain ⟨fok, ft⟩ := chain.final wf entry
    rw [htask] at ft
    obtain ⟨k1, k2, k3, k4, k5, k6⟩ := fok.logs _ _ ft.symm
    have := (has_le wf purged k1).mpr k6
    simp [readable, this] at hread
  | rpcConflict prev last htask hno =>
    obtain ⟨fok, ft⟩ := chain.final wf entry
    rw [htask] at ft
    obtain ⟨k1, k2, k3, k4, k5, k6⟩ := fok.logs _ _ ft.symm
    have leg : Legit dbg s.view s.follower (final s.entry s.queue) (.conflict prev) := by
      refine ⟨⟨last, ft.symm⟩, ?_⟩
      by_contra hc
      apply hno
      have hmm := fok.hm
      have hff := fok.hf
      cases hmat : (final s.entry s.queue).matching with
      | none => rw [hmat] at hc; simp at hc
      | some m =>
        rw [hmat] at hc hmm hff
        simp at hc
        exact Has.of_matching lm hmm hff k1 (by omega)
    refine ⟨_, rfl, ⟨wf, lm, purged, upto, snap, purged_le, upto_le, entry, ?_⟩⟩
    exact chain.snoc leg rfl
  | rpcErr htask =>
    obtain ⟨fok, ft⟩ := chain.final wf entry
    have leg : Legit dbg s.view s.follower (final s.entry s.queue) .err := by
      show _ ≠ _
      rw [← ft]; exact htask
    refine ⟨_, rfl, ⟨wf, lm, purged, upto, snap, purged_le, upto_le, entry, ?_⟩⟩
    exact chain.snoc leg rfl
  | snapOk last x htask hx1 hx2 hx3 hfx =>
    obtain ⟨fok, ft⟩ := chain.final wf entry
    rw [htask] at ft
    obtain ⟨k1, k2⟩ := fok.snap _ ft.symm
    have leg : Legit dbg s.view s.follower (final s.entry s.queue) (.ok (some x)) := by
      refine ⟨hx1, hfx, ?_⟩
      rw [← ft]
      exact ⟨(has_le wf k1 hx1).mp hx2, fun hd => (hx3 (hx hd)).symm⟩
    refine ⟨_, rfl, ⟨wf, lm, purged, upto, snap, purged_le, upto_le, entry, ?_⟩⟩
    refine chain.snoc leg ?_
    simp only [Repl.after, ← ft]
  | followerChanges F hl hm hq =>
    refine ⟨_, rfl, ⟨wf, hl, purged, upto, snap, purged_le, upto_le, ?_, ?_⟩⟩
    · exact entry.mono (fun _ h => h) (Nat.le_refl _) rfl hm
    · exact chain.mono (fun _ h => h) hq
  | deliver r q e' hq hh =>
    rw [hq] at chain
    rw [handle_legit wf entry chain.1] at hh
    cases hh
    exact ⟨_, rfl, ⟨wf, lm, purged, upto, snap, purged_le, upto_le, entry.after wf chain.1,
      chain.2⟩⟩
  | deliverAborts r q p hq hh =>
    rw [hq] at chain
    rw [handle_legit wf entry chain.1] at hh
    cases hh
  | rebuild =>
    refine ⟨_, rfl, ⟨wf, lm, purged, upto, snap, purged_le, upto_le, ?_, rfl⟩⟩
    exact ⟨entry.hm, entry.hf, entry.lo, entry.hi, fun _ _ h => (by cases h),
      fun _ h => (by cases h)⟩

theorem Run.inv {s0 s : Sess} (hx : dbg = true → exact = true) (h0 : Initial s0)
    (h : Run dbg exact s0 s) : SInv dbg s := by
  induction h with
  | init => exact h0.inv
  | step s s' _ st ih =>
    obtain ⟨s'', he, hi⟩ := ih.step hx st
    cases he
    exact hi

end Openraft.Repl
