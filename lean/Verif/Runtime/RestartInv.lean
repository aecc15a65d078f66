import Verif.Runtime.RestartLoad

/-!
# The state of a node that starts from what a crash left
-/

set_option autoImplicit false

namespace Openraft.Runtime
open Openraft.Engine Openraft.LogIdList

/-- What is always on disk: a log without holes, no id from a leader above the stored vote, the saved
committed position in the log or not above the purged position. -/
structure DiskOk (d : Disk) : Prop where
  wf : LogWf d.store
  bound : ∀ x ∈ LogStore.all d.store, x.leaderId ≤ d.vote.leaderId
  saved : ∀ c, d.committed = some c → c ∈ d.store.entries.map (·.id) ∨ Le2 (some c) d.store.purged

/-- the memberships of the log below an index -/
def memsBelow (st : LogStore) (n : Nat) : List StoredMem :=
  (st.entries.filter fun e => decide (e.id.index < n)).filterMap (·.stored?)

/-- a position is beyond the log, by index and by id -/
def Beyond (st : LogStore) (x : LogId) : Prop := nextIndex st.lastLogId ≤ x.index ∧ st.lastLogId < some x

/-- What the state machine that is left agrees with on disk. `s` is the state machine after the crash.
* the position is the purged one, is in the log, or is beyond the log and then the snapshot is as recent;
* otherwise the snapshot, if any, is not below the purged position and is in the log;
* the membership is the last one of the log below the position. -/
structure Fits (d : Disk) (s : Sm) : Prop where
  app : s.applied = d.store.purged ∨ ∃ x, s.applied = some x ∧ (x ∈ d.store.entries.map (·.id) ∨
    Beyond d.store x ∧ x.leaderId ≤ d.vote.leaderId ∧ (s.snap.lastLogId = none ∨ s.snap.lastLogId = some x) ∧ LeI s.mem.logId (some x))
  snap : (∃ x, s.applied = some x ∧ Beyond d.store x) ∨ s.snap.lastLogId = none ∨ s.snap.lastLogId = d.store.purged ∨
    ∃ y, s.snap.lastLogId = some y ∧ y ∈ d.store.entries.map (·.id)
  snapApp : Le2 s.snap.lastLogId s.applied
  mem : (∃ x, s.applied = some x ∧ Beyond d.store x) ∨ (memsBelow d.store (nextIndex s.applied)).getLast? = some s.mem ∨
    memsBelow d.store (nextIndex s.applied) = [] ∧ LeI s.mem.logId d.store.purged

/-- What start-up makes of it. -/
structure Loaded (now : Nat) (d : Disk) (s : Sm) (st : RState) (store : LogStore) (s2 : Sm) : Prop where
  vote : st.vote = Leased.new now 0 d.vote
  com : st.committed = s2.applied
  app : s2.applied = if d.committed < s.applied then s.applied else d.committed
  appIn : ∀ x, s2.applied = some x → x ∈ LogStore.all store
  wf : LogWf store
  sorted : SortedIdx st.logIds
  ids : expand st.logIds = LogStore.all store
  purgedNext : st.purgedNext = nextIndex store.purged
  upto : st.purgeUpto = store.purged
  snap : st.snap = s2.snap
  io : st.io = IOState.new d.vote s2.applied s2.snap.lastLogId store.purged
  ms : st.ms = getMembership d.store s2.applied s2.mem
  hist : s2.hist = s.hist ++ d.store.read (nextIndex s.applied) (nextIndex s2.applied)
  mem : s2.mem = Node.memAfter s.mem (d.store.read (nextIndex s.applied) (nextIndex s2.applied))
  stEq : store = d.store ∧ ¬ d.store.lastLogId < s2.applied ∨
    store = ⟨s.applied, []⟩ ∧ s2.applied = s.applied ∧ ∃ x, s.applied = some x ∧ Beyond d.store x
  snapEq : s2.snap = if s.snap.lastLogId = none ∧ store.purged ≠ none then ⟨s2.applied, s2.mem, 0⟩ else s.snap
  persist : s2.persist = s.persist

theorem cons_le2 {L : List LogId} (h : Cons L) {x y : LogId} (hx : x ∈ L) (hy : y ∈ L) (hi : x.index ≤ y.index) : Le2 (some x) (some y) := by
  rcases Nat.lt_or_ge x.index y.index with h1 | h1
  · right
    exact ⟨by simpa using (h.lt_iff hx hy).2 h1, by simp only [nextIndex_some]; omega⟩
  · left
    rw [h.inj hx hy (by omega)]

theorem le2_none (o : Option LogId) : Le2 none o := by
  cases o with
  | none => exact Or.inl rfl
  | some x => exact Or.inr ⟨by simp, Nat.succ_pos _⟩

theorem LogWf.mem_le_last {s : LogStore} (h : LogWf s) {x : LogId} (hx : x ∈ LogStore.all s) : Le2 (some x) s.lastLogId := by
  rw [LogWf.last_eq]
  cases hl : (LogStore.all s).getLast? with
  | none => rw [List.getLast?_eq_none_iff] at hl; rw [hl] at hx; cases hx
  | some l =>
    exact cons_le2 h.cons hx (List.mem_of_getLast? hl) (h.cons.le_last hl hx)

theorem LogWf.purged_le_last {s : LogStore} (h : LogWf s) : Le2 s.purged s.lastLogId := by
  cases hp : s.purged with
  | none => exact le2_none _
  | some p => exact h.mem_le_last (by unfold LogStore.all; rw [hp]; simp)

theorem LogWf.single (p : Option LogId) : LogWf ⟨p, []⟩ := by
  refine ⟨?_, fun e he => by cases he⟩
  cases p <;> trivial

theorem read_nil (st : LogStore) {x y : Nat} (hxy : y ≤ x) : st.read x y = [] := by
  unfold LogStore.read
  rw [List.filter_eq_nil_iff]
  intro z _ hz
  simp at hz; omega

theorem LogWf.purge_beyond {s : LogStore} (h : LogWf s) {x : LogId} (hb : Beyond s x) : s.purge x = ⟨some x, []⟩ := by
  unfold LogStore.purge
  congr 1
  rw [List.filter_eq_nil_iff]
  intro e he
  have := (h.mem_le_last (x := e.id) (by unfold LogStore.all; exact List.mem_append_right _ (List.mem_map_of_mem he))).leI.2
  have h2 := hb.1
  simp only [nextIndex_some] at this
  simp; omega

/-- **Start-up succeeds** and gives the described state. -/
theorem initialState_ok (now : Nat) {d : Disk} {s : Sm} (hd : DiskOk d) (hf : Fits d s) :
    ∃ st store s2, initialState now d s = .ok (st, store, s2) ∧ Loaded now d s st store s2 := by
  have hmem : ∀ {x : LogId}, x ∈ d.store.entries.map (·.id) → x ∈ LogStore.all d.store := fun hx => List.mem_append_right _ hx
  -- the position after re-applying
  obtain ⟨A, hA⟩ : ∃ A, A = if d.committed < s.applied then s.applied else d.committed := ⟨_, rfl⟩
  -- a saved position above the applied one is in the log
  have hsv : s.applied < A → ∃ c, A = some c ∧ c ∈ d.store.entries.map (·.id) ∧ nextIndex d.store.purged ≤ nextIndex s.applied := by
    intro hlt
    have hAc : A = d.committed := by
      rw [hA]; split
      · next h => rw [hA, if_pos h] at hlt; exact absurd hlt (lt_irrefl _)
      · rfl
    rw [hAc] at hlt
    cases hc : d.committed with
    | none => rw [hc] at hlt; exact absurd hlt (by simp)
    | some c =>
      rw [hc] at hlt
      have hnp : ∀ q : Option LogId, q ≤ s.applied → ¬ Le2 (some c) q := fun q hq h => absurd (lt_of_lt_of_le hlt (h.leI.1.trans hq)) (lt_irrefl _)
      have hpa : d.store.purged ≤ s.applied ∧ nextIndex d.store.purged ≤ nextIndex s.applied := by
        rcases hf.app with h | ⟨x, h, h1 | h1⟩
        · rw [h]; exact ⟨le_refl _, Nat.le_refl _⟩
        · rw [h]
          have hpx : Le2 d.store.purged (some x) := by
            cases hp : d.store.purged with
            | none => exact le2_none _
            | some p =>
              have hpm : p ∈ LogStore.all d.store := by unfold LogStore.all; rw [hp]; simp
              have hle : p.index ≤ x.index := hd.wf.cons.head_le (by unfold LogStore.all; rw [hp]; simp) (hmem h1)
              exact cons_le2 hd.wf.cons hpm (hmem h1) hle
          exact hpx.leI
        · rw [h]
          have hpl := hd.wf.purged_le_last.leI
          refine ⟨hpl.1.trans (le_of_lt h1.1.2), ?_⟩
          have := hpl.2; have := h1.1.1
          simp only [nextIndex_some]; omega
      refine ⟨c, by rw [hAc, hc], ?_, hpa.2⟩
      rcases hd.saved c hc with h | h
      · exact h
      · exact absurd h (hnp _ hpa.1)
  -- re-applying
  obtain ⟨s1, hs1, h1a, h1e⟩ : ∃ s1, reapplied d.store A s = Except.ok s1 ∧
      s1.applied = A ∧ s1 = s.apply (d.store.read (nextIndex s.applied) (nextIndex A)) := by
    unfold reapplied
    by_cases hlt : s.applied < A
    · obtain ⟨c, hc, hci, hpn⟩ := hsv hlt
      have hcl := (hd.wf.mem_le_last (hmem hci)).leI
      rw [if_pos hlt, reapply_ok hd.wf (by rw [hc]; exact hcl.2) _ _ _ hpn (Nat.le_refl _)]
      refine ⟨_, rfl, ?_, rfl⟩
      show (match (d.store.read (nextIndex s.applied) (nextIndex A)).getLast? with
        | some e => some e.id
        | none => s.applied) = A
      have hlt2 : nextIndex s.applied < nextIndex A := by
        rw [hc] at hlt ⊢
        simp only [nextIndex_some]
        rcases hf.app with h | ⟨x, h, h1 | h1⟩
        · rw [h] at hlt ⊢
          cases hp : d.store.purged with
          | none => exact Nat.succ_pos _
          | some p =>
            rw [hp] at hlt
            have hpm : p ∈ LogStore.all d.store := by unfold LogStore.all; rw [hp]; simp
            have := (hd.wf.cons.lt_iff hpm (hmem hci)).1 (by simpa using hlt)
            simp only [nextIndex_some]; omega
        · rw [h] at hlt ⊢
          have := (hd.wf.cons.lt_iff (hmem h1) (hmem hci)).1 (by simpa using hlt)
          simp only [nextIndex_some]; omega
        · rw [h] at hlt
          exact absurd (lt_of_lt_of_le (h1.1.2.trans hlt) hcl.1) (lt_irrefl _)
      obtain ⟨_, _, r3⟩ := hd.wf.read_spec hpn (by rw [hc]; exact hcl.2) hlt2
      cases hg : (d.store.read (nextIndex s.applied) (nextIndex A)).getLast? with
      | none => rw [hg] at r3; cases r3
      | some e =>
        rw [hg] at r3
        simp only [Option.map_some, Option.some.injEq] at r3
        simp only
        rw [hc] at r3 ⊢
        have he : e ∈ d.store.entries := (List.mem_filter.1 (List.mem_of_getLast? hg)).1
        rw [Option.some.injEq]
        exact hd.wf.cons.inj (hmem (List.mem_map_of_mem he)) (hmem hci) (by simp only [nextIndex_some] at r3; omega)
    · have hAe : A = s.applied := by
        rw [hA] at hlt ⊢
        split
        · rfl
        · next h =>
          rw [if_neg h] at hlt
          exact le_antisymm (not_lt.1 hlt) (not_lt.1 h)
      refine ⟨s, if_neg hlt, hAe.symm, ?_⟩
      rw [hAe, read_nil _ (Nat.le_refl _), Sm.apply_nil]
  have hlA : (if s.applied < A then A else s.applied) = A := by
    split
    · rfl
    · next hlt =>
      rw [hA] at hlt ⊢
      split
      · rfl
      · next h =>
        rw [if_neg h] at hlt
        exact le_antisymm (not_lt.1 h) (not_lt.1 hlt)
  -- cleaning
  obtain ⟨store, hstore, hwf, hpl, hin, hst⟩ : ∃ store, cleaned d.store A = Except.ok store ∧ LogWf store ∧
      (if decide (d.store.lastLogId < A) = true then A else d.store.lastLogId) = store.lastLogId ∧
      ((if decide (d.store.lastLogId < A) = true then A else d.store.purged) = store.purged ∧
      ∀ x, A = some x → x ∈ LogStore.all store) ∧
      (store = d.store ∧ ¬ d.store.lastLogId < A ∨
        store = ⟨s.applied, []⟩ ∧ A = s.applied ∧ ∃ x, s.applied = some x ∧ Beyond d.store x) := by
    unfold cleaned
    by_cases hlt : d.store.lastLogId < A
    · rw [if_pos hlt]
      simp only [decide_eq_true hlt, if_true]
      have hna : ¬ s.applied < A := fun h => by
        obtain ⟨c, hc, hci, _⟩ := hsv h
        rw [hc] at hlt
        exact absurd (lt_of_lt_of_le hlt (hd.wf.mem_le_last (hmem hci)).leI.1) (lt_irrefl _)
      have hAe : A = s.applied := by rw [if_neg hna] at hlA; exact hlA.symm
      rw [hAe] at hlt
      rcases hf.app with h | ⟨x, h, h1 | h1⟩
      · rw [h] at hlt
        exact absurd (lt_of_lt_of_le hlt hd.wf.purged_le_last.leI.1) (lt_irrefl _)
      · rw [h] at hlt
        exact absurd (lt_of_lt_of_le hlt (hd.wf.mem_le_last (hmem h1)).leI.1) (lt_irrefl _)
      · have hp := hd.wf.purge_beyond h1.1
        refine ⟨⟨some x, []⟩, by rw [hAe, h]; simp only [hp], LogWf.single _, by rw [hAe, h]; rfl, ⟨by rw [hAe, h], ?_⟩,
          Or.inr ⟨by rw [h], hAe, x, h, h1.1⟩⟩
        intro y hy
        rw [hAe, h] at hy
        cases hy
        simp [LogStore.all]
    · rw [if_neg hlt]
      simp only [decide_eq_false hlt, if_false, Bool.false_eq_true]
      refine ⟨d.store, rfl, hd.wf, rfl, ⟨rfl, ?_⟩, Or.inl ⟨rfl, hlt⟩⟩
      intro x hx
      by_cases ha : s.applied < A
      · obtain ⟨c, hc, hci, _⟩ := hsv ha
        rw [hx] at hc; cases hc
        exact hmem hci
      · have hAe : A = s.applied := by rw [if_neg ha] at hlA; exact hlA.symm
        rw [hAe] at hx hlt
        rcases hf.app with h | ⟨y, h, h1 | h1⟩
        · rw [h] at hx
          unfold LogStore.all; rw [hx]; simp
        · rw [h] at hx; cases hx; exact hmem h1
        · rw [h] at hlt; exact absurd h1.1.2 hlt
  obtain ⟨ks, hk1, hk2, hk3⟩ := loadLogIds_ok hwf
  obtain ⟨s2, hs2⟩ : ∃ s2 : Sm, s2 = if s1.snap.lastLogId = none ∧ store.purged ≠ none then { s1 with snap := ⟨s1.applied, s1.mem, 0⟩ } else s1 := ⟨_, rfl⟩
  have h2a : s2.applied = s1.applied := by rw [hs2]; split <;> rfl
  have h2m : s2.mem = s1.mem := by rw [hs2]; split <;> rfl
  have h2h : s2.hist = s1.hist := by rw [hs2]; split <;> rfl
  have h2p : s2.persist = s1.persist := by rw [hs2]; split <;> rfl
  have h1s : s1.snap = s.snap := by rw [h1e]; rfl
  have h1p : s1.persist = s.persist := by rw [h1e]; rfl
  have h1h : s1.hist = s.hist ++ d.store.read (nextIndex s.applied) (nextIndex A) := by rw [h1e]; rfl
  have h1m : s1.mem = Node.memAfter s.mem (d.store.read (nextIndex s.applied) (nextIndex A)) := by rw [h1e]; rfl
  have hA2 : s2.applied = A := h2a.trans h1a
  refine ⟨{ vote := Leased.new now 0 d.vote, committed := A, purgedNext := nextIndex store.purged, logIds := ks,
            ms := getMembership d.store s1.applied s1.mem, snap := s2.snap, server := .learner,
            io := IOState.new d.vote A s2.snap.lastLogId store.purged, purgeUpto := store.purged }, store, s2, ?_, ?_⟩
  · unfold initialState
    simp only [bind, Except.bind, pure, Except.pure]
    rw [← hA, hs1]
    simp only [hlA]
    rw [hstore]
    simp only
    rw [hpl, hin.1, hk1]
    simp only
    rw [← hs2]
  · refine ⟨rfl, hA2.symm, hA2.trans hA, by rw [hA2]; exact hin.2, hwf, hk2, hk3, rfl, rfl, rfl, by rw [hA2],
      by rw [h2a, h2m], by rw [h2h, hA2]; exact h1h, by rw [h2m, hA2]; exact h1m, by rw [hA2]; exact hst, ?_, h2p.trans h1p⟩
    rw [h2a, h2m, hs2, h1s]
    split
    · rfl
    · exact h1s

/-! ## what the loaded state satisfies -/

section
variable {now : Nat} {d : Disk} {s s2 : Sm} {st : RState} {store : LogStore}

theorem all_ids {st : LogStore} {x : LogId} (hx : x ∈ st.entries.map (·.id)) : x ∈ LogStore.all st := List.mem_append_right _ hx

theorem all_purged {st : LogStore} {x : LogId} (hx : st.purged = some x) : x ∈ LogStore.all st := by
  unfold LogStore.all; rw [hx]; simp

theorem LogWf.purged_le {st : LogStore} (h : LogWf st) {x : LogId} (hx : x ∈ LogStore.all st) : Le2 st.purged (some x) := by
  cases hp : st.purged with
  | none => exact le2_none _
  | some p =>
    exact cons_le2 h.cons (all_purged hp) hx (h.cons.head_le (by unfold LogStore.all; rw [hp]; rfl) hx)

theorem LogWf.not_beyond {st : LogStore} (h : LogWf st) {x : LogId} (hx : x ∈ LogStore.all st) : ¬ Beyond st x :=
  fun hb => absurd (lt_of_lt_of_le hb.2 (h.mem_le_last hx).le) (lt_irrefl _)

theorem Fits.beyond (hd : DiskOk d) (hf : Fits d s) {x : LogId} (hx : s.applied = some x) (hb : Beyond d.store x) :
    x.leaderId ≤ d.vote.leaderId ∧ (s.snap.lastLogId = none ∨ s.snap.lastLogId = some x) ∧ LeI s.mem.logId (some x) := by
  rcases hf.app with h | ⟨y, h, h1 | h1⟩
  · exact absurd hb (hd.wf.not_beyond (all_purged (h.symm.trans hx)))
  · rw [hx] at h; cases h
    exact absurd hb (hd.wf.not_beyond (all_ids h1))
  · rw [hx] at h; cases h
    exact h1.2

/-- the state machine does not go back -/
theorem Loaded.app_le (hd : DiskOk d) (hf : Fits d s) (hl : Loaded now d s st store s2) : Le2 s.applied s2.applied := by
  rcases hl.stEq with ⟨h1, h2⟩ | ⟨h1, h2, _⟩
  · cases ha : s.applied with
    | none => exact le2_none _
    | some x =>
      have hle : s.applied ≤ s2.applied := by
        rw [hl.app]
        split
        · exact le_refl _
        · next h => exact not_lt.1 h
      have hx : x ∈ LogStore.all d.store := by
        rcases hf.app with h | ⟨y, h, h3 | h3⟩
        · exact all_purged (h.symm.trans ha)
        · rw [ha] at h; cases h; exact all_ids h3
        · rw [ha] at h; cases h
          rw [ha] at hle
          exact absurd (lt_of_lt_of_le h3.1.2 hle) h2
      cases hb : s2.applied with
      | none => rw [ha, hb] at hle; exact absurd hle (by simp)
      | some y =>
        rw [ha, hb] at hle
        have hy := hl.appIn y hb
        rw [h1] at hy
        exact cons_le2 hd.wf.cons hx hy ((hd.wf.cons.le_iff hx hy).1 (by simpa using hle))
  · rw [h2]; exact Le2.refl _

theorem Loaded.purged_le_app (hd : DiskOk d) (hf : Fits d s) (hl : Loaded now d s st store s2) : Le2 store.purged s2.applied := by
  cases hb : s2.applied with
  | some y => exact hl.wf.purged_le (hl.appIn y hb)
  | none =>
    have h0 := hl.app_le hd hf
    rw [hb] at h0
    have ha : s.applied = none := by
      cases ha : s.applied with
      | none => rfl
      | some x => rw [ha] at h0; exact absurd h0.le (by simp)
    rcases hl.stEq with ⟨h1, _⟩ | ⟨h1, _, x, hx, _⟩
    · rcases hf.app with h | ⟨y, h, _⟩
      · rw [h1, ← h, ha]; exact Le2.refl _
      · rw [ha] at h; cases h
    · rw [ha] at hx; cases hx

/-- the snapshot is between the purged and the applied position -/
theorem Loaded.snap_ok (hd : DiskOk d) (hf : Fits d s) (hl : Loaded now d s st store s2) :
    Le2 store.purged s2.snap.lastLogId ∧ Le2 s2.snap.lastLogId s2.applied ∧ ∀ x, s2.snap.lastLogId = some x → x ∈ LogStore.all store := by
  by_cases hc : s.snap.lastLogId = none ∧ store.purged ≠ none
  · have h1 : s2.snap.lastLogId = s2.applied := by rw [hl.snapEq, if_pos hc]
    rw [h1]
    exact ⟨hl.purged_le_app hd hf, Le2.refl _, hl.appIn⟩
  · have h1 : s2.snap = s.snap := by rw [hl.snapEq, if_neg hc]
    rw [h1]
    refine ⟨?_, hf.snapApp.trans (hl.app_le hd hf), ?_⟩
    · cases hs : s.snap.lastLogId with
      | none =>
        have : store.purged = none := by
          by_contra h; exact hc ⟨hs, h⟩
        rw [this]; exact Le2.refl _
      | some y =>
        rcases hl.stEq with ⟨h2, h3⟩ | ⟨h2, h3, x, hx, hb⟩
        · rcases hf.snap with ⟨x, hx, hb⟩ | h | h | ⟨z, h, hz⟩
          · have := (hl.app_le hd hf).le
            rw [hx] at this
            exact absurd (lt_of_lt_of_le hb.2 this) h3
          · rw [hs] at h; cases h
          · rw [h2, ← h, hs]; exact Le2.refl _
          · rw [hs] at h; cases h
            rw [h2]; exact hd.wf.purged_le (all_ids hz)
        · rcases (hf.beyond hd hx hb).2.1 with h | h
          · rw [hs] at h; cases h
          · rw [h2, ← hs, h, ← hx]; exact Le2.refl _
    · intro y hs
      rcases hl.stEq with ⟨h2, h3⟩ | ⟨h2, h3, x, hx, hb⟩
      · rw [h2]
        rcases hf.snap with ⟨x, hx, hb⟩ | h | h | ⟨z, h, hz⟩
        · have := (hl.app_le hd hf).le
          rw [hx] at this
          exact absurd (lt_of_lt_of_le hb.2 this) h3
        · rw [hs] at h; cases h
        · exact all_purged (h.symm.trans hs)
        · rw [hs] at h; cases h
          exact all_ids hz
      · rcases (hf.beyond hd hx hb).2.1 with h | h
        · rw [hs] at h; cases h
        · rw [hs] at h; cases h
          rw [h2, hx]; simp [LogStore.all]

theorem Loaded.bound (hd : DiskOk d) (hf : Fits d s) (hl : Loaded now d s st store s2) :
    ∀ x ∈ LogStore.all store, x.leaderId ≤ d.vote.leaderId := by
  rcases hl.stEq with ⟨h2, h3⟩ | ⟨h2, h3, x, hx, hb⟩
  · rw [h2]; exact hd.bound
  · intro y hy
    rw [h2, hx] at hy
    simp only [LogStore.all, Option.toList_some, List.map_nil, List.append_nil, List.mem_singleton] at hy
    subst hy
    exact (hf.beyond hd hx hb).1

theorem Loaded.saved (hd : DiskOk d) (hf : Fits d s) (hl : Loaded now d s st store s2) :
    Le2 d.committed s2.applied ∧ ∀ x, d.committed = some x → x ∈ store.entries.map (·.id) ∨ Le2 d.committed store.purged := by
  cases hc : d.committed with
  | none => exact ⟨le2_none _, fun x h => by cases h⟩
  | some c =>
    rcases hl.stEq with ⟨h2, h3⟩ | ⟨h2, h3, x, hx, hb⟩
    · have hs := hd.saved c hc
      refine ⟨?_, fun x h => by cases h; rw [h2]; exact hs⟩
      rcases hs with h | h
      · cases hb : s2.applied with
        | none =>
          have := hl.app
          rw [hb, hc] at this
          split at this
          · next h4 => rw [← this] at h4; exact absurd h4 (by simp)
          · cases this
        | some y =>
          have hy := hl.appIn y hb
          rw [h2] at hy
          have hle : d.committed ≤ s2.applied := by
            rw [hl.app]
            split
            · next h => exact le_of_lt h
            · exact le_refl _
          rw [hc, hb] at hle
          exact cons_le2 hd.wf.cons (all_ids h) hy ((hd.wf.cons.le_iff (all_ids h) hy).1 (by simpa using hle))
      · have := hl.purged_le_app hd hf
        rw [h2] at this
        exact h.trans this
    · have hcl : Le2 (some c) d.store.lastLogId := by
        rcases hd.saved c hc with h | h
        · exact hd.wf.mem_le_last (all_ids h)
        · exact h.trans hd.wf.purged_le_last
      have hlx : Le2 d.store.lastLogId s.applied := by
        rw [hx]
        exact Or.inr ⟨hb.2, by have := hb.1; simp only [nextIndex_some]; omega⟩
      refine ⟨by rw [h3]; exact hcl.trans hlx, fun y _ => Or.inr ?_⟩
      rw [h2]; exact hcl.trans hlx

theorem memsBelow_read (st : LogStore) (n : Nat) : memsBelow st n = Openraft.Props.mems (st.read 0 n) := by
  unfold memsBelow LogStore.read Openraft.Props.mems
  simp only [Nat.zero_le, decide_true, Bool.true_and]

theorem split_at {st : LogStore} (h : LogWf st) (n : Nat) :
    st.entries.filterMap (·.stored?) = memsBelow st n ++ Openraft.Props.mems (st.entries.filter fun e => decide (n ≤ e.id.index)) := by
  have h1 := Openraft.Props.read_split (s := st) h.consecutive (a := 0) (b := n) (c := max n (nextIndex st.lastLogId)) (Nat.zero_le _) (by omega)
  rw [Openraft.Props.read_all (a := 0) h.consecutive (b := max n (nextIndex st.lastLogId)) (by omega),
    Openraft.Props.read_all (a := n) h.consecutive (b := max n (nextIndex st.lastLogId)) (by omega)] at h1
  rw [memsBelow_read, ← Openraft.Props.mems_append, ← h1]
  unfold Openraft.Props.mems
  rw [List.filter_eq_self.2]
  intro e _; simp

/-- the membership of the state machine is the one of the log at its position -/
theorem Loaded.mem_ok (hd : DiskOk d) (hf : Fits d s) (hl : Loaded now d s st store s2) (h2 : ¬ d.store.lastLogId < s2.applied) :
    (memsBelow d.store (nextIndex s2.applied)).getLast? = some s2.mem ∨
    memsBelow d.store (nextIndex s2.applied) = [] ∧ LeI s2.mem.logId d.store.purged := by
  have hle := hl.app_le hd hf
  have h1 : memsBelow d.store (nextIndex s2.applied) = memsBelow d.store (nextIndex s.applied) ++
      (d.store.read (nextIndex s.applied) (nextIndex s2.applied)).filterMap (·.stored?) := by
    rw [memsBelow_read, memsBelow_read, Openraft.Props.read_split hd.wf.consecutive (Nat.zero_le _) hle.next, Openraft.Props.mems_append]
    rfl
  have h3 := hl.mem
  unfold Node.memAfter at h3
  rw [h1]
  generalize (d.store.read (nextIndex s.applied) (nextIndex s2.applied)).filterMap (·.stored?) = M at h3 ⊢
  rw [List.getLastD_eq_getLast?] at h3
  rw [List.getLast?_append]
  cases hM : M.getLast? with
  | some m => left; rw [hM] at h3; rw [h3]; rfl
  | none =>
    rw [hM] at h3
    have h3 : s2.mem = s.mem := h3
    rw [List.getLast?_eq_none_iff] at hM
    rw [hM, h3, List.append_nil]
    rcases hf.mem with ⟨x, hx, hb⟩ | h | h
    · rw [hx] at hle
      exact absurd (lt_of_lt_of_le hb.2 hle.le) h2
    · exact Or.inl (by rw [h]; rfl)
    · exact Or.inr h

/-- the abstract node that a start begins with -/
def gh0 (d : Disk) (store : LogStore) (base : StoredMem) (s2 : Sm) : Gh := ⟨store, base, .empty, s2.applied, d.vote⟩

theorem Loaded.lastPurged (hl : Loaded now d s st store s2) : st.lv.lastPurged = store.purged := by
  unfold LogV.lastPurged
  show (if st.purgedNext = 0 then none else st.logIds.head?) = _
  rw [hl.purgedNext]
  cases hp : store.purged with
  | none => rfl
  | some p =>
    rw [if_neg (by simp only [nextIndex_some]; omega)]
    rw [← Openraft.Props.expand_head? hl.sorted, hl.ids]
    unfold LogStore.all
    rw [hp]; rfl

theorem Loaded.logJ (hd : DiskOk d) (hf : Fits d s) (hl : Loaded now d s st store s2) (base : StoredMem) :
    LogJ st.lv (gh0 d store base s2) := by
  have hL : st.lv.L = LogStore.all store := hl.ids
  have hlp := hl.lastPurged
  have hv : st.lv.vote = d.vote := by show st.vote.data = _; rw [hl.vote]; rfl
  obtain ⟨k1, k2, k3⟩ := hl.snap_ok hd hf
  refine ⟨hl.sorted, by rw [hL]; exact hl.wf.cons, by rw [hL, hv]; exact hl.bound hd hf, ?_, ?_, ?_, ?_, ?_, ?_, ?_, ?_, ?_, ?_, ?_, ?_⟩
  · rw [hlp]; exact hl.purgedNext
  · intro h0 x hx
    have h0 : st.purgedNext = 0 := h0
    rw [hl.purgedNext] at h0
    have hp : store.purged = none := by
      cases hp : store.purged with
      | none => rfl
      | some p => rw [hp] at h0; simp only [nextIndex_some] at h0; omega
    rw [hL] at hx
    unfold LogStore.all at hx
    rw [hp] at hx
    simp only [Option.toList_none, List.nil_append, List.head?_map, Option.map_eq_some_iff] at hx
    obtain ⟨e, he, rfl⟩ := hx
    have := hl.wf.start e he
    rw [hp] at this; exact this
  · rw [hL, hlp]; rfl
  · rw [hlp]; rfl
  · exact hl.com.symm
  · intro x hx
    rw [hL]
    exact hl.appIn x (hl.com.symm.trans hx)
  · intro x hx
    rw [hL]
    refine k3 x ?_
    rw [← hl.snap]; exact hx
  · intro x hx
    rw [hL]
    exact all_purged (hl.upto.symm.trans hx)
  · show st.purgedNext ≤ nextIndex st.purgeUpto
    rw [hl.upto, hl.purgedNext]
  · show nextIndex st.purgeUpto ≤ nextIndex st.snap.lastLogId
    rw [hl.upto, hl.snap]; exact k1.next
  · show nextIndex st.snap.lastLogId ≤ nextIndex st.committed
    rw [hl.snap, hl.com]; exact k2.next
  · rw [hv]; exact le_refl _

/-- where the membership at the purged position and the committed membership come from -/
structure BaseOk (d : Disk) (st : RState) (store : LogStore) (base : StoredMem) (s2 : Sm) : Prop where
  com : st.ms.committed = s2.mem ∨ (gh0 d store base s2).mems.dropLast.getLast? = some st.ms.committed
  base : base = s2.mem ∨ store = d.store ∧ memsBelow d.store (nextIndex s2.applied) ≠ []

theorem Loaded.memJ (hd : DiskOk d) (hf : Fits d s) (hl : Loaded now d s st store s2) :
    ∃ base, MemJ st.ms st.lv (gh0 d store base s2) ∧ BaseOk d st store base s2 := by
  have hlp := hl.lastPurged
  have hpn : st.lv.purgedNext = nextIndex store.purged := hl.purgedNext
  have hcm : st.lv.committed = s2.applied := hl.com
  obtain ⟨m1, m2⟩ := Openraft.Props.C31_get_membership hd.wf.consecutive s2.applied s2.mem
  rw [← hl.ms] at m1 m2
  obtain ⟨ab, hab⟩ : ∃ ab, ab = Openraft.Props.mems (d.store.entries.filter fun e => decide (nextIndex s2.applied ≤ e.id.index)) := ⟨_, rfl⟩
  rw [← hab] at m1 m2
  have habm : ∀ m ∈ ab, nextIndex s2.applied < nextIndex m.logId := by
    intro m hm
    rw [hab] at hm
    unfold Openraft.Props.mems at hm
    obtain ⟨e, he, hs⟩ := List.mem_filterMap.1 hm
    obtain ⟨_, h2⟩ := List.mem_filter.1 he
    unfold Ent.stored? at hs
    cases hmm : e.membership? with
    | none => rw [hmm] at hs; cases hs
    | some z =>
      rw [hmm] at hs
      simp only [Option.map_some, Option.some.injEq] at hs
      subst hs
      simp only [decide_eq_true_eq] at h2
      simp only [nextIndex_some]; omega
  rcases hl.stEq with ⟨h2, h3⟩ | ⟨h2, h3, x, hx, hb⟩
  · obtain ⟨B, hB, hB2, hB3⟩ : ∃ base : StoredMem, (base :: memsBelow d.store (nextIndex s2.applied)).getLast? = some s2.mem ∧ LeI base.logId d.store.purged ∧
        (base = s2.mem ∨ store = d.store ∧ memsBelow d.store (nextIndex s2.applied) ≠ []) := by
      rcases hl.mem_ok hd hf h3 with h | h
      · refine ⟨StoredMem.empty, ?_, ⟨by simp [StoredMem.empty], Nat.zero_le _⟩, Or.inr ⟨h2, fun h0 => by rw [h0] at h; cases h⟩⟩
        rw [List.getLast?_cons, h]; rfl
      · exact ⟨s2.mem, by rw [h.1]; rfl, h.2, Or.inl rfl⟩
    have hms : (gh0 d store B s2).mems = (B :: memsBelow d.store (nextIndex s2.applied)) ++ ab := by
      unfold Gh.mems gh0
      rw [h2, hab, split_at hd.wf (nextIndex s2.applied)]; rfl
    generalize (B :: memsBelow d.store (nextIndex s2.applied)) = X at hB hms
    refine ⟨B, ⟨?_, ?_, ?_, ?_, ?_⟩, ?_, hB3⟩
    · rw [hms, List.getLast?_append, hB, m1]
      cases ab.getLast? <;> rfl
    · by_cases h0 : ab = []
      · left; rw [m1, m2, h0]; rfl
      · right
        rw [hms, List.dropLast_append_of_ne_nil h0, List.getLast?_append, hB, m2]
        cases ab.dropLast.getLast? <;> rfl
    · intro hle
      by_cases h0 : ab = []
      · rw [m1, m2, h0]; rfl
      · exfalso
        rw [m1, hcm] at hle
        cases hg : ab.getLast? with
        | none => rw [List.getLast?_eq_none_iff] at hg; exact h0 hg
        | some m =>
          rw [hg] at hle
          have := habm m (List.mem_of_getLast? hg)
          simp only [Option.getD_some] at hle
          omega
    · rw [hlp, h2]; exact hB2.1
    · rw [hpn, h2]; exact hB2.2
    · by_cases h0 : ab = []
      · left; rw [m2, h0]; rfl
      · right
        rw [hms, List.dropLast_append_of_ne_nil h0, List.getLast?_append, hB, m2]
        cases ab.dropLast.getLast? <;> rfl
  · have h0 : ab = [] := by
      rw [hab, List.filter_eq_nil_iff.2]; · rfl
      intro e he
      have h4 := (hd.wf.mem_le_last (all_ids (List.mem_map_of_mem (f := (·.id)) he))).next
      have h5 := hb.1
      intro h6
      have h6 : nextIndex s2.applied ≤ e.id.index := of_decide_eq_true h6
      rw [h3, hx] at h6
      simp only [nextIndex_some] at h4 h6
      omega
    have hm : s2.mem = s.mem := by
      rw [hl.mem, h3, read_nil _ (Nat.le_refl _)]; rfl
    have hms : (gh0 d store s2.mem s2).mems = [s2.mem] := by
      unfold Gh.mems gh0
      rw [h2]; rfl
    have hle := (hf.beyond hd hx hb).2.2
    refine ⟨s2.mem, ⟨?_, ?_, ?_, ?_, ?_⟩, Or.inl (by rw [m2, h0]; rfl), Or.inl rfl⟩
    · rw [hms, m1, h0]; rfl
    · left; rw [m1, m2, h0]; rfl
    · intro _; rw [m1, m2, h0]; rfl
    · rw [hlp, h2, hx]; show s2.mem.logId ≤ _; rw [hm]; exact hle.1
    · rw [hpn, h2, hx]; show nextIndex s2.mem.logId ≤ _; rw [hm]; exact hle.2

/-- What is read back at a restart is fit for starting the engine. -/
theorem Loaded.startOk_base {cfg : Cfg} {s : Sm} {st : RState} {store : LogStore} {s2 : Sm} (hd : DiskOk d) (hf : Fits d s.reboot) (hl : Loaded now d s.reboot st store s2) :
    ∃ base, Eng.StartOk (gh0 d store base s2) ⟨cfg, st, false, none, none, []⟩ ∧ BaseOk d st store base s2 := by
  obtain ⟨base, hm, hbo⟩ := hl.memJ hd hf
  have hv : st.vote.data = d.vote := by rw [hl.vote]; rfl
  refine ⟨base, ⟨⟨trivial, hl.logJ hd hf base, hm⟩, hv.symm, ⟨IOId.new st.vote.data, ?_, rfl, KnownO.none⟩, rfl, rfl⟩, hbo⟩
  show st.io.prog.accepted = _
  rw [hl.io, hv]; rfl

theorem Loaded.startOk {cfg : Cfg} {s : Sm} {st : RState} {store : LogStore} {s2 : Sm} (hd : DiskOk d) (hf : Fits d s.reboot) (hl : Loaded now d s.reboot st store s2) :
    ∃ base, Eng.StartOk (gh0 d store base s2) ⟨cfg, st, false, none, none, []⟩ := by
  obtain ⟨base, h, _⟩ := hl.startOk_base (cfg := cfg) hd hf
  exact ⟨base, h⟩

/-- **A node that restarts** satisfies the invariant of a running node. -/
theorem restart_base {dbg : Bool} {cfg : Cfg} {s : Sm} {n : Node} (hd : DiskOk d) (hf : Fits d s.reboot) (hr : restart dbg now cfg d s = .ok n) :
    ∃ st store s2 base e, initialState now d s.reboot = .ok (st, store, s2) ∧ Loaded now d s.reboot st store s2 ∧
      RInv (gh0 d store base s2) (IOId.new d.vote) s2.snap.lastLogId d.committed [] [] n ∧
      n.eng.cfg = cfg ∧ n = Node.boot e { d with store := store } s2 ∧ Eng.startup dbg now ⟨cfg, st, false, none, none, []⟩ = .ok e ∧
      Eng.StartOk (gh0 d store base s2) ⟨cfg, st, false, none, none, []⟩ ∧ BaseOk d st store base s2 := by
  obtain ⟨st, store, s2, hi, hl⟩ := initialState_ok now hd hf
  unfold restart at hr
  rw [hi] at hr
  simp only [bind, Except.bind] at hr
  cases he : Eng.startup dbg now ⟨cfg, st, false, none, none, []⟩ with
  | error x => rw [he] at hr; cases hr
  | ok e =>
    rw [he] at hr
    simp only [lift, pure, Except.pure, Except.ok.injEq] at hr
    subst hr
    obtain ⟨k1, k2, k3⟩ := hl.snap_ok hd hf
    have hv : st.vote.data = d.vote := by rw [hl.vote]; rfl
    obtain ⟨base, hstart, hbo⟩ := hl.startOk_base (cfg := cfg) hd hf
    have hflow := Flow.startup (s0 := s2.snap.lastLogId) hstart rfl (by show st.io.prog.accepted = some (IOId.new st.vote.data); rw [hl.io, hv]; rfl)
      (by show st.snap.lastLogId = _; rw [hl.snap]) k2 he
    have hflow : Flow (gh0 d store base s2) (IOId.new st.vote.data) s2.snap.lastLogId e := hflow
    rw [hv] at hflow
    have hstay : e.reported = Eng.reported ⟨cfg, st, false, none, none, []⟩ := Eng.stay_startup (dbg := dbg) (now := now) _ e he
    simp only [Eng.reported, Prod.mk.injEq] at hstay
    obtain ⟨t1, t2, t3, t4, t5⟩ := hstay
    obtain ⟨v1, v2⟩ := hl.saved hd hf
    have hin : ∀ (o : Option LogId), (∀ x, o = some x → x ∈ LogStore.all store) → (gh0 d store base s2).Below o := by
      intro o ho y hy hle
      cases o with
      | none => exact absurd hle (by simp)
      | some x =>
        have := (hl.wf.cons.le_iff (all_ids hy) (ho x rfl)).1 (by simpa using hle)
        simp only [nextIndex_some]; omega
    have hb := hl.bound hd hf
    refine ⟨st, store, s2, base, e, hi, hl, RInv.boot hflow rfl rfl rfl k1.leI ?_ rfl k2.le rfl ?_ ?_ ?_, ?_, rfl, he, hstart, hbo⟩
    · intro f hf'
      rw [t2, hl.io] at hf'
      have hf' : some (IOId.new d.vote) = some f := hf'
      cases hf'; exact le_refl _
    · rw [t3, hl.io]; exact le_refl _
    · rw [t4, hl.io]; rfl
    · refine ⟨hl.wf.cons, ?_, hin _ hl.appIn, hin _ k3, ⟨rfl, fun x hx => hb x (all_ids hx), fun x hx => hb x (all_purged hx), fun x hx => hb x (hl.appIn x hx)⟩, v1, v2⟩
      intro hp x hx
      simp only [Gh.ids, List.head?_map, Option.map_eq_some_iff] at hx
      obtain ⟨y, hy, rfl⟩ := hx
      have h0 := hl.wf.start y hy
      have hp : store.purged = none := hp
      rw [hp] at h0; exact h0
    · exact (Eng.grow_startup (dbg := dbg) (now := now) _ e he).1

theorem restart_inv {dbg : Bool} {cfg : Cfg} {s : Sm} {n : Node} (hd : DiskOk d) (hf : Fits d s.reboot) (hr : restart dbg now cfg d s = .ok n) :
    ∃ st store s2 base, initialState now d s.reboot = .ok (st, store, s2) ∧ Loaded now d s.reboot st store s2 ∧
      RInv (gh0 d store base s2) (IOId.new d.vote) s2.snap.lastLogId d.committed [] [] n ∧
      n.eng.cfg = cfg ∧ n.disk = { d with store := store } ∧ n.rd = store ∧ n.sm = s2 := by
  obtain ⟨st, store, s2, base, e, h1, h2, h3, h4, h5, _⟩ := restart_base hd hf hr
  exact ⟨st, store, s2, base, h1, h2, h3, h4, by rw [h5]; rfl, by rw [h5]; rfl, by rw [h5]; rfl⟩

end

end Openraft.Runtime
