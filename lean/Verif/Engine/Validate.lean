import Verif.Engine.Inv
import Verif.Props.LogIdProps

/-!
# The self-check of the raft state

`Engine::state` is a `Valid<RaftState>` (crate `validit`): in a debug build every access through `Deref` or `DerefMut` runs
`validate` and panics if it fails. The handlers of the engine take `&mut self.state` once and work on the plain reference.
-/

set_option autoImplicit false

namespace Openraft.Engine
open Openraft.LogIdList

/-- `Validate for IOProgress`, `raft_state/io_state/io_progress.rs:37-46` -/
def IOProgress.validate (p : IOProgress) : Bool := decide (p.flushed ≤ p.submitted) && decide (p.submitted ≤ p.accepted)

/-- `Validate for IOState`, `raft_state/io_state.rs:85-100` -/
def IOState.validate (s : IOState) : Bool :=
  s.prog.validate && decide (s.snapshot ≤ s.applied) && decide (s.purged ≤ s.snapshot)

/-- `Validate for MembershipState`, `raft_state/membership_state/mod.rs:218-226` -/
def MemState.validate (s : MemState) : Bool :=
  decide (s.committed.logId ≤ s.effective.logId) &&
    decide (s.committed.logId.map (·.index) ≤ s.effective.logId.map (·.index))

/-- the conditions on the log of `Validate for RaftState`, `raft_state/mod.rs:157-178` -/
def RState.validateLog (s : RState) : Bool :=
  (if s.purgedNext = 0 then decide (s.logIds.head?.map (·.index) ≤ some 0) else decide (s.purgedNext = nextIndex s.logIds.head?)) &&
    decide (s.lastPurged ≤ s.purgeUpto) &&
    (if s.snap.lastLogId = none then decide (s.purgeUpto ≤ s.committed) else decide (s.purgeUpto ≤ s.snap.lastLogId)) &&
    decide (s.snap.lastLogId ≤ s.committed) && decide (s.committed ≤ s.lastLogId)

/-- `Validate for RaftState`, `raft_state/mod.rs:157-186` -/
def RState.validate (s : RState) : Bool := s.validateLog && s.ms.validate && s.io.validate

/-! ## Helper lemmas -/

theorem cons_pos_le {L : List LogId} (hc : Cons L) {a b : Option LogId} (ha : ∀ x, a = some x → x ∈ L)
    (hb : ∀ x, b = some x → x ∈ L) (h : nextIndex a ≤ nextIndex b) : a ≤ b := by
  cases a with
  | none => exact OptOrd.none_le' _
  | some x =>
    cases b with
    | none => simp at h
    | some y => exact (hc.le_iff (ha x rfl) (hb y rfl)).2 (by simpa using h)

/-- the conditions on the log hold in every state that satisfies the invariant -/
theorem LogJ.validates {s : RState} {g : Gh} (hj : LogJ s.lv g) : s.validateLog = true := by
  have hc := hj.cons
  have hpn : nextIndex s.lastPurged = s.purgedNext := hj.pn.symm
  have h2 : s.purgeUpto ≤ s.snap.lastLogId := cons_pos_le hc hj.uptoIn hj.snapIn hj.ord2
  have h3 : s.snap.lastLogId ≤ s.committed := cons_pos_le hc hj.snapIn hj.comIn hj.ord3
  unfold RState.validateLog
  simp only [Bool.and_eq_true, decide_eq_true_eq]
  refine ⟨⟨⟨⟨?_, cons_pos_le hc (fun x hx => hj.purged_mem hx) hj.uptoIn (by rw [hpn]; exact hj.ord1)⟩, ?_⟩, h3⟩,
    cons_pos_le hc hj.comIn (fun x hx => hj.last_mem hx) hj.com_le_last⟩
  · split
    · next h0 =>
      refine decide_eq_true ?_
      cases hh : s.logIds.head? with
      | none => exact OptOrd.none_le' _
      | some x =>
        have hL : s.lv.L.head? = some x := by
          show (expand s.logIds).head? = some x
          exact (Props.expand_head? (ks := s.logIds) hj.sorted).trans hh
        have := hj.start h0 x hL
        exact OptOrd.some_le_some'.2 (by simp [this])
    · next h0 =>
      refine decide_eq_true ?_
      rw [← hpn]
      unfold RState.lastPurged
      rw [if_neg h0]
  · split
    · exact decide_eq_true (le_trans h2 h3)
    · exact decide_eq_true h2

theorem Cons.index_lt {L : List LogId} (h : Cons L) : L.Pairwise fun a b => a.index < b.index := by
  induction L with
  | nil => exact List.Pairwise.nil
  | cons a r ih => exact List.Pairwise.cons (fun x hx => (h.spec x hx).1) (ih h.tail)

/-- the committed membership is not above the effective one -/
theorem MemJ.validates {s : RState} {g : Gh} (hm : MemJ s.ms s.lv g) (hj : LogJ s.lv g) : s.ms.validate = true := by
  have key : nextIndex s.ms.committed.logId ≤ nextIndex s.ms.effective.logId ∧ s.ms.committed.logId ≤ s.ms.effective.logId := by
    rcases hm.com with h1 | h1
    · rw [h1]; exact ⟨Nat.le_refl _, le_refl _⟩
    · have hidx : g.store.entries.Pairwise fun a b => a.id.index < b.id.index := by
        have h2 : (g.store.entries.map (·.id)).Pairwise fun a b => a.index < b.index := by
          have h3 := hj.cons.index_lt
          rw [hj.cpl] at h3
          exact (List.pairwise_append.1 h3).2.1
        exact (List.pairwise_map (f := fun x : Ent => x.id) (R := fun a b : LogId => a.index < b.index)).1 h2
      have hms : (g.store.entries.filterMap (·.stored?)).Pairwise fun a b => nextIndex a.logId < nextIndex b.logId := by
        refine List.pairwise_filterMap.2 (hidx.imp ?_)
        intro a b hab x hx y hy
        rw [stored?_logId hx, stored?_logId hy]
        simp; omega
      rcases List.eq_nil_or_concat (g.store.entries.filterMap (·.stored?)) with h0 | ⟨pre, b, h0⟩
      · unfold Gh.mems at h1
        rw [h0] at h1; cases h1
      · rw [List.concat_eq_append] at h0
        have he : s.ms.effective = b := by
          have h2 := hm.eff
          unfold Gh.mems at h2
          rw [h0] at h2
          have : (g.base :: (pre ++ [b])).getLast? = some b := by
            rw [← List.cons_append, List.getLast?_append]; rfl
          rw [this] at h2; cases h2; rfl
        have hc : (g.base :: pre).getLast? = some s.ms.committed := by
          unfold Gh.mems at h1
          rw [h0, ← List.cons_append, List.dropLast_concat] at h1
          exact h1
        obtain ⟨e, hein, hel⟩ := mem_stored (es := g.store.entries) (m := b) (by rw [h0]; simp)
        have hin := hj.mem_ids.1 (show e.id ∈ g.ids from List.mem_map.2 ⟨e, hein, rfl⟩)
        have hn : nextIndex s.ms.committed.logId ≤ nextIndex b.logId := by
          rcases List.mem_cons.1 (List.mem_of_getLast? hc) with h2 | h2
          · rw [h2, hel]
            have := hm.base2
            have := hin.2
            simp; omega
          · rw [h0] at hms
            exact Nat.le_of_lt ((List.pairwise_append.1 hms).2.2 _ h2 b (by simp))
        rw [he]
        refine ⟨hn, ?_⟩
        rw [hel] at hn ⊢
        exact (hm.le_iff hj hm.com_mem hin.1).2 hn
  unfold MemState.validate
  rw [decide_eq_true key.2, decide_eq_true (map_index_le.2 key.1)]; rfl

end Openraft.Engine
