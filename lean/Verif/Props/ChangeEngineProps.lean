import Verif.Props.ChangeProps
import Verif.Props.AnswerProps
import Verif.Engine.Validate
import Verif.Engine.SafeStep
import Verif.Engine.Clock

/-!
# C50: the leader that the calls see is the engine
-/

set_option autoImplicit false

namespace Openraft.Props
open Openraft Openraft.Engine Openraft.ChangeApi Openraft.Engine.Demo

variable {dbg : Bool} {now : Nat} {e e' : Eng} {g0 : Gh}

/-- two memberships of the log with the same log id are the same -/
theorem MemJ.same {s : RState} {g : Gh} (hm : MemJ s.ms s.lv g) (hj : LogJ s.lv g) (h : s.ms.effective.logId = s.ms.committed.logId) :
    s.ms.effective = s.ms.committed := by
  rcases hm.com with h1 | h1
  · exact h1.symm
  · exfalso
    have hidx : g.store.entries.Pairwise fun a b => a.id.index < b.id.index := by
      have h2 : (g.store.entries.map (·.id)).Pairwise fun a b => a.index < b.index := by
        have h3 := hj.cons.index_lt
        rw [hj.cpl] at h3
        exact (List.pairwise_append.1 h3).2.1
      exact (List.pairwise_map (f := fun x : Ent => x.id) (R := fun a b : LogId => a.index < b.index)).1 h2
    have hms : (g.store.entries.filterMap (·.stored?)).Pairwise fun a b => nextIndex a.logId < nextIndex b.logId := by
      refine List.pairwise_filterMap.2 (hidx.imp ?_)
      intro a b hab x hx y hy
      rw [stored?_logId hx, stored?_logId hy]
      simp; omega
    rcases List.eq_nil_or_concat (g.store.entries.filterMap (·.stored?)) with h0 | ⟨pre, b, h0⟩
    · unfold Gh.mems at h1
      rw [h0] at h1; cases h1
    · rw [List.concat_eq_append] at h0
      have he : s.ms.effective = b := by
        have h2 := hm.eff
        unfold Gh.mems at h2
        rw [h0] at h2
        have : (g.base :: (pre ++ [b])).getLast? = some b := by
          rw [← List.cons_append, List.getLast?_append]; rfl
        rw [this] at h2; cases h2; rfl
      have hc : (g.base :: pre).getLast? = some s.ms.committed := by
        unfold Gh.mems at h1
        rw [h0, ← List.cons_append, List.dropLast_concat] at h1
        exact h1
      obtain ⟨e, hein, hel⟩ := mem_stored (es := g.store.entries) (m := b) (by rw [h0]; simp)
      have hin := hj.mem_ids.1 (show e.id ∈ g.ids from List.mem_map.2 ⟨e, hein, rfl⟩)
      have hn : nextIndex s.ms.committed.logId < nextIndex b.logId := by
        rcases List.mem_cons.1 (List.mem_of_getLast? hc) with h2 | h2
        · rw [h2, hel]
          have := hm.base2
          have := hin.2
          simp; omega
        · rw [h0] at hms
          exact (List.pairwise_append.1 hms).2.2 _ h2 b (by simp)
      rw [← h, he] at hn
      omega

/-- what the calls see of an engine -/
def seen (e : Eng) (calls : List Call) (past : List Membership) : Sys :=
  ⟨e.st.ms.committed.mem, if e.st.ms.effective.logId = e.st.ms.committed.logId then none else some e.st.ms.effective.mem, calls, past⟩

/-- The engine takes a request as the model of the calls says: it proposes the same membership, or refuses. -/
theorem C50_engine_takes (h : EInv g0 e) {c : ChangeMembers} {retain : Bool} (cs : List Call) (past : List Membership) :
    e.changeApply c retain = (ChangeApi.take (seen e cs past) ⟨c, retain, .ask1⟩).map (·.1) := by
  unfold Eng.changeApply ChangeApi.take seen
  simp only
  by_cases hid : e.st.ms.effective.logId = e.st.ms.committed.logId
  · rw [if_pos hid, if_pos hid, ← MemJ.same h.lm.mem h.lm.log hid]
    cases e.st.ms.effective.mem.change c retain <;> rfl
  · rw [if_neg hid, if_neg hid]; rfl

/-- A request that the engine takes makes the membership it proposes the pending one and leaves the committed one as it was; one
that it refuses changes nothing. -/
theorem C50_engine_change (h : EInv g0 e) {c : ChangeMembers} {retain : Bool} (hr : e.input dbg now (.change c retain) = .ok e')
    (cs : List Call) (past : List Membership) :
    e' = e ∨ ∃ m, ChangeApi.take (seen e cs past) ⟨c, retain, .ask1⟩ = some (m, .wait1 e.st.ms.committed.mem m) ∧
      seen e' cs past = { seen e cs past with pend := some m } := by
  have htk := C50_engine_takes h (c := c) (retain := retain) cs past
  simp only [Eng.input] at hr
  rw [bind_ok] at hr
  obtain ⟨⟨r, e1⟩, h1, hr⟩ := hr
  rw [pure_ok] at hr; subst hr
  unfold Eng.changeMembership at h1
  split at h1
  · rw [pure_ok] at h1; cases h1; exact Or.inl rfl
  · next m hm =>
    have hid : e.st.ms.effective.logId = e.st.ms.committed.logId := by
      unfold Eng.changeApply at hm
      by_contra hid
      rw [if_neg hid] at hm; cases hm
    have hsame := MemJ.same h.lm.mem h.lm.log hid
    unfold Eng.writeEntry at h1
    rw [bind_ok] at h1
    obtain ⟨o, ho, h1⟩ := h1
    cases o with
    | none => dsimp only at h1; rw [pure_ok] at h1; cases h1; exact Or.inl rfl
    | some l =>
      dsimp only at h1
      split at h1
      · rw [pure_ok] at h1; cases h1; exact Or.inl rfl
      · rw [bind_ok] at h1
        obtain ⟨e2, h2, h1⟩ := h1
        rw [bind_ok] at h1
        obtain ⟨_, _, h1⟩ := h1
        rw [pure_ok] at h1; cases h1
        refine Or.inr ⟨m, ?_, ?_⟩
        · rw [hm] at htk
          unfold ChangeApi.take seen at htk ⊢
          simp only [hid, if_true] at htk ⊢
          cases hch : e.st.ms.committed.mem.change c retain with
          | error x => rw [hch] at htk; cases htk
          | ok m' => rw [hch] at htk; cases htk; rfl
        · have hms : ∃ id : LogId, e1.st.ms = ⟨e.st.ms.effective, ⟨some id, m⟩⟩ ∧ nextIndex e.st.ms.effective.logId ≤ id.index := by
            have hk := h.pj.lead l (Eng.leaderHandler_some ho)
            have hle : nextIndex e.st.ms.effective.logId ≤ nextIndex l.lastLogId := by
              have := h.lm.mem.eff_le_last h.lm.log
              rw [hk.last]; exact this
            unfold Eng.lhAppend at h2
            rw [if_neg (by simp)] at h2
            simp only [bind_ok, unwrap_ok, Eng.assign_single] at h2
            obtain ⟨_, _, ids, _, _, _, st, hst, e3, he3, l2, _, h2⟩ := h2
            rw [Eng.stored?_single] at he3
            simp only [List.getLast?_singleton, Eng.lhMembership, Eng.rhAppendMembership, bind_ok, unwrap_ok] at he3
            obtain ⟨_, _, _, _, ms, hms, l3, _, he3⟩ := he3
            unfold RState.MemState.append at hms
            simp only [bind_ok, pure_ok] at hms
            obtain ⟨_, _, _, _, rfl⟩ := hms
            refine ⟨⟨l.vote.leaderId, nextIndex l.lastLogId⟩, ?_, hle⟩
            rw [Eng.rhInitiate_st h2, Eng.rhInitiate_st he3]
            show (⟨st.ms.effective, _⟩ : MemState) = _
            rw [(acceptIo_ms hst).1]
          obtain ⟨id, hms, hlt⟩ := hms
          unfold seen
          rw [hms, hsame]
          have hne : ¬ (some id = e.st.ms.committed.logId) := by
            intro hx
            rw [hsame, ← hx] at hlt
            simp only [nextIndex_some] at hlt; omega
          simp only [hne, if_false]

/-- When the leader commits, the pending membership becomes the committed one, or the memberships stay as they are. -/
theorem C50_engine_commit {g : Option LogId} (hr : e.rhTryCommit dbg g = .ok e') (cs : List Call) (past : List Membership) :
    seen e' cs past = seen e cs past ∨
    (e.st.ms.effective.logId ≤ e'.st.committed ∧ seen e' cs past = ⟨e.st.ms.effective.mem, none, cs, past⟩) := by
  have hsn : ∀ x : Eng, x.maybeSnapshot.st.ms = x.st.ms ∧ x.maybeSnapshot.st.committed = x.st.committed := by
    intro x; unfold Eng.maybeSnapshot Eng.triggerSnapshot; split
    · split <;> exact ⟨rfl, rfl⟩
    · exact ⟨rfl, rfl⟩
  unfold Eng.rhTryCommit at hr
  split at hr
  · rw [pure_ok] at hr; subst hr; exact Or.inl rfl
  · next c =>
    split at hr
    · rw [bind_ok] at hr
      obtain ⟨⟨ch, st⟩, hu, hr⟩ := hr
      simp only at hr
      unfold RState.updateCommitted at hu
      split at hu
      · rw [bind_ok] at hu
        obtain ⟨ms, hms, hu⟩ := hu
        rw [pure_ok] at hu; cases hu
        rw [if_pos rfl, pure_ok] at hr
        subst hr
        unfold seen
        rw [(hsn _).1, (hsn _).2]
        unfold RState.MemState.commit at hms
        split at hms
        · next hle =>
          rw [bind_ok] at hms
          obtain ⟨_, _, hms⟩ := hms
          rw [pure_ok] at hms; subst hms
          refine Or.inr ⟨hle, ?_⟩
          exact congrArg (fun x => (⟨e.st.ms.effective.mem, x, cs, past⟩ : Sys)) (if_pos rfl)
        · rw [pure_ok] at hms; subst hms; exact Or.inl rfl
      · rw [pure_ok] at hu; cases hu
        rw [if_neg (by decide), pure_ok] at hr
        subst hr; exact Or.inl rfl
    · rw [pure_ok] at hr; subst hr; exact Or.inl rfl

/-- `s9` (node 1 alone, its membership committed) takes a change: the proposed membership is pending; once the entry is flushed, it is
committed. -/
example : seen s9 [] [] = ⟨m1, none, [], []⟩ ∧
    (∃ t, s9.input true 9 (.change (.addNodes [(2, 0)]) false) = .ok t ∧ seen t [] [] = ⟨m1, some ⟨[[1]], [(1, 0), (2, 0)]⟩, [], []⟩ ∧
      ∃ t', t.input true 10 (.localIO ⟨⟨⟨1, 1⟩, true⟩, some (lid 1 1 2)⟩) = .ok t' ∧
        seen t' [] [] = ⟨⟨[[1]], [(1, 0), (2, 0)]⟩, none, [], []⟩) :=
  ⟨by decide +kernel, after 9 s9 (.change (.addNodes [(2, 0)]) false), after_ok (by decide +kernel), by decide +kernel,
    _, after_ok (by decide +kernel), by decide +kernel⟩

end Openraft.Props
