import Verif.Props.ClockProps
import Verif.Engine.Stuck

/-!
# C57: a leader commits what a quorum has stored

After a leader has counted a report, every log id of its own term that a quorum is recorded to store is committed. This holds
with one config of at most three voters (`C57_commits_partial`). With five voters it fails (`C57_false`), and stays so while only
the nodes that are above the granted position report (`C57_stuck`, `C57_halted`): the leader commits nothing more although a majority
stores and acknowledges everything.
-/

set_option autoImplicit false

namespace Openraft.Props
open Openraft Openraft.Engine Openraft.Engine.Demo
open Openraft.VecProgress (Small Track)

variable {dbg : Bool} {g0 : Gh} {e0 e e' : Eng} {is : List Input}

/-- the input is a report about a node's log that the leader counts: it belongs to the leader's term and membership; the end of a local
write is counted if it is further than what the leader has recorded for itself -/
def Reports (e : Eng) : Input → Prop
  | .replProgress s _ (.matching _) => e.sessionMatch s = true
  | .localIO io => io.vote.committed = true ∧ e.voteMatch io.vote = true ∧ ∃ l, e.leader = some l ∧ ¬ io.last ≤ l.mt e.cfg.id ∧
      (l.progress.vp.index e.cfg.id).isSome = true
  | _ => False

/-- a quorum of the effective membership is recorded to store `x` -/
def RecordedBy (e : Eng) (l : Leader) (x : LogId) : Prop :=
  ∃ T : Finset Nat, (∀ n ∈ T, some x ≤ l.mt n) ∧ Spec.JointQuorum (e.st.ms.effective.mem.configs.map List.toFinset) T

/-- **C57**: when a leader has counted a report, every log id of its term that a quorum is recorded to store is committed. -/
def C57_statement : Prop :=
  ∀ (dbg : Bool) (g0 : Gh) (e0 e e' : Eng) (is : List Input) (now : Nat) (i : Input) (l' : Leader) (x : LogId),
    Started dbg g0 e0 → CRun dbg e0 is e → InputOk e i → InWf i → Grows e i → e.input dbg now i = .ok e' → Reports e i →
    e'.leader = some l' → x.leaderId = l'.vote.leaderId → RecordedBy e' l' x → some x ≤ e'.st.committed

/-! ## One config of at most three voters -/

theorem tryCommit_out {g : Option LogId} (hr : e.rhTryCommit dbg g = .ok e') :
    e'.leader = e.leader ∧ ∀ x, g = some x → e.st.vote.data.isSameLeader x.leaderId = true → some x ≤ e'.st.committed := by
  have hsnap : ∀ a : Eng, a.maybeSnapshot.leader = a.leader ∧ a.maybeSnapshot.st.committed = a.st.committed := by
    intro a
    unfold Eng.maybeSnapshot Eng.triggerSnapshot
    split
    · split <;> exact ⟨rfl, rfl⟩
    · exact ⟨rfl, rfl⟩
  unfold Eng.rhTryCommit at hr
  split at hr
  · rw [pure_ok] at hr; subst hr
    exact ⟨rfl, fun x hx => by cases hx⟩
  · next c =>
    split at hr
    · rw [bind_ok] at hr
      obtain ⟨⟨ch, st⟩, hp, hr⟩ := hr
      have hch : (ch = true ∧ st.committed = some c) ∨ (ch = false ∧ some c ≤ e.st.committed) := by
        unfold RState.updateCommitted at hp
        split at hp
        · rw [bind_ok] at hp
          obtain ⟨_, _, hp⟩ := hp
          rw [pure_ok] at hp; cases hp
          exact Or.inl ⟨rfl, rfl⟩
        · next hn =>
          rw [pure_ok] at hp; cases hp
          exact Or.inr ⟨rfl, not_lt.1 hn⟩
      dsimp only at hr
      rcases hch with ⟨rfl, h1⟩ | ⟨rfl, h1⟩
      · rw [if_pos rfl, pure_ok] at hr
        subst hr
        refine ⟨(hsnap _).1, fun x hx _ => ?_⟩
        cases hx
        rw [(hsnap _).2]
        exact le_of_eq h1.symm
      · rw [if_neg (by simp), pure_ok] at hr
        subst hr
        exact ⟨rfl, fun x hx _ => by cases hx; exact h1⟩
    · next hn =>
      rw [pure_ok] at hr; subst hr
      exact ⟨rfl, fun x hx hs => by cases hx; exact absurd hs hn⟩

/-- after the report the leader has committed the granted position of its progress if it is of its own term -/
def Committed (v : Vote) (e' : Eng) : Prop :=
  ∃ l', e'.leader = some l' ∧ ∀ x, l'.progress.vp.granted = some x → v.isSameLeader x.leaderId = true → some x ≤ e'.st.committed

theorem updateMatching_out {l : Leader} {n : NodeId} {m : Option LogId} (hr : e.rhUpdateMatching dbg l n m = .ok e') :
    Committed e.st.vote.data e' := by
  unfold Eng.rhUpdateMatching at hr
  simp only [bind_ok] at hr
  obtain ⟨_, _, _, _, en, _, vp, _, hr⟩ := hr
  obtain ⟨h1, h2⟩ := tryCommit_out hr
  exact ⟨_, h1, h2⟩

theorem committed_purge {v : Vote} {l : Leader} (h : Committed v e) : Committed v (e.rhTryPurge l) := by
  have hp : (e.rhTryPurge l).leader = e.leader ∧ (e.rhTryPurge l).st.committed = e.st.committed := by
    unfold Eng.rhTryPurge
    split
    · exact ⟨rfl, rfl⟩
    · split
      · exact ⟨rfl, rfl⟩
      · split
        · exact ⟨rfl, rfl⟩
        · unfold Eng.logPurge
          split
          · exact ⟨rfl, rfl⟩
          · split <;> exact ⟨rfl, rfl⟩
  obtain ⟨l', h1, h2⟩ := h
  exact ⟨l', hp.1.trans h1, fun x hx hs => by rw [hp.2]; exact h2 x hx hs⟩

theorem reports_out {now : Nat} {i : Input} (hr : e.input dbg now i = .ok e') (hi : Reports e i) : Committed e.st.vote.data e' := by
  cases i with
  | replProgress s n r =>
    cases r with
    | matching m =>
      have hi : e.sessionMatch s = true := hi
      simp only [Eng.input, Eng.coreReplProgress] at hr
      rw [if_pos hi, bind_ok] at hr
      obtain ⟨l, _, hr⟩ := hr
      unfold Eng.rhUpdateProgress at hr
      simp only [bind_ok, pure_ok] at hr
      obtain ⟨e1, h1, l1, _, hr⟩ := hr
      subst hr
      exact committed_purge (updateMatching_out h1)
    | conflict c => exact hi.elim
    | failed => exact hi.elim
  | localIO io =>
    obtain ⟨h1, h2, l, hl, h3, h4⟩ := hi
    simp only [Eng.input, Eng.coreLocalIO, bind_ok] at hr
    obtain ⟨p, _, hr⟩ := hr
    have hl' : (e.withProg p).leader = some l := hl
    have h2' : (e.withProg p).voteMatch io.vote = true := h2
    rw [if_pos h1, hl'] at hr
    dsimp only at hr
    rw [if_pos h2'] at hr
    unfold Eng.rhUpdateLocal at hr
    have hn : io.last ≠ none := fun hn => h3 (by rw [hn]; exact none_le_id _)
    have h4' : (l.progress.vp.index (e.withProg p).cfg.id).isSome = true := h4
    have h3' : ¬ io.last ≤ (l.progress.ent (e.withProg p).cfg.id).matching := h3
    rw [if_neg hn, if_pos h4', if_neg h3'] at hr
    exact updateMatching_out (e := e.withProg p) hr
  | _ => exact hi.elim

theorem reports_vote {now : Nat} {i : Input} (hI : EInv g0 e) (hr : e.input dbg now i = .ok e') (hi : Reports e i) :
    e'.st.vote.data = e.st.vote.data := by
  have hl : ∃ l, e.leader = some l := by
    cases i with
    | replProgress s n r =>
      cases r with
      | matching m =>
        have hi : e.sessionMatch s = true := hi
        simp only [Eng.input, Eng.coreReplProgress] at hr
        rw [if_pos hi, bind_ok] at hr
        obtain ⟨l, h1, _⟩ := hr
        exact ⟨l, Eng.unwrap_some h1⟩
      | conflict c => exact hi.elim
      | failed => exact hi.elim
    | localIO io => exact hi.2.2.imp fun l h => h.1
    | _ => exact hi.elim
  obtain ⟨l, hl⟩ := hl
  refine Eng.quiet_vote (A := fun _ => True) hI hl ?_ hr
  cases i with
  | replProgress s n r => cases r <;> trivial
  | localIO io => trivial
  | _ => exact hi.elim

/-- **C57** with one config of at most three voters. -/
theorem C57_commits_partial (h0 : Started dbg g0 e0) (h : CRun dbg e0 is e) {now : Nat} {i : Input} (ho : InputOk e i) (hw : InWf i)
    (hg : Grows e i) (hr : e.input dbg now i = .ok e') (hi : Reports e i) {l' : Leader} (hl : e'.leader = some l') {x : LogId}
    (hx : x.leaderId = l'.vote.leaderId) {vs : List NodeId} (hvs : e'.st.ms.effective.mem.configs = [vs]) (hsm : Small vs)
    (hq : RecordedBy e' l' x) : some x ≤ e'.st.committed := by
  have hinv := (CRun.input now i h ho hw hg hr).inv h0.cinv
  have hL := hinv.inv.pj.lead l' hl
  have hcf : l'.progress.vp.configs = [vs] := by rw [(hinv.sy.lead l' hl).1]; exact hvs
  obtain ⟨_, ht, hvals⟩ := hinv.k.clk l' hl
  obtain ⟨vals, k1, k2, k3⟩ := ht.exact' vs hcf hsm
  have hqv := quorumValue_of_ok k1 k2 k3
  -- the granted position is at least `x`
  have hge : some x ≤ l'.progress.vp.granted := by
    by_contra hn
    refine hqv.2 (some x) (not_le.1 hn) ?_
    obtain ⟨T, hT, hJ⟩ := hq
    intro c hc
    rw [hcf] at hc
    simp only [List.map_cons, List.map_nil, List.mem_singleton] at hc
    subst hc
    have hm : Spec.Majority vs.toFinset T := hJ _ (by rw [hvs]; simp)
    refine lt_of_lt_of_le hm ?_
    have : vs.toFinset ∩ T ⊆ vs.toFinset.filter fun k => some x ≤ vals k := by
      intro n hn
      rw [Finset.mem_inter, List.mem_toFinset] at hn
      rw [Finset.mem_filter, List.mem_toFinset]
      refine ⟨hn.1, ?_⟩
      have hv := (k2.voters n).2 ⟨vs, by rw [hcf]; simp, hn.1⟩
      obtain ⟨p, hp, rfl⟩ := List.mem_map.1 hv
      have hpm := List.mem_of_mem_take hp
      rw [← k2.vals p hpm, hvals p hpm]
      exact hT _ hn.2
    have := Finset.card_le_card this
    omega
  cases hgr : l'.progress.vp.granted with
  | none => rw [hgr] at hge; exact absurd hge (by simp)
  | some c =>
    rw [hgr] at hge
    have hxc : x ≤ c := hge
    rcases hL.vp.2 c hgr with hk | hk
    · obtain ⟨l2, hl2, hc⟩ := reports_out hr hi
      rw [hl] at hl2; cases hl2
      refine le_trans hge (hc c hgr ?_)
      have hv : e'.st.vote.data = e.st.vote.data := reports_vote (h.inv h0.cinv).inv hr hi
      have h1 : c.leaderId ≤ e'.st.vote.data.leaderId := hinv.inv.lm.log.bound c hk
      have h2 : l'.vote.leaderId ≤ c.leaderId := hx ▸ LogId.leaderId_le_of_le hxc
      rw [hL.vote] at h2
      unfold Vote.isSameLeader
      rw [beq_iff_eq, ← hv]
      exact le_antisymm h2 h1
    · exact le_trans hge hk

/-- in the cluster of three the report of node 2 is counted and its log id, which nodes 1 and 2 store, is committed -/
example : ∃ l', (after 12 s24 i24).leader = some l' ∧ RecordedBy (after 12 s24 i24) l' (lid 1 1 1) ∧
    some (lid 1 1 1) ≤ (after 12 s24 i24).st.committed := by
  have hr : s24.input true 12 i24 = .ok (after 12 s24 i24) := after_ok (by decide +kernel)
  have hl : ∃ l, (after 12 s24 i24).leader = some l := Option.isSome_iff_exists.1 (by decide +kernel)
  obtain ⟨l, hl⟩ := hl
  have hv : (after 12 s24 i24).leader.map (·.vote) = some ss24.vote := by decide +kernel
  have hv : l.vote = ss24.vote := by rw [hl] at hv; exact Option.some.inj hv
  have hm : (after 12 s24 i24).leader.map (fun l => (l.mt 1, l.mt 2)) = some (some (lid 1 1 1), some (lid 1 1 1)) := by decide +kernel
  rw [hl] at hm
  have hm : (l.mt 1, l.mt 2) = (some (lid 1 1 1), some (lid 1 1 1)) := Option.some.inj hm
  have hrec : RecordedBy (after 12 s24 i24) l (lid 1 1 1) := by
    refine ⟨{1, 2}, ?_, ?_⟩
    · intro n hn
      simp only [Finset.mem_insert, Finset.mem_singleton] at hn
      rcases hn with rfl | rfl
      · exact le_of_eq (Prod.ext_iff.1 hm).1.symm
      · exact le_of_eq (Prod.ext_iff.1 hm).2.symm
    · rw [show (after 12 s24 i24).st.ms.effective.mem.configs = [[1, 2, 3]] by decide +kernel]
      intro c hc
      simp only [List.map_cons, List.map_nil, List.mem_singleton] at hc
      subst hc
      unfold Spec.Majority; decide
  exact ⟨l, hl, hrec, C57_commits_partial (started_fresh _ _) s24_run (i := i24) (okB_ok (lead := []) (by decide +kernel)) trivial
    (grows_of_debug hr) hr (by show s24.sessionMatch _ = true; decide +kernel) hl (by rw [hv]; rfl) (vs := [1, 2, 3]) (by decide +kernel)
    ⟨by simp, by simp⟩ hrec⟩

/-! ## Five voters -/

/-- a cluster of five voters -/
def m5 : Membership := ⟨[[1, 2, 3, 4, 5]], [(1, 0), (2, 0), (3, 0), (4, 0), (5, 0)]⟩
/-- the session of leader 1 -/
def ss57 : Session := ⟨⟨⟨1, 1⟩, true⟩, some (lid 0 0 0)⟩

/-- leader 1 of five voters: node 4 reports the first entry, the leader itself the first and the second, node 2 the first, which is then
committed, and the third, node 3 the first -/
def w57 : List (Nat × List LogId × Input) := [
  (1, [], .init 7 m5), (2, [], .voteResp 1 ⟨⟨1, 1⟩, false⟩ none true ⟨⟨1, 1⟩, false⟩),
  (3, [], .voteResp 2 ⟨⟨1, 1⟩, false⟩ none true ⟨⟨1, 1⟩, false⟩),
  (3, [], .voteResp 3 ⟨⟨1, 1⟩, false⟩ none true ⟨⟨1, 1⟩, false⟩),
  (4, [], .replProgress ss57 4 (.matching (some (lid 1 1 1)))),
  (5, [], .localIO ⟨⟨⟨1, 1⟩, true⟩, some (lid 1 1 1)⟩),
  (6, [], .write (.normal 5)),
  (7, [], .localIO ⟨⟨⟨1, 1⟩, true⟩, some (lid 1 1 2)⟩),
  (8, [], .write (.normal 6)),
  (9, [], .replProgress ss57 2 (.matching (some (lid 1 1 1)))), (9, [], .initiate),
  (10, [], .replProgress ss57 2 (.matching (some (lid 1 1 3)))), (10, [], .initiate),
  (11, [], .replProgress ss57 3 (.matching (some (lid 1 1 1)))), (11, [], .initiate)]
/-- its state -/
def s57 : Eng := runTo (Eng.fresh Demo.cfg 0) w57
theorem s57_run : CRun true (Eng.fresh Demo.cfg 0) (w57.map (·.2.2)) s57 := crun_of (l := w57) (is := []) .nil (by decide +kernel)
/-- node 3 reports the third entry -/
def i57 : Input := .replProgress ss57 3 (.matching (some (lid 1 1 3)))
/-- its state then -/
def t57 : Eng := after 12 s57 i57
theorem t57_step : s57.input true 12 i57 = .ok t57 := after_ok (by decide +kernel)
theorem t57_run : CRun true (Eng.fresh Demo.cfg 0) (w57.map (·.2.2) ++ [i57]) t57 :=
  .input 12 i57 s57_run (okB_ok (lead := []) (by decide +kernel)) trivial (grows_of_debug t57_step) t57_step

/-- what the leader has recorded: nodes 1, 2 and 3 store the second entry -/
theorem t57_lead : ∃ l, t57.leader = some l ∧ l.vote = ss57.vote ∧ l.mt 1 = some (lid 1 1 2) ∧ l.mt 2 = some (lid 1 1 3) ∧
    l.mt 3 = some (lid 1 1 3) ∧ l.progress.vp.granted = some (lid 1 1 1) := by
  have hl : ∃ l, t57.leader = some l := Option.isSome_iff_exists.1 (by decide +kernel)
  obtain ⟨l, hl⟩ := hl
  have hm : t57.leader.map (fun l => (l.vote, l.mt 1, l.mt 2, l.mt 3, l.progress.vp.granted)) =
    some (ss57.vote, some (lid 1 1 2), some (lid 1 1 3), some (lid 1 1 3), some (lid 1 1 1)) := by decide +kernel
  rw [hl] at hm
  have hm := Option.some.inj hm
  simp only [Prod.mk.injEq] at hm
  exact ⟨l, hl, hm.1, hm.2.1, hm.2.2.1, hm.2.2.2.1, hm.2.2.2.2⟩

/-- **C57** does not hold: nodes 1, 2 and 3 of five voters store the second entry, the leader has counted their reports, and only the
first entry is committed. -/
theorem C57_false : ¬ C57_statement := by
  intro h
  obtain ⟨l, hl, hv, h1, h2, h3, _⟩ := t57_lead
  have := h true Gh.empty _ s57 t57 _ 12 i57 l (lid 1 1 2) (started_fresh _ _) s57_run (okB_ok (lead := []) (by decide +kernel)) trivial
    (grows_of_debug t57_step) t57_step (by show s57.sessionMatch _ = true; decide +kernel) hl (by rw [hv]; rfl) ⟨{1, 2, 3}, ?_, ?_⟩
  · revert this; decide +kernel
  · intro n hn
    simp only [Finset.mem_insert, Finset.mem_singleton] at hn
    rcases hn with rfl | rfl | rfl
    · rw [h1]
    · rw [h2]; decide
    · rw [h3]; decide
  · rw [show t57.st.ms.effective.mem.configs = [[1, 2, 3, 4, 5]] by decide +kernel]
    intro c hc
    simp only [List.map_cons, List.map_nil, List.mem_singleton] at hc
    subst hc
    unfold Spec.Majority; decide

/-! ## It stays so -/

/-- **C57**, why it is not repaired: let the nodes in `A`, with the leader itself, be recorded above the granted position. As long as only
they report, the node stays the leader and commits nothing more, whatever they store. -/
theorem C57_stuck (h0 : Started dbg g0 e0) (h : CRun dbg e0 is e) {l : Leader} (hl : e.leader = some l) {A : NodeId → Prop} (hme : A e.cfg.id)
    (hA : ∀ n, A n → l.progress.vp.granted < l.mt n) (hg : l.progress.vp.granted ≤ e.st.committed)
    (heff : e.st.ms.effective.mem.contains e.cfg.id = true) (hcom : e.st.ms.committed.mem.contains e.cfg.id = true)
    {is' : List Input} (hr : CRun dbg e is' e') (hq : ∀ i ∈ is', OnlyFrom A i) :
    e'.st.committed ≤ e.st.committed ∧ ∃ l', e'.leader = some l' ∧ l'.vote = l.vote := by
  have hinv := h.inv h0.cinv
  obtain ⟨_, ht, hvals⟩ := hinv.k.clk l hl
  have hS : Stands g0 l.progress.vp.granted e.st.committed A e.cfg e.st.vote.data e := by
    refine ⟨hinv.inv, ⟨l, hl⟩, ⟨heff, hcom, ?_, ?_, le_refl _⟩, rfl, rfl⟩
    · intro c hc
      have := (hinv.inv.pj.cand c hc).nl
      rw [hl] at this; cases this
    · intro l2 hl2
      rw [hl] at hl2; cases hl2
      exact ⟨⟨rfl, ht.nodup, fun p hp hA' => by rw [hvals p hp]; exact hA _ hA'⟩, hvals⟩
  have hS' := hS.run hg hme hr hq
  obtain ⟨l', hl'⟩ := hS'.lead
  refine ⟨hS'.k.cmt, l', hl', ?_⟩
  rw [(hS'.inv.pj.lead l' hl').vote, hS'.vote, (hinv.inv.pj.lead l hl).vote]

/-- **C57**: the leader of five voters in the state above never commits the second entry, nor any later one, while only nodes 1, 2 and 3
report, although they are a majority. -/
theorem C57_halted {is' : List Input} (hr : CRun true t57 is' e') (hq : ∀ i ∈ is', OnlyFrom (· ∈ [1, 2, 3]) i) :
    e'.st.committed ≤ some (lid 1 1 1) ∧ ∃ l', e'.leader = some l' ∧ l'.vote = ss57.vote := by
  obtain ⟨l, hl, hv, h1, h2, h3, hg⟩ := t57_lead
  have hc : t57.st.committed = some (lid 1 1 1) := by decide +kernel
  have := C57_stuck (started_fresh _ _) t57_run hl (A := (· ∈ [1, 2, 3])) (by decide +kernel) ?_ (by rw [hg, hc]) (by decide +kernel)
    (by decide +kernel) hr hq
  · rw [hc, hv] at this; exact this
  · intro n hn
    rw [hg]
    simp only [List.mem_cons, List.not_mem_nil, or_false] at hn
    rcases hn with rfl | rfl | rfl
    · rw [h1]; decide
    · rw [h2]; decide
    · rw [h3]; decide

/-- a further entry is written, and nodes 1, 2 and 3 store everything -/
def u57 : List (Nat × List LogId × Input) := [
  (13, [], .write (.normal 7)), (14, [], .localIO ⟨⟨⟨1, 1⟩, true⟩, some (lid 1 1 4)⟩),
  (15, [], .replProgress ss57 2 (.matching (some (lid 1 1 4)))), (15, [], .initiate),
  (16, [], .replProgress ss57 3 (.matching (some (lid 1 1 4)))), (17, [], .tick true true 5)]

theorem u57_only : ∀ i ∈ [] ++ u57.map (·.2.2), OnlyFrom (· ∈ [1, 2, 3]) i := by
  intro i hi
  simp only [u57, List.map_cons, List.map_nil, List.nil_append, List.mem_cons, List.not_mem_nil, or_false] at hi
  rcases hi with rfl | rfl | rfl | rfl | rfl | rfl
  · intro m hm; cases hm
  · trivial
  · show 2 ∈ [1, 2, 3]; decide
  · trivial
  · show 3 ∈ [1, 2, 3]; decide
  · trivial

theorem u57_run : CRun true t57 ([] ++ u57.map (·.2.2)) (runTo t57 u57) := crun_of (l := u57) (is := []) .nil (by decide +kernel)
theorem u57_mt : (runTo t57 u57).leader.map (fun l => (l.mt 1, l.mt 2, l.mt 3)) =
    some (some (lid 1 1 4), some (lid 1 1 4), some (lid 1 1 4)) := by decide +kernel

set_option maxRecDepth 8000 in
example : ∃ e', CRun true t57 ([] ++ u57.map (·.2.2)) e' ∧
    e'.leader.map (fun l => (l.mt 1, l.mt 2, l.mt 3)) = some (some (lid 1 1 4), some (lid 1 1 4), some (lid 1 1 4)) ∧
    e'.st.committed ≤ some (lid 1 1 1) :=
  ⟨_, u57_run, u57_mt, (C57_halted u57_run u57_only).1⟩

/-! ## The progress alone: four voters, and a joint config -/

/-- **C57**, the progress alone: no sequence of reports of nodes that are above the granted value changes the granted value. -/
theorem C57_progress {α : Type} [LinearOrder α] {g : α} {A : NodeId → Prop} {p : VecProgress α} (h : VecProgress.Above g A p)
    {us : List (NodeId × α)} (hus : ∀ u ∈ us, A u.1 ∧ g < u.2) : (p.updates us).granted = g := by
  induction us generalizing p with
  | nil => exact h.granted
  | cons u us ih =>
    obtain ⟨n, v⟩ := u
    have hu := hus (n, v) (by simp)
    refine ih (p := (p.update n v).getD p) ?_ fun w hw => hus w (by simp [hw])
    cases hp : p.update n v with
    | none => exact h
    | some p' => exact h.update hu.1 hu.2 hp

/-- four voters: nodes 1, 2 and 3 are at 3 or more, the granted value is 2, and no report of theirs changes it -/
theorem C57_four : ∃ us : List (NodeId × Nat), Growing (fun _ => 0) us ∧
    let p := (VecProgress.new [[1, 2, 3, 4]] [] 0).updates us
    Spec.ReachedByQuorum [{1, 2, 3, 4}] (valsAfter (fun _ => 0) us) 3 ∧ p.granted = 2 ∧ VecProgress.Above 2 (· ∈ [1, 2, 3]) p :=
  ⟨[(1, 1), (4, 2), (1, 3), (2, 2), (2, 4), (3, 4)], by simp [Growing], by unfold Spec.ReachedByQuorum; decide, by decide,
    ⟨by decide, by decide, by decide⟩⟩

/-- a joint config: nodes 1 and 2 are a majority of both, at 3 or more; the granted value is 2 -/
theorem C57_joint : ∃ us : List (NodeId × Nat), Growing (fun _ => 0) us ∧
    let p := (VecProgress.new [[1, 2, 3], [1, 2, 4]] [] 0).updates us
    Spec.ReachedByQuorum [{1, 2, 3}, {1, 2, 4}] (valsAfter (fun _ => 0) us) 3 ∧ p.granted = 2 ∧ VecProgress.Above 2 (· ∈ [1, 2]) p :=
  ⟨[(1, 1), (3, 2), (1, 3), (2, 2), (2, 4)], by simp [Growing], by unfold Spec.ReachedByQuorum; decide, by decide,
    ⟨by decide, by decide, by decide⟩⟩

end Openraft.Props
