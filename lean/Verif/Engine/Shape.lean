import Verif.Engine.InvStep
import Verif.Engine.Grow

/-!
# What an append-entries request does to the log
-/

set_option autoImplicit false

namespace Openraft.Engine
open Openraft.Repl (Panic dassert Inflight)
open Openraft.Cluster (Payload)
open LogIdList

/-- the log after a request: `n` is the index from which it was cut, `new` what was added there -/
structure Shape (L L' : List LogId) (com : Option LogId) (prev : Option LogId) (es : List Ent) : Prop where
  /-- nothing at or below the committed position is removed -/
  keepCom : ∀ x ∈ L, x.index < nextIndex com → x ∈ L'
  /-- what is removed lies at or above an id of the request that the log contradicts -/
  cut : ∀ x ∈ L, x ∉ L' → ∃ r, (prev = some r ∨ r ∈ es.map (·.id)) ∧ r ∉ L ∧
    nextIndex com ≤ r.index ∧ r.index ≤ x.index
  /-- what is added comes from the request -/
  new : ∀ x ∈ L', x ∉ L → x ∈ es.map (·.id)

namespace Eng

theorem fhAppendEntries_shape {g0 : Gh} {dbg : Bool} {e e' : Eng} {lead : List LogId} {prev : Option LogId} {es : List Ent}
    (h : EInv g0 e) (hf : Following e) (hl : LeadLog lead e.st.vote.data e.st.lv.L (e.floor e.st.vote.data))
    (hpre : Pre lead e.st (nextIndex prev))
    (hes : ∀ x ∈ es, x.id ∈ lead) (hc : Cons (es.map (·.id)))
    (hh : ∀ x, es.head? = some x → x.id.index = nextIndex prev)
    (hr : fhAppendEntries dbg e e.st.vote.data prev es = .ok e') :
    Shape e.st.lv.L e'.st.lv.L e.st.committed prev es ∧ e'.st.committed = e.st.committed ∧
      ∀ x ∈ es, x.id ∈ e'.st.lv.L ∨ some x.id ≤ e.st.committed := by
  obtain ⟨f1, f2, f3⟩ := floor_parts (e := e) rfl
  unfold fhAppendEntries at hr
  simp only [bind_ok] at hr
  obtain ⟨_, _, st, hst, k, hk, hr⟩ := hr
  obtain ⟨a, ha1, ha2, ha3⟩ := h.pj.acc
  obtain ⟨⟨io, hio⟩, hacc, a', ha', hav'⟩ := acceptIo_same ha1 ha2 hf.com hst
  subst hio
  have hlm := lm_setIo h.lm io
  obtain ⟨s1, s2, s3, s4⟩ := firstConflicting_spec hlm hl f1 hes hc hh hpre hk
  split at hr
  · next x xs hdrop =>
    rw [bind_ok] at hr
    obtain ⟨e1, he1, hr⟩ := hr
    obtain ⟨t1, t2, t3⟩ := s3 x (by rw [hdrop]; rfl)
    have hxlead : x.id ∈ lead := hes x (List.mem_of_mem_drop (by rw [hdrop]; simp))
    have hfl := floor_le hl hxlead t3
    obtain ⟨h4, h5⟩ := lm_fhTruncate hlm t2 (fun y hy hi => by have := hfl y hy hi; exact Nat.le_trans f2 this) he1
    have hnl : nextIndex prev + k ≤ nextIndex e.st.lastLogId := s1.2
    have hl1 : nextIndex e1.st.lastLogId = x.id.index := h5.last (by
      show _ ≤ nextIndex e.st.lastLogId
      omega)
    have hL1 : ∀ y ∈ e1.st.lv.L, y ∈ lead ∧ y.index < x.id.index := by
      intro y hy
      rw [h5.L] at hy
      obtain ⟨hy1, hy2⟩ := List.mem_filter.1 hy
      have hy3 : y.index < x.id.index := by simpa using hy2
      exact ⟨s1.1 y hy1 (by omega), hy3⟩
    have hsub : ∀ z ∈ x :: xs, z ∈ es := fun z hz => List.mem_of_mem_drop (by rw [hdrop]; exact hz)
    have hcx : Cons ((x :: xs).map (·.id)) := by
      have := hc.drop k
      rw [← List.map_drop, hdrop] at this; exact this
    have hv1 : e1.st.vote.data = e.st.vote.data := by rw [h5.vote]
    obtain ⟨d1, d2, d3, d4, d5, d6, d7, d8, d9, d10⟩ := lm_fhDoAppend h4 (by simp)
      (by intro z hz; simp at hz; subst hz; exact hl1.symm) hcx
      (by
        intro l z hl' hz
        simp at hz; subst hz
        have hlm1 := h4.log.last_mem (x := l) hl'
        exact hl.cons.mono (hL1 l hlm1).1 hxlead (Nat.le_of_lt (hL1 l hlm1).2))
      (by intro z hz; rw [hv1]; exact hl.bound _ (hes z (hsub z hz))) (by rw [hv1]) hr
    have hkeep : ∀ y ∈ e.st.lv.L, y.index < x.id.index → y ∈ e'.st.lv.L := by
      intro y hy hi
      rw [d2, h5.L]
      exact List.mem_append_left _ (List.mem_filter.2 ⟨hy, by simpa using hi⟩)
    refine ⟨⟨?_, ?_, ?_⟩, by rw [d5, h5.com], ?_⟩
    · intro y hy hi
      exact hkeep y hy (Nat.lt_of_lt_of_le hi t2)
    · intro y hy hn
      refine ⟨x.id, Or.inr (List.mem_map.2 ⟨x, hsub x (by simp), rfl⟩), t3, t2, ?_⟩
      by_contra hlt
      exact hn (hkeep y hy (by omega))
    · intro y hy hn
      rw [d2] at hy
      rcases List.mem_append.1 hy with h1 | h1
      · rw [h5.L] at h1
        exact absurd (List.mem_filter.1 h1).1 hn
      · obtain ⟨z, hz, rfl⟩ := List.mem_map.1 h1
        exact List.mem_map.2 ⟨z, hsub z hz, rfl⟩
    · intro z hz
      rw [← List.take_append_drop k es] at hz
      rcases List.mem_append.1 hz with hz | hz
      · rcases s2 z hz with h1 | h1
        · left
          refine hkeep _ h1 ?_
          have := s4 z hz
          omega
        · exact Or.inr h1
      · left; rw [d2]
        rw [hdrop] at hz
        exact List.mem_append_right _ (List.mem_map.2 ⟨z, hz, rfl⟩)
  · next hdrop =>
    have hfull : ∀ z ∈ es, Known e.st.lv z.id := by
      intro z hz
      have : es.take k = es := by
        have := List.take_append_drop k es
        rw [hdrop, List.append_nil] at this; exact this
      rw [← this] at hz
      exact s2 z hz
    have hgo : ∀ e2 : Eng, e2.st = { e.st with io := io } → Shape e.st.lv.L e2.st.lv.L e.st.committed prev es ∧
        e2.st.committed = e.st.committed ∧ ∀ x ∈ es, x.id ∈ e2.st.lv.L ∨ some x.id ≤ e.st.committed := by
      intro e2 h2
      rw [h2]
      exact ⟨⟨fun x hx _ => hx, fun x hx hn => absurd hx hn, fun x hx hn => absurd hx hn⟩, rfl, hfull⟩
    split at hr
    · rw [pure_ok] at hr; subst hr; exact hgo _ rfl
    · rw [pure_ok] at hr; subst hr; exact hgo _ rfl

theorem fhEnsure_shape {g0 : Gh} {dbg : Bool} {e e' : Eng} {lead : List LogId} {prev : Option LogId}
    (es : List Ent) (h : EInv g0 e) (hl : LeadLog lead e.st.vote.data e.st.lv.L (e.floor e.st.vote.data))
    (hp : ∀ p, prev = some p → p ∈ lead) (hr : fhEnsure dbg e prev = .ok (false, e')) :
    Shape e.st.lv.L e'.st.lv.L e.st.committed prev es ∧ e'.st.committed = e.st.committed := by
  obtain ⟨f1, f2, f3⟩ := floor_parts (e := e) rfl
  unfold fhEnsure at hr
  split at hr
  · rw [pure_ok] at hr; cases hr
  · next p =>
    rw [bind_ok] at hr
    obtain ⟨b, hb, hr⟩ := hr
    cases b with
    | true => simp only [if_true] at hr; rw [pure_ok] at hr; cases hr
    | false =>
      simp only [Bool.false_eq_true, if_false, bind_ok] at hr
      obtain ⟨e1, he1, hr⟩ := hr
      rw [pure_ok] at hr; cases hr
      obtain ⟨h1, h2⟩ := not_has h.lm hb
      have h3 := floor_le hl (hp p rfl) h2
      obtain ⟨h4, h5⟩ := lm_fhTruncate h.lm h1 (fun y hy hi => by have := h3 y hy hi; omega) he1
      refine ⟨⟨?_, ?_, ?_⟩, h5.com⟩
      · intro x hx hi
        rw [h5.L]; exact List.mem_filter.2 ⟨hx, by simp; omega⟩
      · intro x hx hn
        refine ⟨p, Or.inl rfl, h2, h1, ?_⟩
        by_contra hlt
        exact hn (by rw [h5.L]; exact List.mem_filter.2 ⟨hx, by simp; omega⟩)
      · intro x hx hn
        rw [h5.L] at hx
        exact absurd (List.mem_filter.1 hx).1 hn

/-- the committed position, the log and the success answer of a request -/
theorem appendEntries_shape {g0 : Gh} {dbg : Bool} {now : Nat} {e e' : Eng} {v : Vote} {prev : Option LogId} {es : List Ent}
    {lc : Option LogId} {r : AppendResp} (h : EInv g0 e) (ho : e.st.vote.data ≤ v → AppendOk e v prev es lc)
    (hr : e.appendEntries dbg now v prev es = .ok (r, e')) :
    Shape e.st.lv.L e'.st.lv.L e.st.committed prev es ∧ e'.st.committed = e.st.committed ∧
      (r = .success → KnownO e'.st.lv prev ∧ ∀ x ∈ es, x.id ∈ e'.st.lv.L ∨ some x.id ≤ e.st.committed) := by
  unfold appendEntries at hr
  rw [bind_ok] at hr
  obtain ⟨⟨ok, e1⟩, he1, hr⟩ := hr
  simp only at hr
  cases ok with
  | false =>
    simp only [Bool.false_eq_true, if_false] at hr
    rw [pure_ok] at hr
    cases hr
    have hn : ¬ e.st.vote.data ≤ v := by
      unfold updateVote at he1
      intro hle
      rw [if_pos hle] at he1
      simp only [bind_ok, pure_ok] at he1
      obtain ⟨_, _, _, _, he1⟩ := he1
      cases he1
    have : e' = e := by
      unfold updateVote at he1
      rw [if_neg hn, pure_ok] at he1
      cases he1; rfl
    rw [this]
    exact ⟨⟨fun x hx _ => hx, fun x hx hn => absurd hx hn, fun x hx hn => absurd hx hn⟩, rfl, fun hx => by cases hx⟩
  | true =>
    have hle : e.st.vote.data ≤ v := by
      by_contra hn
      unfold updateVote at he1
      rw [if_neg hn, pure_ok] at he1
      cases he1
    obtain ⟨hnd, hcm, lead, hl, hp, hes, hc, hh, hlc⟩ := ho hle
    obtain ⟨hinv, _, _, hb⟩ := inv_updateVote h (fun hx => absurd hx hnd) he1
    have hbe := hb rfl hcm hnd
    simp only [if_true, bind_ok] at hr
    obtain ⟨lv, hlv, ⟨ok2, e2⟩, he2, hr⟩ := hr
    have hlv := followingHandler_ok hlv
    rw [toCommitted_eq hbe.fol.com] at hlv
    have hl' : LeadLog lead e1.st.vote.data e1.st.lv.L (e1.floor e1.st.vote.data) := by
      rw [hbe.vote, hbe.L, hbe.floor]; exact hl
    simp only at hr
    rw [← hbe.L, ← hbe.com]
    cases ok2 with
    | false =>
      simp only [Bool.false_eq_true, if_false] at hr
      rw [pure_ok] at hr
      cases hr
      obtain ⟨k1, k2⟩ := fhEnsure_shape es hinv hl' hp he2
      exact ⟨k1, k2, fun hx => by cases hx⟩
    | true =>
      simp only [if_true, bind_ok, pure_ok] at hr
      obtain ⟨e3, he3, hr⟩ := hr
      cases hr
      obtain ⟨h1, h2, h3⟩ := fhEnsure_true hinv.lm hl' (floor_parts rfl).1 hp he2
      subst h1
      rw [hlv] at he3
      obtain ⟨k1, k2, k3⟩ := fhAppendEntries_shape hinv hbe.fol hl' h2 hes hc hh he3
      refine ⟨k1, k2, fun _ => ⟨?_, k3⟩⟩
      intro p hpp
      rcases h3 p hpp with h4 | h4
      · left
        by_contra hn
        obtain ⟨r, hr1, hr2, _, hr3⟩ := k1.cut p h4 hn
        rcases hr1 with hr1 | hr1
        · rw [hpp] at hr1; cases hr1; exact hr2 h4
        · -- an id of the entries lies above `prev`
          obtain ⟨x, hx⟩ : ∃ x, es.head? = some x := by
            cases es with
            | nil => cases hr1
            | cons a t => exact ⟨a, rfl⟩
          have h5 := hh x hx
          have h6 := hc.head_le (a := x.id) (by rw [List.head?_map, hx]; rfl) hr1
          rw [hpp] at h5; simp at h5; omega
      · right; show some p ≤ e'.st.committed; rw [k2]; exact h4

theorem fhCommit_L {dbg : Bool} {e e' : Eng} {lc : Option LogId} (hr : fhCommit dbg e lc = .ok e') :
    e'.st.lv.L = e.st.lv.L := by
  unfold fhCommit at hr
  rw [bind_ok] at hr
  obtain ⟨⟨ch, st⟩, hst, hr⟩ := hr
  have hms : ∀ e2 : Eng, e2.maybeSnapshot.st.logIds = e2.st.logIds := by
    intro e2; unfold maybeSnapshot triggerSnapshot
    split
    · split <;> rfl
    · rfl
  have hst' : st.logIds = e.st.logIds := by
    unfold RState.updateCommitted at hst
    split at hst
    · simp only [bind_ok, pure_ok] at hst
      obtain ⟨_, _, hst⟩ := hst
      cases hst; rfl
    · rw [pure_ok] at hst; cases hst; rfl
  dsimp only at hr
  split at hr
  · simp only [bind_ok, pure_ok] at hr
    obtain ⟨_, _, hr⟩ := hr
    subst hr
    show expand _ = expand _
    rw [show (RState.lv _).logIds = _ from hms _]
    exact congrArg expand hst'
  · rw [pure_ok] at hr; subst hr; rfl

theorem updateSnapshot_of_ahead {g0 : Gh} {e : Eng} {m : SnapMeta} (h : LM g0 e) (hn : ¬ m.lastLogId ≤ e.st.committed) :
    e.updateSnapshot m = (true, { e with st := { e.st with snap := m } }) := by
  unfold updateSnapshot
  refine if_neg fun hle => hn (le_trans hle ?_)
  cases hs : e.st.snap.lastLogId with
  | none => exact OptOrd.none_le' _
  | some y =>
    have h1 := h.log.snapIn y hs
    have h2 : nextIndex e.st.snap.lastLogId ≤ nextIndex e.st.committed := h.log.ord3
    rw [hs] at h2
    cases hc : e.st.committed with
    | none => rw [hc] at h2; simp at h2
    | some c =>
      rw [hc] at h2; simp at h2
      exact (h.log.cons.le_iff h1 (h.log.comIn c hc)).2 h2

/-- what installing a snapshot does -/
theorem fhInstall_shape {g0 : Gh} {dbg : Bool} {e e' : Eng} {m : SnapMeta} {x : LogId} {cond : Option Cond} (h : EInv g0 e)
    (hf : Following e) (hx : m.lastLogId = some x) (hlt : e.st.committed < some x) (ho : SnapOk e e.st.vote.data m x)
    (hr : fhInstall dbg e e.st.vote.data m = .ok (cond, e')) :
    e'.st.committed = some x ∧ e'.st.snap = m ∧ e'.st.lastPurged = some x ∧
    e'.st.lv.L = (if x ∈ e.st.lv.L then e.st.lv.L.filter (fun y => decide (x.index ≤ y.index)) else [x]) ∧
    e'.st.ms.effective =
      if x ∈ e.st.lv.L ∧ nextIndex m.mem.logId < nextIndex e.st.ms.effective.logId then e.st.ms.effective else m.mem := by
  have hinv := inv_fhInstall h hf (fun z hz _ => by rw [hx] at hz; cases hz; exact ho) hr
  have hn : ¬ m.lastLogId ≤ e.st.committed := by rw [hx]; exact not_le.2 hlt
  unfold fhInstall at hr
  rw [if_neg hn] at hr
  simp only [bind_ok, unwrap_ok] at hr
  obtain ⟨x', hx', hr⟩ := hr
  rw [hx] at hx'; cases hx'
  rw [updateSnapshot_of_ahead h.lm hn] at hr
  simp only [bind_ok, pure_ok] at hr
  obtain ⟨e2, he2, st, hst, ms', hms', hr⟩ := hr
  obtain ⟨a, ha1, ha2, ha3⟩ := h.pj.acc
  have hal0 : e.st.accLast = a.last := by unfold RState.accLast; rw [ha1]; rfl
  obtain ⟨e3, q1, q2, q3, q4, q5, q6, q7, q8, q9, q10, q11⟩ := fhInstallTruncate_spec h hlt ho ha3 hal0 he2
  subst q1
  have hacc1 : ({ e3.st with snap := m } : RState).io.prog.accepted = some a := by
    show e3.st.io.prog.accepted = _; rw [q6]; exact ha1
  obtain ⟨⟨io, hio⟩, hacc, a', ha', hav'⟩ := acceptIo_same (s := { e3.st with snap := m }) hacc1 ha2 hf.com hst
  subst hio
  have he' : e' = logPurge (updateServerState { e3 with
      st := { e3.st with snap := m, io := io, committed := some x, ms := ms', purgeUpto := some x }
      out := e3.out ++ [.sm (.install m (IOId.newLog e.st.vote.data (some x)))] }) := by cases hr; rfl
  have hp : ¬ (some x ≤ e3.st.lastPurged) := by
    intro hle
    cases hq : e3.st.lastPurged with
    | none => rw [hq] at hle; exact OptOrd.not_some_le_none' hle
    | some p =>
      rw [hq] at hle
      have hpin := q2.log.purged_mem (p := p) hq
      have hpi : p.index < nextIndex e3.st.committed := by
        have h1 := purged_le_com q2
        have h2 : e3.st.purgedNext = nextIndex e3.st.lastPurged := q2.log.pn
        rw [hq] at h2; simp at h2; omega
      cases hc : e3.st.committed with
      | none => rw [hc] at hpi; simp at hpi
      | some c =>
        have hcin := q2.log.comIn c hc
        rw [hc] at hpi
        rw [← q5, hc] at hlt
        simp at hpi
        have h3 := (q2.log.cons.le_iff hpin hcin).2 (by omega)
        exact absurd (lt_of_lt_of_le hlt hle) (not_lt.2 (show some p ≤ some c from h3))
  have he2' : e' = { e3 with
      st := { e3.st with snap := m, io := io, committed := some x, ms := ms', purgeUpto := some x,
                         purgedNext := x.index + 1, logIds := LogIdList.purge e3.st.logIds x
                         server := RState.calcServerState { e3.st with snap := m, io := io, committed := some x, ms := ms', purgeUpto := some x } e3.cfg.id }
      out := e3.out ++ [.sm (.install m (IOId.newLog e.st.vote.data (some x)))] ++ [.purge x] } := by
    rw [he']
    unfold logPurge
    exact (if_neg hp).trans rfl
  have hL : e'.st.lv.L = expand (LogIdList.purge e3.st.logIds x) := by rw [he2']; rfl
  have hmem : e'.st.ms = ms' := by rw [he2']
  have hspec : ms'.effective = if nextIndex e3.st.ms.effective.logId ≤ nextIndex m.mem.logId then m.mem else e3.st.ms.effective :=
    congrArg MemState.effective (MemJ.updateCommitted_spec hms')
  have hLe : e'.st.lv.L = (if x ∈ e.st.lv.L then e.st.lv.L.filter (fun y => decide (x.index ≤ y.index)) else [x]) := by
    rw [hL, show expand (LogIdList.purge e3.st.logIds x) = _ from (expand_purge q2.log.sorted x).1]
    rcases q10 with ⟨h1, rfl, h2⟩ | ⟨h1, h2, _⟩
    · rw [if_pos h1, if_neg]
      · rfl
      · have := h.lm.log.le_last h1
        show ¬ x.index ≥ nextIndex e3.st.lv.last
        omega
    · rw [if_neg h1, if_pos]
      exact h2
  refine ⟨by rw [he2'], by rw [he2'], ?_, hLe, ?_⟩
  · have h1 : e'.st.purgedNext = x.index + 1 := by rw [he2']
    have h2 : e'.st.lv.purgedNext = nextIndex e'.st.lv.lastPurged := hinv.lm.log.pn
    have h3 : e'.st.lv.lastPurged = e'.st.lastPurged := rfl
    have h4 : e'.st.lv.purgedNext = x.index + 1 := h1
    cases hq : e'.st.lastPurged with
    | none => rw [h4, h3, hq] at h2; simp at h2
    | some p =>
      rw [h4, h3, hq] at h2; simp at h2
      have h5 := hinv.lm.log.purged_mem (p := p) hq
      have h6 := hinv.lm.log.comIn x (show e'.st.lv.committed = some x by rw [he2']; rfl)
      rw [hinv.lm.log.cons.inj h5 h6 h2.symm]
  · rw [hmem, hspec]
    rcases q10 with ⟨h1, rfl, h2⟩ | ⟨h1, h2, h3, h4, h5, h6⟩
    · by_cases hl : nextIndex m.mem.logId < nextIndex e3.st.ms.effective.logId
      · rw [if_pos (show x ∈ e3.st.lv.L ∧ _ from ⟨h1, hl⟩), if_neg (by omega)]
      · rw [if_neg (fun hh : x ∈ e3.st.lv.L ∧ _ => hl hh.2), if_pos (by omega)]
    · rw [if_neg (fun hh : x ∈ e.st.lv.L ∧ _ => h1 hh.1), if_pos h5]

end Eng
end Openraft.Engine
