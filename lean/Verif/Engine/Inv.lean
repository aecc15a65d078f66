import Verif.Engine.Frame

/-!
# The engine's invariant
-/

set_option autoImplicit false

namespace Openraft.Engine
open Openraft.Repl (Panic dassert Inflight)
open Openraft.Cluster (Payload)
open LogIdList

/-- an id of this node's log, or one that is not above the committed position -/
def Known (v : LogV) (x : LogId) : Prop := x ∈ v.L ∨ some x ≤ v.committed

/-- `Known` for an optional id -/
def KnownO (v : LogV) (o : Option LogId) : Prop := ∀ x, o = some x → Known v x

theorem KnownO.none {v : LogV} : KnownO v none := fun _ h => by cases h

theorem KnownO.max {v : LogV} {a b : Option LogId} (ha : KnownO v a) (hb : KnownO v b) : KnownO v (max a b) := by
  rw [omax_eq]; split <;> assumption

/-- log and membership agree with the commands given -/
structure LM (g0 : Gh) (e : Eng) : Prop where
  oks : g0.Oks e.out
  log : LogJ e.st.lv (g0.runs e.out)
  mem : MemJ e.st.ms e.st.lv (g0.runs e.out)

/-- a leader's data -/
structure LeadOk (e : Eng) (l : Leader) : Prop where
  vote : l.vote = e.st.vote.data
  com : e.st.vote.data.committed = true
  node : e.st.vote.data.leaderId.node = e.cfg.id
  last : l.lastLogId = e.st.lastLogId
  vp : l.progress.vp.All (KnownO e.st.lv)
  srv : e.st.server = .leader

/-- a candidate's data -/
structure CandOk (e : Eng) (c : Candidate) : Prop where
  vote : c.vote = e.st.vote.data
  com : e.st.vote.data.committed = false
  node : e.st.vote.data.leaderId.node = e.cfg.id
  last : c.lastLogId = e.st.lastLogId
  nl : e.leader = none

/-- vote, accepted IO and role -/
structure PJ (g : Gh) (e : Eng) : Prop where
  gv : g.vote = e.st.vote.data
  acc : ∃ a, e.st.io.prog.accepted = some a ∧ a.vote = e.st.vote.data ∧ KnownO e.st.lv a.last
  lead : ∀ l, e.leader = some l → LeadOk e l
  cand : ∀ c, e.candidate = some c → CandOk e c
  nolead : e.leader = none → e.st.isLeader e.cfg.id = false

/-- the invariant -/
structure EInv (g0 : Gh) (e : Eng) : Prop where
  lm : LM g0 e
  pj : PJ (g0.runs e.out) e

theorem Frame.ghost {e e' : Eng} (f : Frame e e') (g0 : Gh) : g0.runs e'.out = g0.runs e.out := by
  obtain ⟨cs, ho, hi⟩ := f.out
  rw [ho, Gh.runs_append]; exact (Gh.runs_inert hi).1

theorem Frame.lm {e e' : Eng} (f : Frame e e') {g0 : Gh} (h : LM g0 e) : LM g0 e' := by
  obtain ⟨cs, ho, hi⟩ := f.out
  refine ⟨?_, ?_, ?_⟩
  · rw [ho, Gh.oks_append]; exact ⟨h.oks, (Gh.runs_inert hi).2⟩
  · rw [f.ghost, f.lv]; exact h.log
  · rw [f.ghost, f.lv, f.ms]; exact h.mem

theorem Frame.vote {e e' : Eng} (f : Frame e e') : e'.st.vote.data = e.st.vote.data := congrArg LogV.vote f.lv
theorem Frame.last {e e' : Eng} (f : Frame e e') : e'.st.lastLogId = e.st.lastLogId := congrArg LogV.last f.lv

theorem isLeader_congr {s s' : RState} (h1 : s'.ms.effective = s.ms.effective) (h2 : s'.vote.data = s.vote.data) (id : NodeId) :
    s'.isLeader id = s.isLeader id ∧ s'.isLeading id = s.isLeading id := by
  simp [RState.isLeader, RState.isLeading, h1, h2]

theorem Frame.leadOk {e e' : Eng} (f : Frame e e') {l l' : Leader} (hl : e.leader = some l)
    (hs : l'.vote = l.vote ∧ l'.lastLogId = l.lastLogId ∧ l'.progress.vp = l.progress.vp) (h : LeadOk e l) :
    LeadOk e' l' :=
  ⟨by rw [hs.1, f.vote]; exact h.vote, by rw [f.vote]; exact h.com, by rw [f.vote, f.cfg]; exact h.node,
    by rw [hs.2.1, f.last]; exact h.last, by rw [hs.2.2, f.lv]; exact h.vp,
    by rw [f.srv (by rw [hl]; rfl)]; exact h.srv⟩

theorem Frame.pj {e e' : Eng} (f : Frame e e') {g : Gh} (h : PJ g e) : PJ g e' := by
  refine ⟨by rw [f.vote]; exact h.gv, ?_, ?_, ?_, ?_⟩
  · rw [f.acc, f.vote, f.lv]; exact h.acc
  · intro l' hl'
    have hs := f.lead
    rw [hl'] at hs
    cases hl : e.leader with
    | none => rw [hl] at hs; exact hs.elim
    | some l => rw [hl] at hs; exact f.leadOk hl ⟨hs.1, hs.2.1, hs.2.2.1⟩ (h.lead l hl)
  · intro c hc
    rw [f.cand] at hc
    have hk := h.cand c hc
    refine ⟨by rw [f.vote]; exact hk.vote, by rw [f.vote]; exact hk.com, by rw [f.vote, f.cfg]; exact hk.node,
      by rw [f.last]; exact hk.last, ?_⟩
    have hs := f.lead
    rw [hk.nl] at hs
    cases hl : e'.leader with
    | none => rfl
    | some l => rw [hl] at hs; exact hs.elim
  · intro hn
    have hs := f.lead
    rw [hn] at hs
    have : e.leader = none := by
      cases hl : e.leader with
      | none => rfl
      | some l => rw [hl] at hs; exact hs.elim
    rw [(isLeader_congr (by rw [f.ms]) f.vote _).1, f.cfg]; exact h.nolead this

theorem Frame.inv {e e' : Eng} (f : Frame e e') {g0 : Gh} (h : EInv g0 e) : EInv g0 e' :=
  ⟨f.lm h.lm, by rw [f.ghost]; exact f.pj h.pj⟩

theorem LM.push {g0 : Gh} {e e' : Eng} {c : Cmd} (h : LM g0 e) (ho : e'.out = e.out ++ [c])
    (h1 : LogJ e'.st.lv ((g0.runs e.out).run c)) (h2 : MemJ e'.st.ms e'.st.lv ((g0.runs e.out).run c))
    (h3 : (g0.runs e.out).Ok c) : LM g0 e' := by
  refine ⟨?_, ?_, ?_⟩
  · rw [ho, Gh.oks_snoc]; exact ⟨h.oks, h3⟩
  · rw [ho, Gh.runs_snoc]; exact h1
  · rw [ho, Gh.runs_snoc]; exact h2

/-- a state change without a command -/
theorem LM.state {g0 : Gh} {e e' : Eng} (h : LM g0 e) (ho : e'.out = e.out)
    (h1 : LogJ e'.st.lv (g0.runs e.out)) (h2 : MemJ e'.st.ms e'.st.lv (g0.runs e.out)) : LM g0 e' :=
  ⟨by rw [ho]; exact h.oks, by rw [ho]; exact h1, by rw [ho]; exact h2⟩

/-- what `Known` and the positions keep when the log only loses committed entries and gains others -/
theorem PJ.weaken {g g' : Gh} {e e' : Eng} (h : PJ g e) (hg : g'.vote = g.vote) (hc : e'.cfg = e.cfg)
    (hv : e'.st.vote.data = e.st.vote.data) (ha : e'.st.io.prog.accepted = e.st.io.prog.accepted)
    (hm : e'.st.ms.effective = e.st.ms.effective) (hl : e'.leader = e.leader) (hcd : e'.candidate = e.candidate)
    (hs : e'.st.server = e.st.server) (hlast : e'.st.lastLogId = e.st.lastLogId)
    (hk : ∀ x, Known e.st.lv x → Known e'.st.lv x) : PJ g' e' := by
  refine ⟨by rw [hg, hv]; exact h.gv, ?_, ?_, ?_, ?_⟩
  · obtain ⟨a, h1, h2, h3⟩ := h.acc
    exact ⟨a, by rw [ha]; exact h1, by rw [hv]; exact h2, fun x hx => hk x (h3 x hx)⟩
  · intro l hl'
    rw [hl] at hl'
    have := h.lead l hl'
    exact ⟨by rw [hv]; exact this.vote, by rw [hv]; exact this.com, by rw [hv, hc]; exact this.node,
      by rw [hlast]; exact this.last,
      ⟨fun p hp x hx => hk x (this.vp.1 p hp x hx), fun x hx => hk x (this.vp.2 x hx)⟩, by rw [hs]; exact this.srv⟩
  · intro c hc'
    rw [hcd] at hc'
    have := h.cand c hc'
    exact ⟨by rw [hv]; exact this.vote, by rw [hv]; exact this.com, by rw [hv, hc]; exact this.node,
      by rw [hlast]; exact this.last, by rw [hl]; exact this.nl⟩
  · intro hn; rw [hl] at hn; rw [(isLeader_congr hm hv _).1, hc]; exact h.nolead hn

namespace Eng

/-! ## Purging -/

theorem mem_expand_lt {ks : LogIdList} (hs : SortedIdx ks) {x : LogId} (hx : x ∈ expand ks) :
    x.index < nextIndex ks.getLast? :=
  (mem_seg hs (fun k hk => Nat.le_of_lt (le_nextIndex_last hs k hk)) hx).1

theorem purged_last {ks : LogIdList} {u : LogId} (hs : SortedIdx ks) (hin : u ∈ expand ks) :
    (LogIdList.purge ks u).getLast? = ks.getLast? := by
  rw [← Props.expand_getLast? (ks := LogIdList.purge ks u), ← Props.expand_getLast? (ks := ks), (expand_purge hs u).1, if_neg]
  · cases hl : (expand ks).getLast? with
    | none => rw [List.getLast?_eq_none_iff] at hl; rw [hl] at hin; cases hin
    | some l =>
      have hle : u.index ≤ l.index := by
        have := mem_expand_lt hs hin
        rw [← Props.expand_getLast?, hl] at this
        simp at this; omega
      obtain ⟨pre, hpre⟩ : ∃ pre, expand ks = pre ++ [l] := by
        rcases List.eq_nil_or_concat (expand ks) with h | ⟨pre, b, h⟩
        · rw [h] at hl; simp at hl
        · rw [List.concat_eq_append] at h
          rw [h] at hl; simp at hl; subst hl; exact ⟨pre, h⟩
      rw [hpre, List.filter_append]
      have : ([l].filter fun x => decide (u.index ≤ x.index)) = [l] := by simp [hle]
      rw [this, List.getLast?_concat]
  · have := mem_expand_lt hs hin; omega

theorem inv_logPurge {g0 : Gh} {e : Eng} (h : EInv g0 e) : EInv g0 e.logPurge := by
  unfold logPurge
  split
  · exact h
  · next hn =>
    split
    · exact h
    · next u hu =>
      have hin := h.lm.log.uptoIn u hu
      have hlt : e.st.lv.purgedNext ≤ u.index := by
        rw [h.lm.log.pn]
        cases hp : e.st.lv.lastPurged with
        | none => exact Nat.zero_le _
        | some p =>
          have h1 : ¬ (some u ≤ some p) := by
            intro hle; apply hn; rw [hu]; show some u ≤ e.st.lv.lastPurged; rw [hp]; exact hle
          rw [OptOrd.some_le_some', h.lm.log.cons.le_iff hin (h.lm.log.purged_mem hp)] at h1
          simp; omega
      have hj := h.lm.log.purge hu hlt
      have hpur : LogV.lastPurged { e.st.lv with purgedNext := u.index + 1, logIds := LogIdList.purge e.st.lv.logIds u } = some u := by
        have := hj.1.stp; rw [← this]; rfl
      have hcm : u.index < nextIndex e.st.lv.committed := by
        have h1 := h.lm.log.ord2; have h2 := h.lm.log.ord3
        have : nextIndex e.st.lv.upto = u.index + 1 := by rw [show e.st.lv.upto = some u from hu]; rfl
        omega
      have hm := h.lm.mem.purge h.lm.log hin hcm hpur
      refine ⟨h.lm.push (c := .purge u) rfl hj.1 hm hj.2, ?_⟩
      refine h.pj.weaken ?_ rfl rfl rfl rfl rfl rfl rfl ?_ ?_
      · show (g0.runs (e.out ++ [Cmd.purge u])).vote = _
        rw [Gh.runs_snoc]; rfl
      · exact purged_last h.lm.log.sorted hin
      · intro x hx
        rcases hx with hx | hx
        · by_cases hle : u.index ≤ x.index
          · left
            show x ∈ expand (LogIdList.purge e.st.lv.logIds u)
            rw [(expand_purge h.lm.log.sorted u).1, if_neg]
            · exact List.mem_filter.2 ⟨hx, by simpa using hle⟩
            · have := h.lm.log.le_last hin
              show ¬ u.index ≥ nextIndex e.st.lv.last
              omega
          · right
            show some x ≤ e.st.committed
            cases hc : e.st.committed with
            | none =>
              have : nextIndex e.st.lv.committed = 0 := by rw [show e.st.lv.committed = none from hc]; rfl
              omega
            | some c =>
              have hcin := h.lm.log.comIn c hc
              have : nextIndex e.st.lv.committed = c.index + 1 := by rw [show e.st.lv.committed = some c from hc]; rfl
              exact (h.lm.log.cons.le_iff hx hcin).2 (by omega)
        · exact Or.inr hx

end Eng
end Openraft.Engine
