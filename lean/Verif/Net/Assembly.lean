import Verif.Net.Node4
import Verif.Cluster.Reach

/-!
# Events of a node, and nodes that never ran
-/

set_option autoImplicit false
set_option linter.unusedSectionVars false

namespace Openraft.Net
open Openraft.Repl (Panic dassert Inflight)
open Openraft.Engine Openraft.Cluster
open Openraft.Runtime (Fl RInv Covered Note SmOk LeI DiskOp opOf vote_runs_same out_bind out_pure lift_ok exec_frame submit_ok note_of_op)
open Openraft.VecProgress (AllP BI)

variable {m0 : Membership} [hne : Fact (m0.configs ≠ [])] {g g' : Ghost} {dv dv' : NodeId → Vote} {q : NodeId} {g0 : Gh} {p : Nat} {dbg : Bool} {now : Nat}
variable {a0 : IOId} {s0 c0 : Option LogId} {P S : List Cmd} {n n' n1 : Runtime.Node}

namespace NI

theorem voteIn (h : NI g dv q g0 a0 s0 c0 P S n) {v : Vote} (hv : VoteSent g dv v) : VoteIn g dv q n.eng v := by
  refine ⟨fun hq => ?_, hv.el, fun _ => hv.pv⟩
  have h1 := hv.pv
  rw [hq, h.en.id, h.dvq, h.vote_disk] at h1
  exact le_trans h1 h.vote_le

/-- what was sent is an input that the engine's agreement allows -/
theorem netIn (hg : GInv m0 g) (h : NI g dv q g0 a0 s0 c0 P S n) {pkts : List Pkt} (hp : ∀ k ∈ pkts, PI g dv k) {i : Input} {e : Eng}
    (hs : Input.Sent m0 pkts q n i) (hex : ExactQ n.eng e) (hext : Runtime.external i = true) : NetIn m0 g dv q g0 n.eng e i := by
  cases i with
  | appendReq tx v prev es lc =>
    have := hp _ hs.1
    exact ⟨this.1, hs.2, this.2⟩
  | voteReq tx v last =>
    have := hp _ hs.1
    exact ⟨this.1, hs.2, this.2⟩
  | snapReq tx v m =>
    have := hp _ hs.1
    exact ⟨this.1, hs.2.1, this.2, hs.2.2⟩
  | init tx m => exact hs
  | write x => exact hs
  | change c r => exact hs
  | handleTransfer v t => exact fun h1 h2 => hs h1 (by rw [← h2]; exact h.en.id.symm)
  | electCmd => exact hs
  | voteResp t v last gr s =>
    have := hp _ hs
    exact ⟨h.voteIn this.1, fun _ _ hgr _ => this.2 hgr, fun hc => h.candElog hg hc⟩
  | higherVote w s =>
    obtain ⟨t, ⟨v, u, hs⟩ | hs⟩ := hs
    · exact h.voteIn (hp _ hs)
    · exact h.voteIn (hp _ hs)
  | localIO io => cases hext
  | replProgress s t r =>
    refine ⟨fun hm _ m hr => ?_, hex⟩
    have hv : s.vote = n.eng.st.vote.data := by
      simp only [Eng.sessionMatch, Eng.voteMatch, Bool.and_eq_true] at hm
      have hv := hm.1
      split at hv
      · cases hl : n.eng.leader with
        | none => rw [hl] at hv; simp at hv
        | some l =>
          rw [hl] at hv
          simp only [Option.map_some, beq_iff_eq, Option.some.injEq] at hv
          rw [← hv]; exact (h.r.flow.inv.pj.lead l hl).vote
      · cases hc : n.eng.candidate with
        | none => rw [hc] at hv; simp at hv
        | some c =>
          rw [hc] at hv
          simp only [Option.map_some, beq_iff_eq, Option.some.injEq] at hv
          rw [← hv]; exact (h.r.flow.inv.pj.cand c hc).vote
    rw [← hv]
    rcases hs m hr with h1 | ⟨sm, w, h1, h2, -, -⟩
    · exact hp _ h1
    · obtain ⟨hpk, _⟩ := hp _ h1
      obtain ⟨x, hx, hval, hcv, _⟩ := hpk.ok
      rw [← h2, hx]
      intro y hy
      cases hy
      have h3 := idAt_pre (hcv.ll hg (le_refl _) hpk.el) (cont_last hval)
      refine ⟨h3, Or.inr ?_⟩
      rw [(take_of_idAt (hg.goodL _) h3).2, show (⟨s.vote.leaderId, true⟩ : Vote) = s.vote from by rw [← hpk.com]]
      exact hcv
  | built m => cases hext
  | _ => trivial

/-- an event of a node -/
theorem step (hm0 : m0.configs ≠ []) (hg : GInv m0 g) (h : NI g dv q g0 a0 s0 c0 P S n) (hnp : NP g n) {pkts : List Pkt} (hp : ∀ k ∈ pkts, PI g dv k)
    {ev : Runtime.Ev} (ha : Allowed m0 pkts q n ev) (hr : n.step dbg ev = .ok n') (hex : Exact n n') :
    ∃ g' dv' P' S', GInv m0 g' ∧ GStep q n'.eng g g' ∧ (∀ i, dv i ≤ dv' i) ∧ (∀ i, i ≠ q → dv' i = dv i) ∧
      NI g' dv' q g0 a0 s0 c0 P' S' n' ∧ ∀ k ∈ emit q n ev, PI g' dv' k := by
  have keep : (∃ g', GInv m0 g' ∧ GStep q n'.eng g g' ∧ ∃ P' S', NI g' dv q g0 a0 s0 c0 P' S' n') → emit q n ev = [] →
      ∃ g' dv' P' S', GInv m0 g' ∧ GStep q n'.eng g g' ∧ (∀ i, dv i ≤ dv' i) ∧ (∀ i, i ≠ q → dv' i = dv i) ∧
        NI g' dv' q g0 a0 s0 c0 P' S' n' ∧ ∀ k ∈ emit q n ev, PI g' dv' k := by
    rintro ⟨g', h1, h2, P', S', h3⟩ he
    exact ⟨g', dv, P', S', h1, h2, fun _ => le_refl _, fun _ _ => rfl, h3, by rw [he]; simp⟩
  have same : n = n' → ∃ g', GInv m0 g' ∧ GStep q n'.eng g g' ∧ ∃ P' S', NI g' dv q g0 a0 s0 c0 P' S' n' := by
    rintro rfl; exact ⟨g, hg, .refl q _ g, P, S, h⟩
  cases ev with
  | msg now i =>
    refine keep ?_ rfl
    simp only [Runtime.Node.step] at hr
    split at hr
    · next hi =>
      simp only [out_bind, lift_ok, out_pure] at hr
      obtain ⟨e, he, hr⟩ := hr
      subst hr
      simp only [Bool.and_eq_true] at hi
      have hext := hi.2
      obtain ⟨g', h1, h2, h3⟩ := h.input hm0 hg (h.netIn hg hp ha hex hext) (by cases i <;> first | rfl | cases hext) he
      exact ⟨g', h1, h2, P, S, h3⟩
    · exact same (out_pure.1 hr)
  | write now tx p =>
    refine keep ?_ rfl
    simp only [Runtime.Node.step] at hr
    split at hr
    · simp only [out_bind, lift_ok, out_pure] at hr
      obtain ⟨⟨i, e⟩, he, hr⟩ := hr
      subst hr
      have hin : n.eng.input dbg now (.write p) = .ok e := by
        simp only [Eng.input, Engine.bind_ok, Engine.pure_ok]
        exact ⟨_, he, rfl⟩
      obtain ⟨g', h1, h2, h3⟩ := h.input hm0 hg (i := .write p) ha rfl hin
      exact ⟨g', h1, h2.of (by cases i <;> rfl) (by cases i <;> rfl), P, S, h3.register tx i⟩
    · exact same (out_pure.1 hr)
  | change now tx c r =>
    refine keep ?_ rfl
    simp only [Runtime.Node.step] at hr
    split at hr
    · simp only [out_bind, lift_ok, out_pure] at hr
      obtain ⟨⟨i, e⟩, he, hr⟩ := hr
      subst hr
      have hin : n.eng.input dbg now (.change c r) = .ok e := by
        simp only [Eng.input, Engine.bind_ok, Engine.pure_ok]
        exact ⟨_, he, rfl⟩
      obtain ⟨g', h1, h2, h3⟩ := h.input hm0 hg (i := .change c r) ha rfl hin
      exact ⟨g', h1, h2.of (by cases i <;> rfl) (by cases i <;> rfl), P, S, h3.register tx i⟩
    · exact same (out_pure.1 hr)
  | note now =>
    refine keep ?_ rfl
    simp only [Runtime.Node.step] at hr
    split at hr
    · cases hx : n.rx with
      | nil => rw [hx] at hr; exact same (out_pure.1 hr)
      | cons x xs =>
        rw [hx] at hr
        obtain ⟨g', h1, h2, h3⟩ := h.note hm0 hg hx hex hr
        exact ⟨g', h1, h2, P, S, h3⟩
    · exact same (out_pure.1 hr)
  | run =>
    obtain ⟨g', dv', P', S', h1, h2, h3⟩ := h.run1 hm0 hg hnp hr
    exact ⟨g', dv', P', S', h1, h2.to _, h3⟩
  | flush =>
    refine keep ?_ rfl
    simp only [Runtime.Node.step, out_pure] at hr
    subst hr
    obtain ⟨P', S', h1⟩ := h.flush hg
    exact ⟨g, hg, .refl q _ g, P', S', h1⟩
  | sm => exact keep ⟨g, hg, .refl q _ g, P, S, h.smStep hg hnp hr⟩ rfl
  | build k =>
    refine keep ?_ rfl
    simp only [Runtime.Node.step, out_pure] at hr
    subst hr
    exact ⟨g, hg, .refl q _ g, P, S, h.buildDone k⟩

/-- a node that never ran -/
theorem fresh {keep : Bool} {cfg : Cfg} {persist : Bool} (hid : cfg.id = q) (hdv : dv q = ⟨⟨0, 0⟩, false⟩) (hall : ∀ i, dv i = ⟨⟨0, 0⟩, false⟩) :
    NI (Ghost.init m0 keep) dv q Gh.empty (IOId.new ⟨⟨0, 0⟩, false⟩) none none [] [] (Runtime.Node.fresh cfg now persist) := by
  have hlog : logOf (Ghost.init m0 keep) Gh.empty = [] := rfl
  refine ⟨RInv.fresh cfg now persist, Sy.free rfl rfl, ⟨⟨Nat.le_refl _, ?_, trivial⟩, ⟨?_, ?_, ?_, ?_⟩, hid⟩, Or.inl rfl, ?_, ?_, hdv⟩
  · show VS _ _ _ Gh.empty
    refine ⟨⟨fun x hx => (by cases hx), fun i e he => (by simp [Gh.empty] at he)⟩, ?_, ?_, fun hc => (by cases hc), fun c hc => (by cases hc), fun c hc => (by cases hc), Or.inl rfl,
      fun L hL => absurd rfl hL, fun a ha => (by cases ha), fun gr hgr => (by cases hgr), fun _ => (by rw [hall]; exact le_refl _), fun _ => rfl, Nat.le_refl _⟩
    · rw [hlog]; intro i e he; simp at he
    · rw [hlog]; intro e he; cases he
  · intro x hx; cases hx
  · intro x hx; cases hx
  · intro hx; cases hx
  · intro _ y hy; cases hy
  · intro _ _ hx; exact absurd rfl hx
  · exact ⟨fun f hf => (by cases hf), fun v hv => (by cases hv), fun e he => (by cases he), fun f l hm => (by cases hm), fun c hc => (by cases hc)⟩

end NI

end Openraft.Net
