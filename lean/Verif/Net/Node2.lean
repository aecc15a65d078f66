import Verif.Net.Node1

/-!
# A node agrees with the history: inputs and notifications
-/

set_option autoImplicit false
set_option linter.unusedSectionVars false

namespace Openraft.Net
open Openraft.Repl (Panic dassert Inflight)
open Openraft.Engine Openraft.Cluster
open Openraft.Runtime (Fl RInv Covered Note SmOk LeI vote_runs_same out_bind out_pure lift_ok)
open Openraft.VecProgress (AllP BI)

variable {m0 : Membership} [hne : Fact (m0.configs ≠ [])] {g g' : Ghost} {dv dv' : NodeId → Vote} {q : NodeId} {g0 : Gh} {p : Nat} {dbg : Bool} {now : Nat}
variable {a0 : IOId} {s0 c0 : Option LogId} {P S : List Cmd} {n n' : Runtime.Node}

/-- no vote is saved while the vote stays -/
theorem no_save {G : Gh} {cs : List Cmd} (ho : G.Oks cs) (hv : (G.runs cs).vote = G.vote) : ∀ c ∈ cs, ∀ v, c ≠ .saveVote v := by
  rintro c hc v rfl
  obtain ⟨A, B, rfl⟩ := List.append_of_mem hc
  have ho' := (Gh.oks_append _ _ _).1 ho
  have h1 := Gh.vote_runs ho'.1
  have h2 : (G.runs A).vote < v := ho'.2.1
  have h3 : v ≤ (((G.runs A).run (.saveVote v)).runs B).vote := Gh.vote_runs ho'.2.2
  rw [Gh.runs_append] at hv
  have h4 : (((G.runs A).run (.saveVote v)).runs B).vote = G.vote := hv
  rw [h4] at h3
  exact absurd (lt_of_le_of_lt h1 h2) (not_lt.2 h3)

namespace NI

/-! ## Additions to the history -/

theorem addAck (hg : GInv m0 g) (h : NI g dv q g0 a0 s0 c0 P S n) {L : LeaderId} {m : Nat} (hL : L = (g0.runs P).vote.leaderId)
    (hel : ∃ S, g.el L = some S) (hm : m ≤ (g.ll L).length) (ha : AckOk g ⟨q, L, m⟩ (g0.runs P).vote (logOf g (g0.runs P))) :
    GInv m0 (g.addAck ⟨q, L, m⟩) ∧ GSame q g (g.addAck ⟨q, L, m⟩) ∧ NI (g.addAck ⟨q, L, m⟩) dv q g0 a0 s0 c0 P S n := by
  have hst := step_addAck (g := g) q ⟨q, L, m⟩ rfl
  refine ⟨ginv_addAck hg _ hel hm ?_, ⟨hst, rfl⟩, h.r, h.sy, ?_, h.vl, h.cand.mono hst.toGhostLe (h.vsD hg).st,
    h.x.mono hst.toGhostLe (fun _ => le_refl _) h.vsP.st (h.vsD hg).st, h.dvq⟩
  · intro gr hgr hq
    have := lid_of_le (h.vsP.grants gr hgr hq)
    rw [← hL] at this; exact this
  · refine h.en.self hg hst.toGhostLe rfl rfl (fun _ => le_refl _) h.r.flow.inv ?_
    rw [h.takeP]
    exact h.vsP.addAck _ fun _ => ha

theorem addGrant (hg : GInv m0 g) (h : NI g dv q g0 a0 s0 c0 P S n) {v : Vote} (hv : v = (g0.runs (P ++ S)).vote) (hu : v.committed = false)
    {l : Log} (hcl : g.cl v.leaderId = some l) (hle : lastId (logOf g (g0.runs (P ++ S))) ≤ lastId l) :
    GInv m0 (g.addGrant ⟨q, v.leaderId, logOf g (g0.runs (P ++ S))⟩) ∧ GSame q g (g.addGrant ⟨q, v.leaderId, logOf g (g0.runs (P ++ S))⟩) ∧
      NI (g.addGrant ⟨q, v.leaderId, logOf g (g0.runs (P ++ S))⟩) dv q g0 a0 s0 c0 P S n := by
  have hst := step_addGrant (g := g) q ⟨q, v.leaderId, logOf g (g0.runs (P ++ S))⟩ rfl
  have hvs := h.vsD hg
  refine ⟨ginv_addGrant hg _ ⟨l, hcl, hle⟩ hvs.good ?_, ⟨hst, rfl⟩, h.r, h.sy, ?_, h.vl, h.cand.mono hst.toGhostLe hvs.st,
    h.x.mono hst.toGhostLe (fun _ => le_refl _) h.vsP.st (h.vsD hg).st, h.dvq⟩
  · intro a ha hq hlt m hm hyp
    refine (hvs.acks a ha hq.symm).2 m hm fun L'' S'' l'' h1 h2 h3 h4 => hyp L'' S'' l'' h1 h2 h3 ?_
    rw [← hv] at h4
    rcases Vote.le_def.1 h4 with h5 | ⟨_, h5⟩
    · exact h5
    · have := h5 rfl; rw [hu] at this; cases this
  · refine h.en.self hg hst.toGhostLe rfl rfl (fun _ => le_refl _) h.r.flow.inv ?_
    rw [h.takeP]
    refine h.vsP.addGrant _ fun _ => ?_
    rw [← h.vote_PS, ← hv]
    cases v; simp only at hu; subst hu; exact le_refl _

/-! ## The engine handles something -/

theorem engine (hg : GInv m0 g) (h : NI g dv q g0 a0 s0 c0 P S n) {n' : Runtime.Node} (hle : GhostLe g g') (hr : RInv g0 a0 s0 c0 P S n')
    (hsy : Sy n'.eng) (he : EN g' dv q g0 P.length n'.eng) (hx : NX g dv q g0 P S n') (hd : n'.disk = n.disk) :
    NI g' dv q g0 a0 s0 c0 P S n' :=
  ⟨hr, hsy, he, h.vl, h.cand.mono hle (h.vsD hg).st, hx.mono hle (fun _ => le_refl _) h.vsP.st (h.vsD hg).st, by rw [hd]; exact h.dvq⟩

theorem input (hm0 : m0.configs ≠ []) (hg : GInv m0 g) (h : NI g dv q g0 a0 s0 c0 P S n) {e : Eng} {i : Input} (hi : NetIn m0 g dv q g0 n.eng e i)
    (hno : i.noReport = true) (hr : n.eng.input dbg now i = .ok e) :
    ∃ g', GInv m0 g' ∧ GStep q e g g' ∧ NI g' dv q g0 a0 s0 c0 P S { n with eng := e } := by
  have hok := hi.ok hm0 hg h.r.flow.inv h.en hr
  have hri := h.r.input hok hno hr
  have hsy := Eng.s_input h.r.flow.inv h.sy hok _ hr
  obtain ⟨g', h1, h2, h3, h4⟩ := en_input hm0 hg h.r.flow.inv h.sy h.en hi hr
  exact ⟨g', h1, h2, h.engine (n' := { n with eng := e }) hg h2.toGhostLe hri hsy h4
    ⟨h.x.loc, h.x.selfs, h.x.hist, h.x.aq, h.x.dc⟩ rfl⟩

/-- a leader's own log is durable up to what is reported -/
theorem ackNote (hg : GInv m0 g) (h : NI g dv q g0 a0 s0 c0 P S n) {f : IOId} (hf : Note.localIO f ∈ n.rx) {l : Engine.Leader}
    (hl : n.eng.leader = some l) (hv : l.vote = f.vote) :
    ∃ g', GInv m0 g' ∧ GSame q g g' ∧ NI g' dv q g0 a0 s0 c0 P S n ∧ AckBy g' n.eng.st.vote.data.leaderId q f.last := by
  cases hx : f.last with
  | none => exact ⟨g, hg, .refl q g, h, .none⟩
  | some x =>
    have hk := h.r.flow.inv.pj.lead l hl
    have hvE := h.vsE hg
    have hfl := (h.r.f.local_ f hf).1
    have hown := h.x.loc f hf
    have hfv : f.vote = n.eng.st.vote.data := by rw [← hv]; exact hk.vote
    have hcom : f.vote.committed = true := by rw [hfv]; exact hk.com
    have hlid : f.vote.leaderId = (g0.runs P).vote.leaderId := by
      refine le_antisymm (h.flid hfl) ?_
      rw [← h.vote_PS, hfv]; exact lid_of_le h.vote_le
    have hnode : f.vote.leaderId.node = q := by rw [hfv, ← h.en.id]; exact hk.node
    obtain ⟨S', hS'⟩ := hvE.voteEl (by rw [h.r.flow.inv.pj.gv]; exact hk.com)
    rw [h.r.flow.inv.pj.gv, ← hfv] at hS'
    obtain ⟨_, _, _, _, _, _, _, _, hpos⟩ := hg.elCl _ _ hS'
    have hvP : (g0.runs P).vote = f.vote := by
      have h1 : f.vote ≤ (lvls a0 (P ++ S)).vote := by
        rcases IOId.le_def.1 hfl.1 with h2 | ⟨h2, _⟩
        · exact le_of_lt h2
        · exact le_of_eq h2
      rcases h.vlD with h2 | ⟨h2, h3⟩
      · rw [h2, h.vote_PS] at h1
        have hle : (g0.runs P).vote ≤ f.vote := by rw [← h.vote_PS, hfv]; exact h.vote_le
        exact le_antisymm hle h1
      · rw [h.vote_PS] at h3
        rw [hlid, h3] at hpos
        exact absurd hpos (lt_irrefl _)
    rcases hown hnode hlid x hx with hidP | ⟨hval, hcv⟩
    rotate_left
    · refine ⟨g, hg, .refl q g, h, ?_⟩
      intro y hy
      cases hy
      rw [hvP] at hcv
      have h1 := hcv.ll hg (le_refl _) ⟨S', hS'⟩
      rw [← hfv]
      have h2 := idAt_pre h1 (cont_last hval)
      refine ⟨h2, Or.inr ?_⟩
      rw [(take_of_idAt (hg.goodL _) h2).2, show (⟨f.vote.leaderId, true⟩ : Vote) = f.vote from by rw [← hcom]]
      exact hcv
    -- no vote is saved any more
    have hend : ((g0.runs P).runs (S ++ n.eng.out.drop n.done)) = g0.runs n.eng.out := by
      rw [Gh.runs_append, ← Gh.runs_append g0, ← h.endR]
    have hns := no_save h.oksP (by rw [hend, h.r.flow.inv.pj.gv, hvP, hfv])
    have hle := h.legs
    have hpre : logOf g (g0.runs P) <+: elog g g0 n.eng := by
      have h1 := h.vsP.runs_own hg h.oksP (by rw [legals_append, ← Gh.runs_append g0]; exact hle) hns (by rw [hvP]; exact hnode)
      rw [hend] at h1
      exact h1
    have hll : g.ll f.vote.leaderId = elog g g0 n.eng := by rw [hfv]; exact (h.en.ec.lead l hl).1
    have hid := idAt_pre hpre hidP
    have hlt := idAt_lt hidP
    obtain ⟨k1, k2, k3⟩ := h.addAck hg (L := f.vote.leaderId) (m := x.index + 1) hlid ⟨S', hS'⟩
      (by rw [hll]; exact idAt_lt hid) ⟨by
        rw [hvP]
        show (⟨f.vote.leaderId, true⟩ : Vote) ≤ f.vote
        rw [← hcom], fun m hm _ => by
        show (g.ll f.vote.leaderId).take m <+: _
        rw [hll, take_eq_of_pre hpre (by simp only at hm; omega)]
        exact List.take_prefix _ _⟩
    refine ⟨_, k1, k2, k3, ?_⟩
    intro y hy
    cases hy
    rw [← hfv]
    exact ⟨by rw [show (g.addAck ⟨q, f.vote.leaderId, x.index + 1⟩).ll = g.ll from rfl, hll]; exact hid, Or.inl ⟨_, List.mem_cons_self, rfl, rfl, Nat.lt_succ_self _⟩⟩

/-- the vote of a candidate and its log -/
theorem candElog (hg : GInv m0 g) (h : NI g dv q g0 a0 s0 c0 P S n) (hc : n.eng.candidate ≠ none) :
    ∀ l, g.cl n.eng.st.vote.data.leaderId = some l → l = elog g g0 n.eng := by
  intro l hl
  obtain ⟨c, hc⟩ := Option.ne_none_iff_exists'.1 hc
  have hk := h.r.flow.inv.pj.cand c hc
  obtain ⟨_, _, _, _, hterm, _⟩ := h.en.ec.cand c hc
  have hvs := h.vsD hg
  have hnode : n.eng.st.vote.data.leaderId.node = q := by rw [← h.en.id]; exact hk.node
  rcases lt_or_eq_of_le h.vote_le with hlt | heq
  · exfalso
    have h1 := hvs.ownCl _ (by rw [hl]; simp) hnode
    rcases Vote.lt_def.1 hlt with h2 | ⟨_, h2, h3⟩
    · exact absurd h1 (not_le.2 h2)
    · rw [hk.com] at h3; cases h3
  · have hns := no_save h.oksR (by rw [← h.endR, h.r.flow.inv.pj.gv, heq])
    have h1 := h.cand (by rw [heq]; exact hnode) (by rw [heq]; exact hk.com) (by rw [heq]; exact hterm)
    rw [heq, hl] at h1
    cases h1
    have h2 := (hvs.runs_idle hg h.oksR h.legs.2 hns (by rw [heq]; exact hk.com) (by rw [heq]; exact hterm)).1
    unfold elog
    rw [h.endR, h2]

theorem notes {xs : List Note} {x : Note} (h : NI g dv q g0 a0 s0 c0 P S n) (hx : n.rx = x :: xs) :
    NX g dv q g0 P S { n with rx := xs } := by
  have hm : ∀ y, y ∈ xs → y ∈ n.rx := fun y hy => by rw [hx]; exact List.mem_cons_of_mem _ hy
  exact ⟨fun f hf => h.x.loc f (hm _ hf), fun v hv => h.x.selfs v (hm _ hv), h.x.hist, h.x.aq, h.x.dc⟩

theorem answer (h : NI g dv q g0 a0 s0 c0 P S n) (es : List Ent) : NI g dv q g0 a0 s0 c0 P S (n.answer es) := by
  induction es generalizing n with
  | nil => exact h
  | cons e es ih =>
    unfold Runtime.Node.answer
    refine ih ?_
    split
    · exact ⟨by
          have := h.r
          exact ⟨this.flow, this.done, this.split, ⟨this.d.rd, this.d.pend, this.d.store, this.d.vote, this.d.novote, this.d.purged, this.d.committed⟩,
            ⟨this.f.flushed, this.f.local_, this.f.inst, this.f.queued⟩,
            ⟨this.s.chain, this.s.cur, this.s.snap, this.s.ioSnap, this.s.ioApp, this.s.ioAppV, this.s.builds, this.s.built, this.s.inst, this.s.appl, this.s.snapV⟩, this.self, this.z⟩,
        h.sy, h.en, h.vl, h.cand, ⟨h.x.loc, h.x.selfs, h.x.hist, h.x.aq, h.x.dc⟩, h.dvq⟩
    · exact h

theorem ans_eng (n : Runtime.Node) (es : List Ent) : (n.answer es).eng = n.eng := by
  induction es generalizing n with
  | nil => rfl
  | cons e es ih =>
    unfold Runtime.Node.answer
    rw [ih]
    split <;> rfl

/-- the node handles a notification -/
theorem note (hm0 : m0.configs ≠ []) (hg : GInv m0 g) (h : NI g dv q g0 a0 s0 c0 P S n) {x : Note} {xs : List Note} (hx : n.rx = x :: xs)
    (hex : Exact n n') (hr : Runtime.Node.handle dbg now { n with rx := xs } x = .ok n') :
    ∃ g', GInv m0 g' ∧ GStep q n'.eng g g' ∧ NI g' dv q g0 a0 s0 c0 P S n' := by
  have hmem : x ∈ n.rx := by rw [hx]; simp
  have hrn := h.r.note hx hr
  have hnx := h.notes hx
  cases x with
  | localIO io =>
    simp only [Runtime.Node.handle, out_bind, lift_ok, out_pure] at hr
    obtain ⟨e, he, hr⟩ := hr
    subst hr
    have hkn := h.r.noteOk hmem
    obtain ⟨g1, k1, k2, k3, k4⟩ : ∃ g1, GInv m0 g1 ∧ GSame q g g1 ∧ NI g1 dv q g0 a0 s0 c0 P S n ∧
        (io.vote.committed = true → n.eng.voteMatch io.vote = true → n.eng.leader ≠ none → AckBy g1 n.eng.st.vote.data.leaderId q io.last) := by
      by_cases hc : io.vote.committed = true ∧ n.eng.voteMatch io.vote = true ∧ n.eng.leader ≠ none
      · obtain ⟨l, hl⟩ := Option.ne_none_iff_exists'.1 hc.2.2
        have hv : l.vote = io.vote := by
          have := hc.2.1
          unfold Eng.voteMatch at this
          rw [if_pos hc.1, hl] at this
          simpa using this
        obtain ⟨g1, k1, k2, k3, k4⟩ := h.ackNote hg hmem hl hv
        exact ⟨g1, k1, k2, k3, fun _ _ _ => k4⟩
      · exact ⟨g, hg, .refl q g, h, fun h1 h2 h3 => absurd ⟨h1, h2, h3⟩ hc⟩
    have hi : NetIn m0 g1 dv q g0 n.eng e (.localIO io) := ⟨fun h1 h2 => ⟨hkn h1 h2, k4 h1 h2⟩, hex⟩
    have hok := hi.ok hm0 k1 h.r.flow.inv k3.en he
    have hsy := Eng.s_input h.r.flow.inv h.sy hok _ he
    obtain ⟨g', h1, h2, h3, h4⟩ := en_input hm0 k1 h.r.flow.inv h.sy k3.en hi he
    have hnx := k3.notes hx
    refine ⟨g', h1, .from k2 h2, k3.engine k1 h2.toGhostLe hrn hsy h4 ⟨hnx.loc, hnx.selfs, hnx.hist, hnx.aq, hnx.dc⟩ rfl⟩
  | selfVote v =>
    simp only [Runtime.Node.handle, out_bind, lift_ok, out_pure] at hr
    obtain ⟨e, he, hr⟩ := hr
    subst hr
    have hs := h.x.selfs v hmem
    have hle : v ≤ n.eng.st.vote.data := by
      have := h.r.self v hmem
      rw [← h.vote_PS] at this
      exact le_trans this h.vote_le
    have hi : NetIn m0 g dv q g0 n.eng e (.voteResp n.eng.cfg.id v none true v) := by
      refine ⟨⟨fun _ => hle, hs.el, hs.pv⟩, ?_, h.candElog hg⟩
      intro hc hv _ hu
      obtain ⟨c, hc⟩ := Option.ne_none_iff_exists'.1 hc
      have hk := h.r.flow.inv.pj.cand c hc
      obtain ⟨_, _, _, _, hterm, _⟩ := h.en.ec.cand c hc
      rw [h.en.id]
      exact hs.gr (by rw [hv, ← h.en.id]; exact hk.node) hu (by rw [hv]; exact hterm)
    have hok := hi.ok hm0 hg h.r.flow.inv h.en he
    have hsy := Eng.s_input h.r.flow.inv h.sy hok _ he
    obtain ⟨g', h1, h2, h3, h4⟩ := en_input hm0 hg h.r.flow.inv h.sy h.en hi he
    exact ⟨g', h1, h2, h.engine hg h2.toGhostLe hrn hsy h4 ⟨hnx.loc, hnx.selfs, hnx.hist, hnx.aq, hnx.dc⟩ rfl⟩
  | built m =>
    simp only [Runtime.Node.handle, out_bind, lift_ok, out_pure] at hr
    obtain ⟨e, he, hr⟩ := hr
    subst hr
    have hb := h.r.s.built m hmem
    have hval : ComVal g0 n.eng.out m.lastLogId := by rw [h.r.rest]; exact hb.1.append
    have hi : NetIn m0 g dv q g0 n.eng e (.built m) := h.r.flow.builtOk hval
    have hok := hi.ok hm0 hg h.r.flow.inv h.en he
    have hsy := Eng.s_input h.r.flow.inv h.sy hok _ he
    obtain ⟨g', h1, h2, h3, h4⟩ := en_input hm0 hg h.r.flow.inv h.sy h.en hi he
    exact ⟨g', h1, h2, h.engine hg h2.toGhostLe hrn hsy h4 ⟨hnx.loc, hnx.selfs, hnx.hist, hnx.aq, hnx.dc⟩ rfl⟩
  | installed io m =>
    simp only [Runtime.Node.handle, out_bind, lift_ok, out_pure] at hr
    obtain ⟨e, he, hr⟩ := hr
    subst hr
    have hi : NetIn m0 g dv q g0 n.eng e (.installed io m) := trivial
    have hok := hi.ok hm0 hg h.r.flow.inv h.en he
    have hsy := Eng.s_input h.r.flow.inv h.sy hok _ he
    obtain ⟨g', h1, h2, h3, h4⟩ := en_input hm0 hg h.r.flow.inv h.sy h.en hi he
    exact ⟨g', h1, h2, h.engine hg h2.toGhostLe hrn hsy h4 ⟨hnx.loc, hnx.selfs, hnx.hist, hnx.aq, hnx.dc⟩ rfl⟩
  | applied l es =>
    simp only [Runtime.Node.handle, out_bind, lift_ok, out_pure] at hr
    obtain ⟨e, he, hr⟩ := hr
    subst hr
    have hi : NetIn m0 g dv q g0 n.eng e (.applied l) := trivial
    have hok := hi.ok hm0 hg h.r.flow.inv h.en he
    have hsy := Eng.s_input h.r.flow.inv h.sy hok _ he
    obtain ⟨g', h1, h2, h3, h4⟩ := en_input hm0 hg h.r.flow.inv h.sy h.en hi he
    obtain ⟨hfl, h5, h6⟩ := Eng.applied_reports he
    have hb := h.r.s.appl l es hmem
    have hf := h.r.flow.step (i := .applied l) trivial (fun k hk => by cases hk) he
    have hri := (h.r.notes hx).eng hf (Eng.grow_input _ _ _ he).2 (by rw [hfl]; exact h.r.f.flushed) (by rw [h5]; exact h.r.s.ioSnap)
      (by rw [h6]; exact hb.2) (by rw [h6]; exact hb.1)
    have := h.engine hg h2.toGhostLe hri hsy h4 (n' := { n with eng := e, rx := xs })
      ⟨hnx.loc, hnx.selfs, hnx.hist, hnx.aq, hnx.dc⟩ rfl
    refine ⟨g', h1, ?_, this.answer es⟩
    rw [ans_eng]; exact h2

end NI
end Openraft.Net
