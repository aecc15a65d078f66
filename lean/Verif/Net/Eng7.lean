import Verif.Net.Eng6

/-!
# The engine agrees with the history: commits of the leader, snapshots and purges
-/

set_option autoImplicit false
set_option linter.unusedSectionVars false

namespace Openraft.Net
open Openraft.Repl (Panic dassert Inflight)
open Openraft.Engine Openraft.Cluster
open Openraft.VecProgress (AllP BI)

variable {m0 : Membership} [hne : Fact (m0.configs ≠ [])] {g g' : Ghost} {dv dv' : NodeId → Vote} {q : NodeId} {g0 : Gh} {p : Nat} {dbg : Bool} {now : Nat}

theorem EN.same {e e' : Eng} (h : EN g dv q g0 p e) (ho : e'.out = e.out) (hc : e'.cfg = e.cfg) (hv : e'.st.vote.data = e.st.vote.data)
    (ha : e'.st.accLast = e.st.accLast) (hm : e'.st.ms = e.st.ms) (hl : e'.leader = e.leader) (hcd : e'.candidate = e.candidate) :
    EN g dv q g0 p e' := by
  have hlog : elog g g0 e' = elog g g0 e := by unfold elog; rw [ho]
  refine ⟨by rw [ho]; exact h.sq, ?_, by rw [hc]; exact h.id⟩
  rw [hlog]
  exact h.ec.of hv ha hm (fun x' hx' => ⟨x', by rw [← hl]; exact hx', rfl⟩) fun c hc => by rw [← hcd]; exact hc

theorem en_logPurge (hg : GInv m0 g) {e : Eng} (h : EInv g0 e) (hn : EN g dv q g0 p e) : EN g dv q g0 p e.logPurge := by
  have hI' := Eng.inv_logPurge h
  have hvs := hn.sq.endVS hg h.lm.oks
  unfold Eng.logPurge at hI' ⊢
  split at hI'
  · next hx => rw [if_pos hx]; exact hn
  · next hx =>
    rw [if_neg hx]
    split at hI'
    · exact hn
    · next u hu =>
      have hok : (g0.runs e.out).Ok (.purge u) := by
        have := hI'.lm.oks
        exact ((Gh.oks_snoc _ _ _).1 this).2
      have hlog : elog g g0 (Eng.push { e with st := e.st.purgeLog u } (.purge u)) = elog g g0 e := by
        unfold elog
        show logOf g (g0.runs (e.out ++ [.purge u])) = _
        rw [Gh.runs_snoc, hvs.purge_log (lm_anch h.lm hvs) hok]
      refine ⟨hn.sq.snoc trivial, ?_, hn.id⟩
      rw [hlog]
      exact hn.ec.of rfl rfl rfl (fun x' hx' => ⟨x', hx', rfl⟩) fun c hc => hc

theorem en_rhTryPurge (hg : GInv m0 g) {e : Eng} (h : EInv g0 e) (hn : EN g dv q g0 p e) (l : Engine.Leader) : EN g dv q g0 p (Eng.rhTryPurge e l) := by
  unfold Eng.rhTryPurge
  split
  · exact hn
  · split
    · exact hn
    · split
      · exact hn
      · exact en_logPurge hg h hn

theorem en_tryPurge (hg : GInv m0 g) {e : Eng} (h : EInv g0 e) (hn : EN g dv q g0 p e) : EN g dv q g0 p e.tryPurge := by
  unfold Eng.tryPurge
  split
  · exact en_rhTryPurge hg h hn _
  · exact en_logPurge hg h hn

/-- the nodes that reached position `c` -/
def reached (l : Engine.Leader) (c : LogId) : List NodeId :=
  ((l.progress.vp.vector.filter fun z => decide (some c ≤ z.2)).map (·.1)).dedup

/-- a step of node `q` that commits nothing -/
structure GSame (q : NodeId) (g g' : Ghost) : Prop extends GhostStep q g g' where
  same : g'.commits = g.commits

theorem GSame.refl (q : NodeId) (g : Ghost) : GSame q g g := ⟨.refl q g, rfl⟩

theorem GSame.trans {g1 g2 g3 : Ghost} (h1 : GSame q g1 g2) (h2 : GSame q g2 g3) : GSame q g1 g3 :=
  ⟨h1.toGhostStep.trans h2.toGhostStep, h2.same.trans h1.same⟩

/-- a step of node `q` that ends with the engine `e`: what is newly committed is of the leader of its vote, and is not
beyond its committed position -/
structure GStep (q : NodeId) (e : Eng) (g g' : Ghost) : Prop extends GhostStep q g g' where
  made : ∀ r ∈ g'.commits, r ∈ g.commits ∨ r.L = e.st.vote.data.leaderId ∧ r.m ≤ nextIndex e.st.committed

theorem GSame.to {g g' : Ghost} (h : GSame q g g') (e : Eng) : GStep q e g g' :=
  ⟨h.toGhostStep, fun r hr => Or.inl (by rw [h.same] at hr; exact hr)⟩

theorem GStep.refl (q : NodeId) (e : Eng) (g : Ghost) : GStep q e g g := (GSame.refl q g).to e

theorem GStep.from {e : Eng} {g1 g2 g3 : Ghost} (h1 : GSame q g1 g2) (h2 : GStep q e g2 g3) : GStep q e g1 g3 :=
  ⟨h1.toGhostStep.trans h2.toGhostStep, fun r hr => by
    rcases h2.made r hr with h | h
    · rw [h1.same] at h; exact Or.inl h
    · exact Or.inr h⟩

theorem GStep.of {e e' : Eng} {g g' : Ghost} (h : GStep q e g g') (hv : e'.st.vote.data = e.st.vote.data) (hc : e'.st.committed = e.st.committed) :
    GStep q e' g g' := ⟨h.toGhostStep, by rw [hv, hc]; exact h.made⟩

/-- the engine after a step of node `q`, with the history after it -/
def Ext (m0 : Membership) (g : Ghost) (dv : NodeId → Vote) (q : NodeId) (g0 : Gh) (p : Nat) (e : Eng) : Prop :=
  ∃ g', GInv m0 g' ∧ GStep q e g g' ∧ Grown q g g' ∧ EN g' dv q g0 p e

theorem Ext.of (hg : GInv m0 g) {e : Eng} (h : EN g dv q g0 p e) : Ext m0 g dv q g0 p e := ⟨g, hg, .refl q e g, .refl q g, h⟩

theorem Ext.map {e e' : Eng} (h : Ext m0 g dv q g0 p e) (hv : e'.st.vote.data = e.st.vote.data) (hc : e'.st.committed = e.st.committed)
    (hm : ∀ g', GInv m0 g' → EN g' dv q g0 p e → EN g' dv q g0 p e') : Ext m0 g dv q g0 p e' := by
  obtain ⟨g', h1, h2, h3, h4⟩ := h
  exact ⟨g', h1, h2.of hv hc, h3, hm g' h1 h4⟩

/-- the leader takes a position for committed that a quorum reached -/
theorem en_rhTryCommit (hg : GInv m0 g) {e e' : Eng} {l : Engine.Leader} {gr : Option LogId} (h : EInv g0 e) (hn : EN g dv q g0 p e)
    (hl : e.leader = some l) (hcf : l.progress.vp.configs = e.st.ms.effective.mem.configs) (hk : KnownO e.st.lv gr)
    (hq : ∀ c, e'.st.committed = some c → e'.st.committed ≠ e.st.committed → isQuorum l.progress.vp.configs (reached l c) = true)
    (hr : Eng.rhTryCommit dbg e gr = .ok e') : Ext m0 g dv q g0 p e' := by
  have hvs := hn.sq.endVS hg h.lm.oks
  have hld := h.pj.lead l hl
  obtain ⟨hlog, hall⟩ := hn.ec.lead l hl
  unfold Eng.rhTryCommit at hr
  split at hr
  · rw [pure_ok] at hr; subst hr; exact .of hg hn
  · next c =>
    split at hr
    · next hsame =>
      rw [bind_ok] at hr
      obtain ⟨⟨ch, st⟩, h1, hr⟩ := hr
      simp only at hr
      unfold RState.updateCommitted at h1
      split at h1
      · next hlt =>
        rw [bind_ok] at h1
        obtain ⟨ms', h2, h1⟩ := h1
        rw [pure_ok] at h1
        cases h1
        rw [if_pos rfl, pure_ok] at hr
        have hin : c ∈ e.st.lv.L := by
          rcases hk c rfl with hx | hx
          · exact hx
          · exact absurd hlt (not_lt.2 hx)
        have hcom' : e'.st.committed = some c := by
          rw [← hr]
          exact congrArg LogV.committed (Eng.frame_maybeSnapshot _).lv
        have hqu := hq c hcom' (by rw [hcom']; exact (ne_of_lt hlt).symm)
        have hlid : c.leaderId = e.st.vote.data.leaderId := by
          unfold Vote.isSameLeader at hsame
          exact (beq_iff_eq.1 hsame).symm
        have hci := elog_mem h.lm hvs hin
        have hcl : idAt (g.ll e.st.vote.data.leaderId) c.index = some c := by rw [hlog]; exact hci
        obtain ⟨S, hS⟩ := hvs.voteEl (by rw [h.pj.gv]; exact hld.com)
        rw [h.pj.gv] at hS
        have hnode : e.st.vote.data.leaderId.node = q := by rw [hld.node]; exact hn.id
        have hlen := idAt_lt hcl
        have hvv : (⟨e.st.vote.data.leaderId, true⟩ : Vote) ≤ e.st.vote.data := Vote.le_def.2 (Or.inr ⟨rfl, fun _ => hld.com⟩)
        have hvot : e'.st.vote.data = e.st.vote.data := by
          rw [← hr]
          exact congrArg LogV.vote (Eng.frame_maybeSnapshot _).lv
        have hext : ∃ g', GInv m0 g' ∧ GStep q e' g g' ∧ Grown q g g' ∧ EN g' dv q g0 p e ∧
            CVote g' e.st.vote.data ((elog g g0 e).take (c.index + 1)) := by
          by_cases hack : ∀ n ∈ reached l c, ∃ a ∈ g.acks, a.q = n ∧ a.L = e.st.vote.data.leaderId ∧ c.index + 1 ≤ a.m
          · obtain ⟨r, hr'⟩ : ∃ r : Commit, r = ⟨e.st.vote.data.leaderId, c.index + 1, (g.ll e.st.vote.data.leaderId).length, reached l c⟩ := ⟨_, rfl⟩
            have hgi : GInv m0 (g.addCommit r) := by
              refine ginv_addCommit hg r ⟨S, by rw [hr']; exact hS⟩ (by rw [hr']; exact Nat.succ_pos _) (by rw [hr']; exact hlen) (by rw [hr']) ?_ ?_ ?_ ?_
              · rw [hr']
                obtain ⟨a, ha, hca⟩ := idAt_some.1 hcl
                exact ⟨a, ha, by rw [← hlid, hca]⟩
              · rw [hr']
                show isQuorum (cfgs ((g.ll e.st.vote.data.leaderId).take (g.ll e.st.vote.data.leaderId).length)) (reached l c) = true
                rw [List.take_length, hlog]
                unfold cfgs
                rw [← memOf_mem, ← eff_memOf h.lm hvs, ← hcf]; exact hqu
              · rw [hr']; exact List.nodup_dedup _
              · rw [hr']; exact hack
            have hst : GhostStep q g (g.addCommit r) := step_addCommit q r (by rw [hr']; exact hnode)
            have hgr : Grown q g (g.addCommit r) := grown_of hst rfl rfl rfl
            have hn2 : EN (g.addCommit r) dv q g0 p e := by
              have hlog' : elog (g.addCommit r) g0 e = elog g g0 e := logOf_mono hgr.toGhostLe hvs.st
              refine ⟨hn.sq.mono hg hgr (fun n => le_refl _) h.lm.oks, ?_, hn.id⟩
              rw [hlog']
              exact ⟨fun x hx => ⟨(hn.ec.lead x hx).1, fun z hz => ((hn.ec.lead x hx).2 z hz).mono hgr.toGhostLe⟩,
                hn.ec.cand, hn.ec.acc, fun h3 y hy => (hn.ec.mcom h3 y hy).mono hgr.toGhostLe⟩
            refine ⟨g.addCommit r, hgi, ⟨hst, fun x hx => ?_⟩, hgr, hn2, Or.inr ⟨r, List.mem_cons_self, ?_, ?_⟩⟩
            · rcases List.mem_cons.1 hx with rfl | hx
              · right; rw [hcom', hvot, hr']; exact ⟨rfl, Nat.le_refl _⟩
              · exact Or.inl hx
            · rw [hr']; exact hvv
            · rw [← hlog, hr']; exact List.prefix_refl _
          · refine ⟨g, hg, .refl q e' g, .refl q g, hn, ?_⟩
            push Not at hack
            obtain ⟨n, hn', hno⟩ := hack
            unfold reached at hn'
            rw [List.mem_dedup, List.mem_map] at hn'
            obtain ⟨⟨n', o⟩, hz, rfl⟩ := hn'
            obtain ⟨hz1, hz2⟩ := List.mem_filter.1 hz
            have hz2 : some c ≤ o := of_decide_eq_true hz2
            cases o with
            | none => exact absurd hz2 OptOrd.not_some_le_none'
            | some x =>
              obtain ⟨hx, h5⟩ := hall _ hz1 x rfl
              have h6 := idAt_le hg (hg.goodL _) hcl hx hz2
              rcases h5 with ⟨a, ha, h3, h4, h5⟩ | h5
              · have := hno a ha h3 h4
                omega
              · rw [← hlog]
                exact (h5.le hvv).pre (take_pre_take (by omega))
        obtain ⟨g', hgi, hst, hgr, hn2, hcom⟩ := hext
        have hlog' : elog g' g0 e = elog g g0 e := logOf_mono hgr.toGhostLe hvs.st
        rw [← hlog'] at hcom
        refine ⟨g', hgi, hst, hgr, ?_⟩
        rw [← hr]
        refine EN.frame ?_ (Eng.frame_maybeSnapshot _) (calm_maybeSnapshot _)
        refine en_commit hgi [.replCommitted (some c)] h hn2 hin h2 (by simp [Cmd.inert]) ⟨?_, trivial⟩ hcom (by simp [Eng.push])
        refine ⟨by rw [h.pj.gv]; exact hld.com, ?_⟩
        intro x hx
        cases hx
        have hvs2 := hn2.sq.endVS hgi h.lm.oks
        have ht := take_of_idAt hvs2.good (elog_mem h.lm hvs2 hin)
        refine ⟨ht.1, ?_⟩
        rw [h.pj.gv, ← ht.2]; exact hcom
      · rw [pure_ok] at h1
        cases h1
        rw [if_neg (by simp), pure_ok] at hr
        subst hr; exact .of hg hn
    · rw [pure_ok] at hr; subst hr; exact .of hg hn

end Openraft.Net
