import Verif.Net.Node6

/-!
# A node restarts
-/

set_option autoImplicit false
set_option linter.unusedSectionVars false

namespace Openraft.Net
open Openraft.Repl (Panic dassert Inflight)
open Openraft.Engine Openraft.Cluster
open Openraft.Runtime (Fl RInv Covered Note SmOk LeI DiskOp opOf vote_runs_same out_bind out_pure lift_ok exec_frame submit_ok note_of_op
  saved Fits Loaded Beyond Disk Sm gh0 BaseOk memsBelow DiskOk)
open Openraft.VecProgress (AllP BI)

variable {m0 : Membership} [hne : Fact (m0.configs ≠ [])] {g g' : Ghost} {dv dv' : NodeId → Vote} {q : NodeId} {g0 : Gh} {p : Nat} {dbg : Bool} {now : Nat}
variable {a0 : IOId} {s0 c0 : Option LogId} {P S : List Cmd} {n n' n1 : Runtime.Node}

/-- the engine of a node that starts agrees with the history -/
theorem en_startup (hg : GInv m0 g) {e e' : Eng} (h : Eng.StartOk g0 e) (hout : e.out = []) (hvs : VS g dv q g0) (hid : e.cfg.id = q)
    (hacc : e.st.accLast = none)
    (hmc : ∀ y, e.st.ms.committed.logId = some y → CVote g e.st.vote.data ((logOf g g0).take (y.index + 1)))
    (hlead : e.st.isLeader e.cfg.id = true → g.ll e.st.vote.data.leaderId = logOf g g0)
    (hr : Eng.startup dbg now e = .ok e') : Ext m0 g dv q g0 0 e' := by
  by_cases hil : e.st.isLeader e.cfg.id = true
  · obtain ⟨e1, e2, l, l2, hI, hl1, hf, hl2, ho1, ⟨tg, ho2⟩, hcf, hms, hvt, hcd, ⟨mm, hvp⟩, hr⟩ := Eng.mid_startup h hil hr
    have hlog : elog g g0 e1 = logOf g g0 := by
      unfold elog; rw [ho1, hout]; rfl
    have hst : g0.store.lastLogId = e.st.lastLogId := by
      have := h.lm.log.store_last
      rw [hout] at this; exact this
    have hnode : e.st.vote.data.leaderId.node = q := by
      unfold RState.isLeader RState.isLeading at hil
      simp at hil; rw [hil.1.2]; exact hid
    have hn1 : EN g dv q g0 0 e1 := by
      refine ⟨⟨Nat.zero_le _, hvs, ?_⟩, ⟨?_, ?_, ?_, ?_⟩, by rw [hcf]; exact hid⟩
      · rw [ho1, hout]
        refine ⟨?_, trivial⟩
        intro _ x hx
        have hx : e.st.lastLogId = some x := hx
        have h1 : lastId (logOf g g0) = some x := by
          have := hvs.st.lastId
          rw [hst, hx] at this; exact this
        have hi : x.index = (logOf g g0).length - 1 := by
          have hne : logOf g g0 ≠ [] := fun h0 => by rw [h0] at h1; cases h1
          obtain ⟨z, _, hz⟩ := lastId_some hne
          rw [h1] at hz; cases hz; rfl
        show idAt (logOf g g0) x.index = some x
        rw [hi]; exact h1
      · intro z hz
        rw [hl1] at hz; cases hz
        rw [hvt, hlog]
        refine ⟨hlead hil, ?_⟩
        rw [hvp]; exact AllP.new _ _ fun _ => AckBy.none
      · intro c hc; rw [hcd] at hc; cases hc
      · intro _ hne; rw [hvt] at hne; exact absurd hnode hne
      · intro _ y hy
        rw [hms] at hy
        rw [hvt, hlog]; exact hmc y hy
    have hn2 : EN g dv q g0 0 e2 := hn1.frame hf ⟨_, ho2, by simp [calm]⟩
    have hI2 := hf.inv hI
    rcases hr with hr | hr
    · obtain ⟨k1, k2, k3⟩ := en_lhAppend hg hI2 hn2 hl2 (fun m hm => by cases hm) hr
      exact ⟨_, k1, GSame.to ⟨k2, rfl⟩ _, grown_of k2 rfl rfl rfl, k3⟩
    · exact .of hg (hn2.frame (Eng.frame_rhInitiate (by rw [hl2]; exact LSame.refl _) hr) (calm_rhInitiate hr))
  · unfold Eng.startup at hr
    rw [if_neg hil, pure_ok] at hr
    subst hr
    refine .of hg ⟨⟨Nat.zero_le _, hvs, ?_⟩, ⟨?_, ?_, ?_, ?_⟩, hid⟩
    · show Legals g dv q _ (e.out.drop 0)
      rw [hout]; exact trivial
    · intro z hz
      have hz : e.leader = some z := hz
      rw [h.leader] at hz; cases hz
    · intro c hc
      have hc : e.candidate = some c := hc
      rw [h.cand] at hc; cases hc
    · intro _ _ x hx
      have hx : e.st.accLast = some x := hx
      rw [hacc] at hx; cases hx
    · intro _ y hy
      have hlog : elog g g0 { e with st := { e.st with server := if e.st.ms.effective.mem.isVoter e.cfg.id then .follower else .learner } } = logOf g g0 := by
        unfold elog
        show logOf g (g0.runs e.out) = _
        rw [hout]; rfl
      rw [hlog]; exact hmc y hy

/-- commands that leave the vote as it is do not save one -/
theorem no_saveVote {G : Gh} {cs : List Cmd} (ho : G.Oks cs) (hv : (G.runs cs).vote ≤ G.vote) : ∀ v, Cmd.saveVote v ∉ cs := by
  intro v hm
  obtain ⟨A, B, rfl⟩ := List.append_of_mem hm
  rw [Gh.oks_append] at ho
  have h1 := Gh.vote_runs ho.1
  have h2 : (G.runs A).vote < v := ho.2.1
  have h3 := Gh.vote_runs ho.2.2
  have h4 : (G.runs (A ++ .saveVote v :: B)).vote = (((G.runs A).run (.saveVote v)).runs B).vote := by
    rw [Gh.runs_append]; rfl
  rw [h4] at hv
  have h3 : v ≤ (((G.runs A).run (.saveVote v)).runs B).vote := h3
  exact absurd (lt_of_le_of_lt h1 h2) (not_lt.2 (h3.trans hv))

/-- the log of a leader is durable when it crashes -/
theorem NI.lossless (hg : GInv m0 g) (h : NI g dv q g0 a0 s0 c0 P S n) {k : Nat} (hv : n.eng.st.vote.data = n.disk.vote)
    (hl : n.eng.leader ≠ none) (hlast : (n.crashDisk k).store.lastLogId = n.eng.st.lastLogId) :
    (logOf g (g0.runs (P ++ S))).length ≤ nextIndex (n.crashDisk k).store.lastLogId ∧
    g.ll n.disk.vote.leaderId = stLog g (n.crashDisk k).store := by
  obtain ⟨l, hl⟩ := Option.ne_none_iff_exists'.1 hl
  have hvs := h.vsE hg
  have hk := h.r.flow.inv.pj.lead l hl
  have hel := (h.en.ec.lead l hl).1
  have hsl : (g0.runs n.eng.out).store.lastLogId = n.eng.st.lastLogId := h.r.flow.inv.lm.log.store_last
  have hlen : (elog g g0 n.eng).length = nextIndex n.eng.st.lastLogId := by
    rw [← hsl]; exact hvs.st.len_last
  have hpre : logOf g (g0.runs (P ++ S)) <+: elog g g0 n.eng := by
    unfold elog
    rw [h.endR]
    refine (h.vsD hg).runs_own hg h.oksR h.legs.2 (fun c hc v hcv => ?_) ?_
    · refine no_saveVote h.oksR ?_ v (hcv ▸ hc)
      rw [← h.endR, h.r.flow.inv.pj.gv, hv, h.vote_disk]
    · rw [← h.vote_disk, ← hv, hk.node]; exact h.en.id
  refine ⟨by rw [hlast, ← hlen]; exact hpre.length_le, ?_⟩
  rw [← hv, hel]
  -- two logs with the same last id
  obtain ⟨S1, S2, hS, _, hd⟩ := h.r.crash_all k
  have hvs1 : VS g dv q (g0.runs (P ++ S1)) := by
    have ho := h.oksS
    have hlg := h.legs.1
    rw [hS, Gh.oks_append] at ho
    rw [hS, legals_append] at hlg
    rw [Gh.runs_append]
    exact h.vsP.runs hg ho.1 hlg.1
  have hst : (n.crashDisk k).store = (g0.runs (P ++ S1)).store := by rw [hd]
  rw [hst] at hlast ⊢
  have hl1 : (logOf g (g0.runs (P ++ S1))).length = nextIndex n.eng.st.lastLogId := by
    rw [← hlast]; exact hvs1.st.len_last
  cases hx : n.eng.st.lastLogId with
  | none =>
    rw [hx] at hlen hl1
    have h1 := List.length_eq_zero_iff.1 hlen
    have h2 := List.length_eq_zero_iff.1 hl1
    rw [h1]; exact h2.symm
  | some x =>
    rw [hx] at hlen hl1 hlast hsl
    simp only [nextIndex_some] at hlen hl1
    have i1 : idAt (elog g g0 n.eng) x.index = some x := by
      have : lastId (elog g g0 n.eng) = some x := by rw [← hsl]; exact hvs.st.lastId
      unfold lastId at this
      rw [hlen] at this; exact this
    have i2 : idAt (logOf g (g0.runs (P ++ S1))) x.index = some x := by
      have : lastId (logOf g (g0.runs (P ++ S1))) = some x := by rw [← hlast]; exact hvs1.st.lastId
      unfold lastId at this
      rw [hl1] at this; exact this
    have j1 := (take_of_idAt hvs.good i1).2
    have j2 := (take_of_idAt hvs1.good i2).2
    have j1 : (elog g g0 n.eng).take (x.index + 1) = cont g (some x) := j1
    rw [List.take_of_length_le (by omega)] at j1 j2
    rw [j1, ← j2]; rfl

/-- **A node restarts** with what a crash left. -/
theorem NI.restart (hm0 : m0.configs ≠ []) (hg : GInv m0 g) (h : NI g dv q g0 a0 s0 c0 P S n) (hp : NP g n) {k : Nat}
    (hf : Fits (n.crashDisk k) n.sm.reboot) (hr : Runtime.restart dbg now n.eng.cfg (n.crashDisk k) n.sm = .ok n')
    (hll : Lossless n k) :
    ∃ g' g0' a0' s0' c0', GInv m0 g' ∧ GStep q n'.eng g g' ∧ NI g' dv q g0' a0' s0' c0' [] [] n' ∧ NP g' n' ∧ n'.disk.vote = n.disk.vote := by
  obtain ⟨st, store, s2, base, e, hi, hl, hri, hcfg, hn', hst, hok, hbo⟩ := Runtime.restart_base (h.r.crash_ok k) hf hr
  obtain ⟨hc, hcs⟩ := h.crashed hm0 hg hp k hf hl hbo
  have hdv : (n.crashDisk k).vote = n.disk.vote := h.r.vote_crash k
  have hsv : st.vote.data = n.disk.vote := by rw [hl.vote]; exact hdv
  have hcv : (gh0 (n.crashDisk k) store base s2).vote = n.disk.vote := hdv
  have hen := en_startup (dv := dv) (q := q) hg hok rfl hc.vs h.en.id (by
      show RState.accLast st = none
      unfold RState.accLast; rw [hl.io]; rfl) (by
      intro y hy
      show CVote g st.vote.data _
      rw [hsv, ← hcv]
      rcases hbo.com with h1 | h1
      · have hy : st.ms.committed.logId = some y := hy
        rw [h1, hc.pos.2.2] at hy
        have hlt := idAt_lt (memOf_logId hy)
        rw [cont_lenO hc.pos.1] at hlt
        exact (hc.vs.comT hc.anch).pre (take_pre_take hlt)
      · refine hc.vs.mems_prev hg hc.anch ?_ h1 hy
        have := hok.lm.mem.base2
        have h2 : (gh0 (n.crashDisk k) store base s2).store.purged = _ := hok.lm.log.stp
        rw [h2, ← hok.lm.log.pn]
        exact this) (by
      intro hil
      have hil : st.isLeader n.eng.cfg.id = true := hil
      unfold RState.isLeader RState.isLeading at hil
      rw [hsv] at hil
      simp at hil
      obtain ⟨l1, l2, l3⟩ := hll hil.1.2 hil.2
      obtain ⟨k1, k2⟩ := h.lossless hg l2 l1 l3
      show g.ll st.vote.data.leaderId = _
      rw [hsv, k2]
      unfold logOf
      rw [hc.full ((h.vsD hg).anch_own (Or.inr (by rw [← h.vote_disk, hil.1.2]; exact h.en.id))) k1]) hst
  obtain ⟨g', h1, h2, h3, h4⟩ := hen
  have he : n'.eng = e := by rw [hn']; rfl
  have hsm : n'.sm = s2 := by rw [hn']; rfl
  have hdk : n'.disk.vote = n.disk.vote := by rw [hn']; exact hdv
  refine ⟨g', _, _, _, _, h1, by rw [he]; exact h2, ⟨hri, ?_, ?_, Or.inl rfl, ?_, ?_, ?_⟩, ?_, hdk⟩
  · rw [he]
    unfold Eng.startup at hst
    split at hst
    · next hil =>
      unfold Eng.updateInternal at hst
      rw [if_pos hil] at hst
      exact Eng.s_becomeNewLeader (Sy.free rfl rfl) rfl _ hst
    · rw [pure_ok] at hst
      subst hst
      exact Sy.free rfl rfl
  · rw [he]; exact h4
  · exact hc.cand.mono h2.toGhostLe hc.vs.st
  · refine ⟨?_, ?_, ?_, ?_, ?_⟩
    · intro f hf; rw [hn'] at hf; cases hf
    · intro v hv; rw [hn'] at hv; cases hv
    · intro x hx
      rw [hsm] at hx
      exact (hc.hist x hx).mono h2.toGhostLe
    · intro f l hm; rw [hn'] at hm; cases hm
    · rw [hn']; exact hcs.mono h2.toGhostLe (le_refl _)
  · rw [h.dvq, hdk]
  · refine ⟨?_, ?_, ?_, ?_, ?_⟩
    · rw [hdk, hsm]; exact (hcv ▸ hc.pos).mono h2.toGhostLe (le_refl _)
    · rw [hdk, hsm]; exact (hcv ▸ hc.snap).mono h2.toGhostLe (le_refl _)
    · intro m hm; rw [hn'] at hm; cases hm
    · intro f l hm; rw [hn'] at hm; cases hm
    · intro m f hm; rw [hn'] at hm; cases hm

end Openraft.Net
