import Verif.Net.Eng7

/-!
# The engine agrees with the history: progress reports, snapshots built, purges asked for
-/

set_option autoImplicit false
set_option linter.unusedSectionVars false

namespace Openraft.Net
open Openraft.Repl (Panic dassert Inflight)
open Openraft.Engine Openraft.Cluster
open Openraft.VecProgress (AllP BI)

variable {m0 : Membership} [hne : Fact (m0.configs ≠ [])] {g g' : Ghost} {dv dv' : NodeId → Vote} {q : NodeId} {g0 : Gh} {p : Nat} {dbg : Bool} {now : Nat}

/-- a position newly taken for committed was reached by a quorum -/
def ExactQ (e e' : Eng) : Prop :=
  ∀ l' c, e'.leader = some l' → e'.st.committed = some c → e'.st.committed ≠ e.st.committed →
    isQuorum l'.progress.vp.configs (reached l' c) = true

theorem leader_rhTryCommit {e e' : Eng} {gr : Option LogId} (hr : Eng.rhTryCommit dbg e gr = .ok e') : e'.leader = e.leader := by
  unfold Eng.rhTryCommit at hr
  split at hr
  · rw [pure_ok] at hr; subst hr; rfl
  · split at hr
    · rw [bind_ok] at hr
      obtain ⟨⟨ch, st⟩, h1, hr⟩ := hr
      simp only at hr
      split at hr
      · rw [pure_ok] at hr; subst hr
        exact (Eng.still_maybeSnapshot _).leader
      · rw [pure_ok] at hr; subst hr; rfl
    · rw [pure_ok] at hr; subst hr; rfl

theorem logPurge_com (e : Eng) : e.logPurge.st.committed = e.st.committed ∧ e.logPurge.leader = e.leader := by
  unfold Eng.logPurge
  split
  · exact ⟨rfl, rfl⟩
  · split <;> exact ⟨rfl, rfl⟩

theorem rhTryPurge_com (e : Eng) (l : Engine.Leader) :
    (Eng.rhTryPurge e l).st.committed = e.st.committed ∧ (Eng.rhTryPurge e l).leader = e.leader := by
  unfold Eng.rhTryPurge
  split
  · exact ⟨rfl, rfl⟩
  · split
    · exact ⟨rfl, rfl⟩
    · split
      · exact ⟨rfl, rfl⟩
      · exact logPurge_com e

theorem en_rhUpdateMatching (hg : GInv m0 g) {e e' : Eng} {l l0 : Engine.Leader} {n : NodeId} {m : Option LogId}
    (h : EInv g0 e) (hn : EN g dv q g0 p e) (hl : e.leader = some l0) (h1 : l.vote = l0.vote) (h2 : l.lastLogId = l0.lastLogId)
    (h3 : l.progress.vp = l0.progress.vp) (hcf : l0.progress.vp.configs = e.st.ms.effective.mem.configs)
    (hm : KnownO e.st.lv m) (ha : AckBy g e.st.vote.data.leaderId n m) (hq : ExactQ e e')
    (hr : Eng.rhUpdateMatching dbg e l n m = .ok e') : Ext m0 g dv q g0 p e' := by
  unfold Eng.rhUpdateMatching at hr
  simp only [bind_ok, unwrap_ok] at hr
  obtain ⟨_, _, _, _, en, hen, vp, hvp, hr⟩ := hr
  have hem : en.matching = m := by
    unfold Repl.Entry.updateMatching at hen
    obtain ⟨i, _, hen⟩ := bind_ok.1 hen
    obtain ⟨_, _, hen⟩ := bind_ok.1 hen
    rw [← pure_ok.1 hen]
  rw [hem] at hvp
  have hall : vp.All (KnownO e.st.lv) := by
    refine VecProgress.All.update ?_ hm hvp
    rw [h3]; exact (h.pj.lead l0 hl).vp
  have hallP : vp.AllP (AckBy g e.st.vote.data.leaderId) := by
    refine AllP.update ?_ ha hvp
    rw [h3]; exact (hn.ec.lead l0 hl).2
  obtain ⟨l1, hL1⟩ : ∃ l1, l1 = ({ l with progress := ⟨vp, fun k => if k = n then en else l.progress.ent k⟩ } : Engine.Leader) := ⟨_, rfl⟩
  rw [← hL1] at hr
  have hI := Eng.inv_setLeader (l1 := l1) h hl (by rw [hL1]; exact h1) (by rw [hL1]; exact h2) (by rw [hL1]; exact hall)
  have hN : EN g dv q g0 p { e with leader := some l1 } := by
    refine ⟨hn.sq, ?_, hn.id⟩
    refine ⟨?_, ?_, hn.ec.acc, hn.ec.mcom⟩
    · intro x hx
      cases hx
      rw [hL1]
      exact ⟨(hn.ec.lead l0 hl).1, hallP⟩
    · exact hn.ec.cand
  have hlead := leader_rhTryCommit hr
  refine en_rhTryCommit hg hI hN rfl ?_ (gr := vp.granted) hall.2 ?_ hr
  · rw [hL1]
    show vp.configs = _
    rw [(VecProgress.update_vector hvp).1, h3]; exact hcf
  · intro c hc hne
    exact hq l1 c hlead hc hne

theorem en_rhUpdateLocal (hg : GInv m0 g) {e e' : Eng} {l : Engine.Leader} {u : Option LogId}
    (h : EInv g0 e) (hn : EN g dv q g0 p e) (hl : e.leader = some l) (hcf : l.progress.vp.configs = e.st.ms.effective.mem.configs)
    (hu : KnownO e.st.lv u) (ha : AckBy g e.st.vote.data.leaderId q u) (hq : ExactQ e e')
    (hr : Eng.rhUpdateLocal dbg e l u = .ok e') : Ext m0 g dv q g0 p e' := by
  unfold Eng.rhUpdateLocal at hr
  split at hr
  · rw [pure_ok] at hr; subst hr; exact .of hg hn
  · split at hr
    · split at hr
      · rw [pure_ok] at hr; subst hr; exact .of hg hn
      · simp only at hr
        generalize hL : ({ l with progress := { l.progress with ent := _ } } : Engine.Leader) = l2 at hr
        exact en_rhUpdateMatching (l := l2) hg h hn hl (by rw [← hL]) (by rw [← hL]) (by rw [← hL]) hcf hu (by rw [hn.id]; exact ha) hq hr
    · rw [pure_ok] at hr; subst hr; exact .of hg hn

theorem en_rhUpdateProgress (hg : GInv m0 g) {e e' : Eng} {l : Engine.Leader} {n : NodeId} {r : Eng.ReplResult}
    (h : EInv g0 e) (hn : EN g dv q g0 p e) (hl : e.leader = some l) (hcf : l.progress.vp.configs = e.st.ms.effective.mem.configs)
    (hm : ∀ m, r = .matching m → KnownO e.st.lv m) (ha : ∀ m, r = .matching m → AckBy g e.st.vote.data.leaderId n m) (hq : ExactQ e e')
    (hr : Eng.rhUpdateProgress dbg e l n r = .ok e') : Ext m0 g dv q g0 p e' := by
  unfold Eng.rhUpdateProgress at hr
  cases r with
  | matching m =>
    simp only [bind_ok, unwrap_ok, pure_ok] at hr
    obtain ⟨e1, he1, l1, _, hr⟩ := hr
    have hq1 : ExactQ e e1 := by
      intro l' c h1 h2 h3
      have hx := rhTryPurge_com e1 l1
      rw [hr] at hx
      exact hq l' c (hx.2.trans h1) (hx.1.trans h2) (by rw [hx.1]; exact h3)
    have hI := Eng.inv_rhUpdateMatching h hl rfl rfl rfl (hm m rfl) he1
    have := en_rhUpdateMatching hg h hn hl rfl rfl rfl hcf (hm m rfl) (ha m rfl) hq1 he1
    rw [← hr]
    exact this.map ((Eng.vf_rhTryPurge e1 l1).noSave (Eng.emits_rhTryPurge e1 l1)) (rhTryPurge_com e1 l1).1 fun g' hg' hn' => en_rhTryPurge hg' hI hn' l1
  | conflict c =>
    simp only [bind_ok, unwrap_ok, pure_ok] at hr
    obtain ⟨e1, he1, l1, _, hr⟩ := hr
    subst hr
    have hf := Eng.frame_updateConflicting hl he1
    refine .of hg (en_rhTryPurge hg (hf.inv h) (hn.frame hf (emits_out ?_)) _)
    unfold Eng.rhUpdateConflicting at he1
    simp only [bind_ok, pure_ok] at he1
    obtain ⟨_, _, _, _, he1⟩ := he1
    subst he1; rfl
  | failed =>
    simp only [bind_ok, unwrap_ok, pure_ok] at hr
    obtain ⟨e1, he1, l1, _, hr⟩ := hr
    subst hr
    have hf := Eng.frame_failed hl he1
    refine .of hg (en_rhTryPurge hg (hf.inv h) (hn.frame hf (emits_out ?_)) _)
    unfold Eng.rhFailed at he1
    simp only [bind_ok, pure_ok] at he1
    obtain ⟨_, _, he1⟩ := he1
    subst he1; rfl

theorem en_schedulePurge {e e' : Eng} (hn : EN g dv q g0 p e) (hr : e.schedulePurge dbg = .ok e') : EN g dv q g0 p e' := by
  unfold Eng.schedulePurge at hr
  rw [bind_ok] at hr
  obtain ⟨o, _, hr⟩ := hr
  split at hr
  · unfold Eng.updatePurgeUpto at hr
    rw [bind_ok] at hr
    obtain ⟨_, _, hr⟩ := hr
    rw [pure_ok] at hr; subst hr
    exact hn.same rfl rfl rfl rfl rfl rfl rfl
  · rw [pure_ok] at hr; subst hr; exact hn

theorem en_finishBuilding (hg : GInv m0 g) {e e' : Eng} {m : SnapMeta} (h : EInv g0 e) (hn : EN g dv q g0 p e) (hb : Eng.BuiltOk e m)
    (hr : e.finishBuilding dbg m = .ok e') : EN g dv q g0 p e' := by
  unfold Eng.finishBuilding at hr
  have hf : Frame e { e with st := { e.st with io := { e.st.io with building := false } } } :=
    ⟨rfl, rfl, rfl, rfl, fun _ => rfl, rfl, LSame.refl _, [], by simp, by simp⟩
  have h0 := hf.inv h
  have hn0 : EN g dv q g0 p { e with st := { e.st with io := { e.st.io with building := false } } } := hn.same rfl rfl rfl rfl rfl rfl rfl
  unfold Eng.updateSnapshot at hr
  simp only at hr
  split at hr
  · next e1 heq =>
    rw [pure_ok] at hr; subst hr
    split at heq
    · cases heq; exact hn0
    · cases heq
  · next e1 heq =>
    split at heq
    · cases heq
    · next hnn =>
      cases heq
      rw [bind_ok] at hr
      obtain ⟨e2, h2, hr⟩ := hr
      rw [pure_ok] at hr
      subst hr
      have hlt : e.st.snap.lastLogId < m.lastLogId := not_le.1 hnn
      cases hm : m.lastLogId with
      | none => rw [hm] at hlt; exact absurd hlt OptOrd.not_lt_none'
      | some x =>
        obtain ⟨hx1, hx2⟩ := hb hlt x hm
        have hidx : nextIndex e.st.snap.lastLogId ≤ x.index + 1 := by
          cases hs : e.st.snap.lastLogId with
          | none => simp
          | some y =>
            rw [hs, hm] at hlt
            have := (h.lm.log.cons.lt_iff (h.lm.log.snapIn y hs) hx1).1 hlt
            simp; omega
        have h3 := Eng.inv_setSnap (m := m) h0 hm hx1 hidx (by show x.index + 1 ≤ nextIndex e.st.committed; omega)
        have hn3 : EN g dv q g0 p { e with st := { e.st with io := { e.st.io with building := false }, snap := m } } :=
          hn.same rfl rfl rfl rfl rfl rfl rfl
        exact en_tryPurge hg (Eng.inv_schedulePurge h3 h2) (en_schedulePurge hn3 h2)

theorem en_triggerPurge (hg : GInv m0 g) {e e' : Eng} {i : Nat} (h : EInv g0 e) (hn : EN g dv q g0 p e)
    (hr : e.triggerPurge dbg i = .ok e') : EN g dv q g0 p e' := by
  unfold Eng.triggerPurge at hr
  split at hr
  · rw [pure_ok] at hr; subst hr; exact hn
  · next sl hsl =>
    split at hr
    · rw [pure_ok] at hr; subst hr; exact hn
    · simp only [bind_ok, unwrap_ok, pure_ok] at hr
      obtain ⟨id, hid, e1, h1, hr⟩ := hr
      subst hr
      obtain ⟨h2, h3⟩ := (LogIdList.get_iff h.lm.log.sorted).1 hid
      refine en_tryPurge hg (Eng.inv_updatePurgeUpto h h2 (by rw [hsl, h3]; simp only [nextIndex_some]; omega) h1) ?_
      unfold Eng.updatePurgeUpto at h1
      rw [bind_ok] at h1
      obtain ⟨_, _, h1⟩ := h1
      rw [pure_ok] at h1; subst h1
      exact hn.same rfl rfl rfl rfl rfl rfl rfl

end Openraft.Net
