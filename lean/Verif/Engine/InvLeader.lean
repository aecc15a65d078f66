import Verif.Engine.Inv

/-!
# The invariant under the leader's handlers
-/

set_option autoImplicit false

namespace Openraft.Engine
open Openraft.Repl (Panic dassert Inflight)
open Openraft.Cluster (Payload)
open LogIdList

theorem acceptIo_ok {dbg : Bool} {s s' : RState} {x : IOId} (h : s.acceptIo dbg x = .ok s') :
    s' = { s with io := { s.io with prog := { s.io.prog with
      accepted := if s.io.prog.accepted < some x then some x else s.io.prog.accepted } } } := by
  unfold RState.acceptIo at h
  rw [bind_ok] at h
  obtain ⟨_, _, h⟩ := h
  split at h
  · next hlt =>
    rw [bind_ok] at h
    obtain ⟨p, hp, h⟩ := h
    rw [pure_ok] at h
    unfold IOProgress.accept at hp
    rw [bind_ok] at hp
    obtain ⟨_, _, hp⟩ := hp
    rw [pure_ok] at hp
    subst hp; subst h
    rw [if_pos hlt]
  · next hlt =>
    rw [pure_ok] at h
    subst h
    rw [if_neg hlt]

theorem toCommitted_eq {v : Vote} (h : v.committed = true) : v.toCommitted = v := by
  cases v; simp_all [Vote.toCommitted]

namespace Eng

theorem inv_setUpto {g0 : Gh} {e : Eng} {x : LogId} (h : EInv g0 e) (hin : x ∈ e.st.lv.L)
    (hx : x.index + 1 ≤ nextIndex e.st.snap.lastLogId) :
    EInv g0 { e with st := { e.st with purgeUpto := some x } } :=
  ⟨h.lm.state rfl (h.lm.log.setUpto hin hx) ⟨h.lm.mem.eff, h.lm.mem.com, h.lm.mem.ce, h.lm.mem.base1, h.lm.mem.base2⟩,
    h.pj.weaken rfl rfl rfl rfl rfl rfl rfl rfl rfl (fun _ hk => hk)⟩

theorem inv_updatePurgeUpto {g0 : Gh} {dbg : Bool} {e e' : Eng} {x : LogId} (h : EInv g0 e) (hin : x ∈ e.st.lv.L)
    (hx : x.index + 1 ≤ nextIndex e.st.snap.lastLogId) (hr : e.updatePurgeUpto dbg x = .ok e') : EInv g0 e' := by
  unfold updatePurgeUpto at hr
  rw [bind_ok] at hr
  obtain ⟨_, _, hr⟩ := hr
  rw [pure_ok] at hr
  subst hr
  exact inv_setUpto h hin hx

theorem calcPurgeUpto_ok {dbg : Bool} {e : Eng} {x : LogId} (hr : e.calcPurgeUpto dbg = .ok (some x)) :
    LogIdList.get e.st.logIds (nextIndex e.st.snap.lastLogId - e.cfg.maxKeep - 1) = some x ∧
    nextIndex e.st.lastPurged + e.cfg.purgeBatch ≤ nextIndex e.st.snap.lastLogId - e.cfg.maxKeep ∧
    nextIndex e.st.snap.lastLogId - e.cfg.maxKeep ≠ 0 := by
  unfold calcPurgeUpto at hr
  simp only at hr
  split at hr
  · rw [pure_ok] at hr; cases hr
  · next h1 =>
    split at hr
    · rw [bind_ok] at hr
      obtain ⟨_, _, hr⟩ := hr
      rw [pure_ok] at hr; cases hr
    · next h2 =>
      rw [bind_ok] at hr
      obtain ⟨_, _, hr⟩ := hr
      rw [pure_ok] at hr
      exact ⟨hr, by omega, h2⟩

theorem inv_schedulePurge {g0 : Gh} {dbg : Bool} {e e' : Eng} (h : EInv g0 e) (hr : e.schedulePurge dbg = .ok e') :
    EInv g0 e' := by
  unfold schedulePurge at hr
  rw [bind_ok] at hr
  obtain ⟨r, h1, hr⟩ := hr
  split at hr
  · next x =>
    obtain ⟨h2, h3, h4⟩ := calcPurgeUpto_ok h1
    obtain ⟨h5, h6⟩ := (get_iff h.lm.log.sorted).1 h2
    exact inv_updatePurgeUpto h h5 (by omega) hr
  · rw [pure_ok] at hr; subst hr; exact h

theorem inv_rhTryPurge {g0 : Gh} {e : Eng} (h : EInv g0 e) (l : Leader) : EInv g0 (rhTryPurge e l) := by
  unfold rhTryPurge
  split
  · exact h
  · split
    · exact h
    · split
      · exact h
      · exact inv_logPurge h

theorem inv_tryPurge {g0 : Gh} {e : Eng} (h : EInv g0 e) : EInv g0 e.tryPurge := by
  unfold tryPurge
  split
  · exact inv_rhTryPurge h _
  · exact inv_logPurge h

theorem inv_setSnap {g0 : Gh} {e : Eng} {m : SnapMeta} {x : LogId} (h : EInv g0 e) (hm : m.lastLogId = some x)
    (hin : x ∈ e.st.lv.L) (h1 : nextIndex e.st.snap.lastLogId ≤ x.index + 1)
    (h2 : x.index + 1 ≤ nextIndex e.st.committed) : EInv g0 { e with st := { e.st with snap := m } } := by
  have hlv : ({ e.st with snap := m } : RState).lv = { e.st.lv with snap := some x } := by simp [RState.lv, hm]
  refine ⟨h.lm.state rfl ?_ ?_, h.pj.weaken rfl rfl rfl rfl rfl rfl rfl rfl rfl (fun _ hk => hk)⟩
  · show LogJ ({ e.st with snap := m } : RState).lv _
    rw [hlv]; exact h.lm.log.setSnap hin h1 h2
  · exact ⟨h.lm.mem.eff, h.lm.mem.com, h.lm.mem.ce, h.lm.mem.base1, h.lm.mem.base2⟩

/-- the snapshot a builder reports ends at an id of the log that is committed, unless it is not newer
than the one the node has -/
def BuiltOk (e : Eng) (m : SnapMeta) : Prop :=
  e.st.snap.lastLogId < m.lastLogId → ∀ x, m.lastLogId = some x →
    x ∈ expand e.st.logIds ∧ x.index < nextIndex e.st.committed

theorem inv_finishBuilding {g0 : Gh} {dbg : Bool} {e e' : Eng} {m : SnapMeta} (h : EInv g0 e) (hb : BuiltOk e m)
    (hr : e.finishBuilding dbg m = .ok e') : EInv g0 e' := by
  unfold finishBuilding at hr
  have hf : Frame e { e with st := { e.st with io := { e.st.io with building := false } } } :=
    ⟨rfl, rfl, rfl, rfl, fun _ => rfl, rfl, LSame.refl _, [], by simp, by simp⟩
  have h0 := hf.inv h
  unfold updateSnapshot at hr
  simp only at hr
  split at hr
  · next e1 heq =>
    rw [pure_ok] at hr; subst hr
    split at heq
    · cases heq; exact h0
    · cases heq
  · next e1 heq =>
    split at heq
    · cases heq
    · next hn =>
      cases heq
      rw [bind_ok] at hr
      obtain ⟨e2, h2, hr⟩ := hr
      rw [pure_ok] at hr
      subst hr
      have hlt : e.st.snap.lastLogId < m.lastLogId := not_le.1 hn
      cases hm : m.lastLogId with
      | none => rw [hm] at hlt; exact absurd hlt OptOrd.not_lt_none'
      | some x =>
        obtain ⟨hx1, hx2⟩ := hb hlt x hm
        have hidx : nextIndex e.st.snap.lastLogId ≤ x.index + 1 := by
          cases hs : e.st.snap.lastLogId with
          | none => simp
          | some y =>
            rw [hs, hm] at hlt
            have := (h.lm.log.cons.lt_iff (h.lm.log.snapIn y hs) hx1).1 hlt
            simp; omega
        have h3 := inv_setSnap (m := m) h0 hm hx1 hidx (by show x.index + 1 ≤ nextIndex e.st.committed; omega)
        exact inv_tryPurge (inv_schedulePurge h3 h2)

theorem inv_triggerPurge {g0 : Gh} {dbg : Bool} {e e' : Eng} {i : Nat} (h : EInv g0 e)
    (hr : e.triggerPurge dbg i = .ok e') : EInv g0 e' := by
  unfold triggerPurge at hr
  split at hr
  · rw [pure_ok] at hr; subst hr; exact h
  · next sl hsl =>
    split at hr
    · rw [pure_ok] at hr; subst hr; exact h
    · simp only [bind_ok, unwrap_ok, pure_ok] at hr
      obtain ⟨id, hid, e1, h1, hr⟩ := hr
      subst hr
      obtain ⟨h2, h3⟩ := (get_iff h.lm.log.sorted).1 hid
      exact inv_tryPurge (inv_updatePurgeUpto h h2 (by rw [hsl, h3]; simp only [nextIndex_some]; omega) h1)

/-! ## Commit on the leader -/

theorem inv_commit {g0 : Gh} {e e' : Eng} {c : LogId} {dbg : Bool} {ms' : MemState} (cs : List Cmd) (h : EInv g0 e)
    (hin : c ∈ e.st.lv.L) (hlt : e.st.committed < some c)
    (hm : RState.MemState.commit dbg e.st.ms (some c) = .ok ms')
    (hcs : ∀ x ∈ cs, x.inert = true)
    (he : e' = { e with st := { e.st with committed := some c, ms := ms' },
                        out := e.out ++ cs ++ [.saveCommitted c, .apply e.st.committed c] }) : EInv g0 e' := by
  subst he
  have hidx := h.lm.log.index_of_lt hin hlt
  have hj := h.lm.log.commit hin hidx
  have hmj := h.lm.mem.commit h.lm.log hin (prev := e.st.committed) hidx hm
  have hg : g0.runs (e.out ++ cs ++ [.saveCommitted c, .apply e.st.committed c]) =
      (g0.runs e.out).run (.apply e.st.committed c) := by
    rw [List.append_assoc, Gh.runs_append, Gh.runs_append, (Gh.runs_inert hcs).1]; rfl
  have hef : ms'.effective = e.st.ms.effective := by
    unfold RState.MemState.commit at hm
    split at hm
    · rw [bind_ok] at hm
      obtain ⟨_, _, hm⟩ := hm
      rw [pure_ok] at hm; subst hm; rfl
    · rw [pure_ok] at hm; subst hm; rfl
  refine ⟨⟨?_, ?_, ?_⟩, ?_⟩
  · show g0.Oks (e.out ++ cs ++ [.saveCommitted c, .apply e.st.committed c])
    rw [List.append_assoc, Gh.oks_append, Gh.oks_append, (Gh.runs_inert hcs).1]
    exact ⟨h.lm.oks, (Gh.runs_inert hcs).2, hj.2.2, hj.2.1, trivial⟩
  · show LogJ _ (g0.runs (e.out ++ cs ++ [.saveCommitted c, .apply e.st.committed c]))
    rw [hg]; exact hj.1
  · show MemJ _ _ (g0.runs (e.out ++ cs ++ [.saveCommitted c, .apply e.st.committed c]))
    rw [hg]; exact hmj
  · refine h.pj.weaken ?_ rfl rfl rfl hef rfl rfl rfl rfl ?_
    · show (g0.runs (e.out ++ cs ++ [.saveCommitted c, .apply e.st.committed c])).vote = _
      rw [hg]; rfl
    · intro x hx
      rcases hx with hx | hx
      · exact Or.inl hx
      · exact Or.inr (le_trans hx (le_of_lt hlt))

theorem inv_rhTryCommit {g0 : Gh} {dbg : Bool} {e e' : Eng} {gr : Option LogId} (h : EInv g0 e)
    (hk : KnownO e.st.lv gr) (hr : rhTryCommit dbg e gr = .ok e') : EInv g0 e' := by
  unfold rhTryCommit at hr
  split at hr
  · rw [pure_ok] at hr; subst hr; exact h
  · next c =>
    split at hr
    · rw [bind_ok] at hr
      obtain ⟨⟨ch, st⟩, h1, hr⟩ := hr
      simp only at hr
      unfold RState.updateCommitted at h1
      split at h1
      · next hlt =>
        rw [bind_ok] at h1
        obtain ⟨ms', h2, h1⟩ := h1
        rw [pure_ok] at h1
        cases h1
        rw [if_pos rfl, pure_ok] at hr
        subst hr
        have hin : c ∈ e.st.lv.L := by
          rcases hk c rfl with hx | hx
          · exact hx
          · exact absurd hlt (not_lt.2 hx)
        refine (frame_maybeSnapshot _).inv (inv_commit [.replCommitted (some c)] h hin hlt h2 (by simp [Cmd.inert]) ?_)
        simp [Eng.push]
      · rw [pure_ok] at h1
        cases h1
        rw [if_neg (by simp), pure_ok] at hr
        subst hr; exact h
    · rw [pure_ok] at hr; subst hr; exact h

theorem inv_setLeader {g0 : Gh} {e : Eng} {l l1 : Leader} (h : EInv g0 e) (hl : e.leader = some l)
    (h1 : l1.vote = l.vote) (h2 : l1.lastLogId = l.lastLogId) (h3 : l1.progress.vp.All (KnownO e.st.lv)) :
    EInv g0 { e with leader := some l1 } := by
  have hk := h.pj.lead l hl
  refine ⟨h.lm.state rfl h.lm.log h.lm.mem, ⟨h.pj.gv, h.pj.acc, ?_, ?_, ?_⟩⟩
  · intro l' hl'; cases hl'
    exact ⟨h1.trans hk.vote, hk.com, hk.node, h2.trans hk.last, h3, hk.srv⟩
  · intro c hc
    have := (h.pj.cand c hc).nl
    rw [hl] at this; cases this
  · intro hn; cases hn

theorem inv_rhUpdateMatching {g0 : Gh} {dbg : Bool} {e e' : Eng} {l l0 : Leader} {n : NodeId} {m : Option LogId}
    (h : EInv g0 e) (hl : e.leader = some l0) (h1 : l.vote = l0.vote) (h2 : l.lastLogId = l0.lastLogId)
    (h3 : l.progress.vp = l0.progress.vp) (hm : KnownO e.st.lv m)
    (hr : rhUpdateMatching dbg e l n m = .ok e') : EInv g0 e' := by
  unfold rhUpdateMatching at hr
  simp only [bind_ok, unwrap_ok] at hr
  obtain ⟨_, _, _, _, en, hen, vp, hvp, hr⟩ := hr
  have hem : en.matching = m := by
    unfold Repl.Entry.updateMatching at hen
    obtain ⟨i, _, hen⟩ := bind_ok.1 hen
    obtain ⟨_, _, hen⟩ := bind_ok.1 hen
    rw [← pure_ok.1 hen]
  rw [hem] at hvp
  have hall : vp.All (KnownO e.st.lv) := by
    refine VecProgress.All.update ?_ hm hvp
    rw [h3]; exact (h.pj.lead l0 hl).vp
  exact inv_rhTryCommit (inv_setLeader (l1 := { l with progress := ⟨vp, fun k => if k = n then en else l.progress.ent k⟩ }) h hl h1 h2 hall) hall.2 hr

theorem inv_rhUpdateProgress {g0 : Gh} {dbg : Bool} {e e' : Eng} {l : Leader} {n : NodeId} {r : ReplResult}
    (h : EInv g0 e) (hl : e.leader = some l) (hm : ∀ m, r = .matching m → KnownO e.st.lv m)
    (hr : rhUpdateProgress dbg e l n r = .ok e') : EInv g0 e' := by
  unfold rhUpdateProgress at hr
  cases r with
  | matching m =>
    simp only [bind_ok, unwrap_ok, pure_ok] at hr
    obtain ⟨e1, he1, l1, _, hr⟩ := hr
    subst hr
    exact inv_rhTryPurge (inv_rhUpdateMatching h hl rfl rfl rfl (hm m rfl) he1) _
  | conflict c =>
    simp only [bind_ok, unwrap_ok, pure_ok] at hr
    obtain ⟨e1, he1, l1, _, hr⟩ := hr
    subst hr
    exact inv_rhTryPurge ((frame_updateConflicting hl he1).inv h) _
  | failed =>
    simp only [bind_ok, unwrap_ok, pure_ok] at hr
    obtain ⟨e1, he1, l1, _, hr⟩ := hr
    subst hr
    exact inv_rhTryPurge ((frame_failed hl he1).inv h) _

theorem inv_rhUpdateLocal {g0 : Gh} {dbg : Bool} {e e' : Eng} {l : Leader} {u : Option LogId}
    (h : EInv g0 e) (hl : e.leader = some l) (hu : KnownO e.st.lv u)
    (hr : rhUpdateLocal dbg e l u = .ok e') : EInv g0 e' := by
  unfold rhUpdateLocal at hr
  split at hr
  · rw [pure_ok] at hr; subst hr; exact h
  · split at hr
    · split at hr
      · rw [pure_ok] at hr; subst hr; exact h
      · simp only at hr
        generalize hL : ({ l with progress := { l.progress with ent := _ } } : Leader) = l2 at hr
        exact inv_rhUpdateMatching (l := l2) h hl (by rw [← hL]) (by rw [← hL]) (by rw [← hL]) hu hr
    · rw [pure_ok] at hr; subst hr; exact h

/-! ## The leader appends -/

/-- what appending one entry under the leader's own vote does -/
theorem inv_appendCore {g0 : Gh} {e e' : Eng} {l l' : Leader} {p : Payload} {ks : LogIdList} {ms' : MemState}
    (h : EInv g0 e) (hl : e.leader = some l)
    (hks : expand ks = e.st.lv.L ++ [⟨l.vote.leaderId, nextIndex l.lastLogId⟩]) (hs : SortedIdx ks)
    (hcfg : e'.cfg = e.cfg)
    (hst : e'.st.lv = { e.st.lv with logIds := ks }) (hsv : e'.st.server = e.st.server)
    (hacc : e'.st.io.prog.accepted = e.st.io.prog.accepted ∨
      e'.st.io.prog.accepted = some (IOId.newLog l.vote (some ⟨l.vote.leaderId, nextIndex l.lastLogId⟩)))
    (hms : e'.st.ms = ms')
    (hmj : LogV.lastPurged { e.st.lv with logIds := ks } = e.st.lv.lastPurged →
      MemJ ms' { e.st.lv with logIds := ks }
        ((g0.runs e.out).run (.append l.vote [⟨⟨l.vote.leaderId, nextIndex l.lastLogId⟩, p⟩])))
    (hl' : e'.leader = some l') (h1 : l'.vote = l.vote)
    (h2 : l'.lastLogId = some ⟨l.vote.leaderId, nextIndex l.lastLogId⟩)
    (h3 : l'.progress.vp.All (KnownO e.st.lv)) (hcd : e'.candidate = e.candidate)
    (ho : e'.out = e.out ++ [.append l.vote [⟨⟨l.vote.leaderId, nextIndex l.lastLogId⟩, p⟩]]) : EInv g0 e' := by
  have hk := h.pj.lead l hl
  have hlast : nextIndex l.lastLogId = nextIndex e.st.lv.last := by rw [hk.last]; rfl
  have hap := h.lm.log.append (es := [⟨⟨l.vote.leaderId, nextIndex l.lastLogId⟩, p⟩]) (w := l.vote) (ks := ks)
    (by simp) (by intro x hx; simp at hx; subst hx; exact hlast) (by simp [Cons])
    (by
      intro a x ha hx; simp at hx; subst hx
      show a.leaderId ≤ l.vote.leaderId
      rw [hk.vote]; exact h.lm.log.bound a (h.lm.log.last_mem ha))
    (by intro x hx; simp at hx; subst hx; rw [hk.vote]; exact le_refl _)
    (by intro x hx; simp at hx; subst hx; exact le_refl _) hks hs
  have hpur : LogV.lastPurged { e.st.lv with logIds := ks } = e.st.lv.lastPurged := by
    rw [← hap.1.stp, ← h.lm.log.stp]; rfl
  have hsub : ∀ x, Known e.st.lv x → Known e'.st.lv x := by
    intro x hx
    rw [hst]
    rcases hx with hx | hx
    · left; show x ∈ expand ks; rw [hks]; exact List.mem_append_left _ hx
    · exact Or.inr hx
  have hv : e'.st.vote.data = e.st.vote.data := congrArg LogV.vote hst
  have hnew : (⟨l.vote.leaderId, nextIndex l.lastLogId⟩ : LogId) ∈ expand ks := by rw [hks]; simp
  refine ⟨h.lm.push ho ?_ ?_ hap.2, ?_⟩
  · rw [hst]; exact hap.1
  · rw [hst, hms]; exact hmj hpur
  · rw [ho, Gh.runs_snoc]
    refine ⟨by rw [hv]; exact h.pj.gv, ?_, ?_, ?_, ?_⟩
    · rcases hacc with ha | ha
      · obtain ⟨a, ha1, ha2, ha3⟩ := h.pj.acc
        exact ⟨a, by rw [ha]; exact ha1, by rw [hv]; exact ha2, fun x hx => hsub x (ha3 x hx)⟩
      · refine ⟨_, ha, ?_, ?_⟩
        · show l.vote.toCommitted = _
          rw [toCommitted_eq (by rw [hk.vote]; exact hk.com), hv, hk.vote]
        · intro x hx; cases hx
          left; rw [hst]; exact hnew
    · intro l2 hl2
      rw [hl'] at hl2; cases hl2
      refine ⟨by rw [h1, hv]; exact hk.vote, by rw [hv]; exact hk.com, by rw [hv, hcfg]; exact hk.node, ?_,
        ⟨fun p hp x hx => hsub x (h3.1 p hp x hx), fun x hx => hsub x (h3.2 x hx)⟩, by rw [hsv]; exact hk.srv⟩
      rw [h2]
      show _ = LogV.last e'.st.lv
      rw [hst]
      show _ = List.getLast? ks
      rw [← Props.expand_getLast?, hks]; simp
    · intro c hc
      rw [hcd] at hc
      have := (h.pj.cand c hc).nl
      rw [hl] at this; cases this
    · intro hn; rw [hl'] at hn; cases hn

theorem assign_single (lid : LeaderId) (n : Nat) (p : Payload) : assign lid n [p] = [⟨⟨lid, n⟩, p⟩] := rfl

theorem stored?_single (id : LogId) (p : Payload) :
    ([(⟨id, p⟩ : Ent)].filterMap (·.stored?)) = match p with
      | .membership m => [⟨some id, m⟩]
      | _ => [] := by
  cases p <;> rfl

theorem inv_lhAppend {g0 : Gh} {dbg : Bool} {e e' : Eng} {l : Leader} {p : Payload} (h : EInv g0 e)
    (hl : e.leader = some l) (hr : lhAppend dbg e l [p] = .ok e') : EInv g0 e' ∧ e'.leader.isSome := by
  unfold lhAppend at hr
  rw [if_neg (by simp)] at hr
  simp only [bind_ok, unwrap_ok, assign_single] at hr
  obtain ⟨_, _, ids, hids, _, _, st, hst, e2, he2, l2, hl2, hr⟩ := hr
  have hk := h.pj.lead l hl
  have hlast : nextIndex l.lastLogId = nextIndex e.st.lv.last := by rw [hk.last]; rfl
  obtain ⟨ks', hx1, hx2, hx3⟩ := expand_extendFromSameLeader (new := [⟨l.vote.leaderId, nextIndex l.lastLogId⟩])
    h.lm.log.sorted
    (by intro _ i hi; simp at hi; subst hi; simp; exact hlast)
    (by intro x hx i hi; simp at hx hi; subst hi; subst hx; simp)
    (by intro x hx y hy; simp at hx hy; subst hx; subst hy; rfl)
  have hkk : ks' = ids := by
    have : extendFromSameLeader e.st.logIds [⟨l.vote.leaderId, nextIndex l.lastLogId⟩] = some ids := by
      simpa using hids
    have h2 : extendFromSameLeader e.st.logIds [⟨l.vote.leaderId, nextIndex l.lastLogId⟩] = some ks' := hx1
    rw [this] at h2; exact (Option.some.inj h2).symm
  subst hkk
  have hst := acceptIo_ok hst
  have hacc : st.io.prog.accepted = e.st.io.prog.accepted ∨
      st.io.prog.accepted = some (IOId.newLog l.vote (some ⟨l.vote.leaderId, nextIndex l.lastLogId⟩)) := by
    rw [hst]
    show (if _ then _ else _) = _ ∨ (if _ then _ else _) = _
    by_cases hc : e.st.io.prog.accepted <
        some (IOId.newLog l.vote (some ⟨l.vote.leaderId, nextIndex l.lastLogId⟩))
    · right; exact if_pos hc
    · left; exact if_neg hc
  -- the state after the membership part
  have hmain : EInv g0 e2 ∧ e2.leader.isSome := by
    rw [stored?_single] at he2
    cases p with
    | membership m =>
      simp only [List.getLast?_singleton, lhMembership, rhAppendMembership, bind_ok, unwrap_ok] at he2
      obtain ⟨_, _, _, _, ms, hms, l3, hl3, hr3⟩ := he2
      refine ⟨?_, ?_⟩
      swap
      · unfold rhInitiate at hr3
        rw [bind_ok] at hr3
        obtain ⟨⟨a, b⟩, _, hr3⟩ := hr3
        rw [pure_ok] at hr3; subst hr3; rfl
      have hf1 := frame_rhInitiate (by rw [hl3]; exact LSame.refl _) hr3
      refine hf1.inv ?_
      -- strip the rebuild command
      obtain ⟨e1, hE1⟩ : ∃ e1, e1 = (Eng.push { e with st := st, leader := some { l with lastLogId := some ⟨l.vote.leaderId, nextIndex l.lastLogId⟩ } }
        (.append l.vote [⟨⟨l.vote.leaderId, nextIndex l.lastLogId⟩, .membership m⟩])) := ⟨_, rfl⟩
      have hE1 := hE1.symm
      rw [show (Eng.push { e with st := st, leader := some { l with lastLogId := Option.map (fun x : Ent => x.id) (some ⟨⟨l.vote.leaderId, nextIndex l.lastLogId⟩, .membership m⟩) } }
        (.append l.vote [⟨⟨l.vote.leaderId, nextIndex l.lastLogId⟩, .membership m⟩])) = e1 from hE1] at *
      have hms' : ms = ⟨e.st.ms.effective, ⟨some ⟨l.vote.leaderId, nextIndex l.lastLogId⟩, m⟩⟩ := by
        unfold RState.MemState.append at hms
        obtain ⟨_, _, hms⟩ := bind_ok.1 hms
        obtain ⟨_, _, hms⟩ := bind_ok.1 hms
        rw [← pure_ok.1 hms, ← hE1]
        show MemState.mk st.ms.effective _ = _
        rw [hst]
      let l1 : Leader := { l with lastLogId := some ⟨l.vote.leaderId, nextIndex l.lastLogId⟩ }
      let e1' : Eng := { e1 with st := { e1.st with ms := ms } }
      let lr := rhRebuildProgresses e1' l1
      have hcore : EInv g0 { e1' with leader := some lr } := by
        refine inv_appendCore (p := .membership m) (ks := ks') (ms' := ms) (l' := lr) h hl hx2 hx3 ?_ ?_ ?_ ?_ rfl ?_ rfl rfl rfl ?_ ?_ ?_
        · show e1.cfg = _; rw [← hE1]; rfl
        · show RState.lv { e1.st with ms := ms } = _
          rw [← hE1]; show RState.lv { st with ms := ms } = _; rw [hst]; rfl
        · show e1.st.server = _; rw [← hE1]; show st.server = _; rw [hst]
        · show e1.st.io.prog.accepted = _ ∨ e1.st.io.prog.accepted = _
          rw [← hE1]; exact hacc
        · intro hp
          have hmm := h.lm.mem.append_some (w := l.vote)
            (es := [⟨⟨l.vote.leaderId, nextIndex l.lastLogId⟩, .membership m⟩]) (ks := ks') (dbg := false)
            (ms' := ⟨e.st.ms.effective, ⟨some ⟨l.vote.leaderId, nextIndex l.lastLogId⟩, m⟩⟩) hp
            (by intro x hx; simp at hx; subst hx
                show _ ≤ nextIndex l.lastLogId
                rw [hlast]; exact h.lm.log.com_le_last)
            (by simp [lastTwo, Ent.stored?, Ent.membership?, appendMems, RState.MemState.append, dassert, bind, Except.bind, pure, Except.pure])
          rw [hms']; exact hmm
        · show (VecProgress.upgrade _ _ _ _).All _
          exact VecProgress.All.upgrade hk.vp _ _ KnownO.none
        · show e1.candidate = _; rw [← hE1]; rfl
        · show e1.out = _; rw [← hE1]; rfl
      have hf2 : Frame { e1' with leader := some lr } (rhRebuildStreams e1' lr) := by
        have := frame_rhRebuildStreams (e := { e1' with leader := some lr }) (l := lr) (LSame.refl _)
        exact this
      exact hf2.inv hcore
    | blank =>
      simp only [List.getLast?_nil, lhMembership] at he2
      rw [pure_ok] at he2
      subst he2
      refine ⟨?_, rfl⟩
      refine inv_appendCore (p := .blank) (ks := ks') (ms' := e.st.ms) (l' := { l with lastLogId := some ⟨l.vote.leaderId, nextIndex l.lastLogId⟩ }) h hl hx2 hx3 rfl ?_ ?_ hacc ?_ ?_ ?_ rfl rfl hk.vp rfl rfl
      · show RState.lv st = _; rw [hst]; rfl
      · show st.server = _; rw [hst]
      · show st.ms = _; rw [hst]
      · intro hp; exact h.lm.mem.append_none (by rfl) hp
      · rfl
    | normal d =>
      simp only [List.getLast?_nil, lhMembership] at he2
      rw [pure_ok] at he2
      subst he2
      refine ⟨?_, rfl⟩
      refine inv_appendCore (p := .normal d) (ks := ks') (ms' := e.st.ms) (l' := { l with lastLogId := some ⟨l.vote.leaderId, nextIndex l.lastLogId⟩ }) h hl hx2 hx3 rfl ?_ ?_ hacc ?_ ?_ ?_ rfl rfl hk.vp rfl rfl
      · show RState.lv st = _; rw [hst]; rfl
      · show st.server = _; rw [hst]
      · show st.ms = _; rw [hst]
      · intro hp; exact h.lm.mem.append_none (by rfl) hp
      · rfl
  have hf := frame_rhInitiate (by rw [hl2]; exact LSame.refl _) hr
  refine ⟨hf.inv hmain.1, ?_⟩
  have := hf.lead
  cases hx : e'.leader with
  | none => rw [hx, hl2] at this; exact this.elim
  | some _ => rfl

end Eng
end Openraft.Engine
