import Verif.Engine.Safe

/-!
# No input aborts a release build

`InputSafe` says what an input must not do beyond `InputOk`; then every input is handled, and leader and candidate still fit
the membership.
-/

set_option autoImplicit false

namespace Openraft.Engine
open Openraft.Repl (Panic dassert Inflight)
open Openraft.Cluster (Payload)
open LogIdList
open VecProgress (ids)

namespace Eng
variable {e : Eng} {l : Leader} {now : Nat}

theorem rhInitiate_st {dbg : Bool} {e' : Eng} (h : e.rhInitiate dbg l = .ok e') : e'.st = e.st := by
  unfold rhInitiate at h
  rw [bind_ok] at h
  obtain ⟨_, _, h⟩ := h
  rw [pure_ok] at h; subst h; rfl

theorem g_lhAppend {g : Gh} (hJ : LogJ e.st.lv g) (h : Ln e) (hc : e.candidate = none) (hl : Lined e.st.ms.effective.mem l)
    (hlast : l.lastLogId = e.st.lastLogId) (hv : l.vote.leaderId = e.st.vote.data.leaderId) (p : Payload) :
    G id (e.lhAppend false l [p]) := by
  unfold lhAppend
  rw [if_neg (by simp)]
  simp only [assign_single]
  have hnx : nextIndex l.lastLogId = nextIndex e.st.lv.last := by rw [hlast]; rfl
  obtain ⟨ks, hx1, hx2, hx3⟩ := expand_extendFromSameLeader (new := [⟨l.vote.leaderId, nextIndex l.lastLogId⟩])
    hJ.sorted
    (by intro _ i hi; simp at hi; subst hi; simp; exact hnx)
    (by intro x hx i hi; simp at hx hi; subst hi; subst hx; simp)
    (by intro x hx y hy; simp at hx hy; subst hx; subst hy; rfl)
  have hap := hJ.append (es := [⟨⟨l.vote.leaderId, nextIndex l.lastLogId⟩, p⟩]) (w := l.vote) (ks := ks)
    (by simp) (by intro x hx; simp at hx; subst hx; exact hnx) (by simp [Cons])
    (by
      intro a x ha hx; simp at hx; subst hx
      show a.leaderId ≤ l.vote.leaderId
      rw [hv]; exact hJ.bound a (hJ.last_mem ha))
    (by intro x hx; simp at hx; subst hx; show l.vote.leaderId ≤ _; rw [hv]; exact le_refl _)
    (by intro x hx; simp at hx; subst hx; exact le_refl _) hx2 hx3
  refine G.bind (Tot.dassert _) fun _ _ => G.bind (Tot.unwrap (a := ks) hx1) fun ids hids => G.bind (Tot.dassert _) fun _ _ =>
    G.bind (RState.tot_acceptIo _) fun st hst => ?_
  have hids' : ids = ks := by
    have h1 := unwrap_some hids
    have h2 : extendFromSameLeader e.st.logIds [⟨l.vote.leaderId, nextIndex l.lastLogId⟩] = some ids := by simpa using h1
    have h3 : extendFromSameLeader e.st.logIds [⟨l.vote.leaderId, nextIndex l.lastLogId⟩] = some ks := hx1
    rw [h2] at h3; exact Option.some.inj h3
  subst hids'
  have hms := congrArg (·.effective) (acceptIo_ms hst).1
  have hlv : st.lv = { e.st.lv with logIds := ids } := by rw [acceptIo_ok hst]; rfl
  obtain ⟨g', hJ'⟩ : ∃ g', LogJ st.lv g' := ⟨_, by rw [hlv]; exact hap.1⟩
  have hlast' : some ⟨l.vote.leaderId, nextIndex l.lastLogId⟩ = st.lastLogId := by
    show _ = LogV.last st.lv
    rw [hlv]
    show _ = List.getLast? ids
    rw [← Props.expand_getLast?, hx2]; simp
  obtain ⟨l1, hl1⟩ : ∃ l1 : Leader, l1 = { l with lastLogId := some ⟨l.vote.leaderId, nextIndex l.lastLogId⟩ } := ⟨_, rfl⟩
  have hl1' : Lined e.st.ms.effective.mem l1 := by
    rw [hl1]
    exact ⟨hl.prog, hl.clock, fun n => (hl.ent n).mono (by show nextIndex l.lastLogId ≤ nextIndex l.lastLogId + 1; omega)⟩
  have hlastl : l1.lastLogId = st.lastLogId := by rw [hl1]; exact hlast'
  simp only [List.getLast?_singleton, Option.map_some]
  rw [← hl1]
  obtain ⟨e1, hE1⟩ : ∃ e1, e1 = (Eng.push { e with st := st, leader := some l1 }
        (.append l.vote [⟨⟨l.vote.leaderId, nextIndex l.lastLogId⟩, p⟩])) := ⟨_, rfl⟩
  rw [← hE1]
  have hst1 : e1.st = st := by rw [hE1]; rfl
  have hle1 : e1.leader = some l1 := by rw [hE1]; rfl
  have hc1 : e1.candidate = none := by rw [hE1]; exact hc
  have hL1 : Ln e1 := by
    refine ⟨?_, fun c hx => (by rw [hc1] at hx; cases hx)⟩
    intro x hx
    rw [hle1] at hx; cases hx
    rw [hst1, show st.ms.effective = e.st.ms.effective from hms]; exact hl1'
  have hmem : ∀ m, ∃ e2, lhMembership false e1 l1 m = .ok e2 ∧ Ln e2 ∧ e2.st.lv = st.lv ∧ ∃ l2, e2.leader = some l2 ∧ l2.lastLogId = st.lastLogId := by
    intro m
    unfold lhMembership
    split
    · obtain ⟨e2, h2, k2⟩ := g_rhAppendMembership (e := e1) (l := l1) (i := ‹_›) (m := ‹_›) (by rw [hst1]; exact hJ') hc1 hl1'.ent (by rw [hst1]; exact hlastl)
      refine ⟨e2, h2, k2, ?_⟩
      unfold rhAppendMembership at h2
      simp only [bind_ok] at h2
      obtain ⟨_, _, _, _, ms, _, l2, hl2, h2⟩ := h2
      unfold rhInitiate at h2
      rw [bind_ok] at h2
      obtain ⟨q, hq, h2⟩ := h2
      rw [pure_ok] at h2; subst h2
      have hl2 := unwrap_some hl2
      refine ⟨by rw [← hst1]; rfl, _, rfl, ?_⟩
      cases hl2
      exact hlastl
    · exact ⟨e1, rfl, hL1, by rw [hst1], l1, hle1, hlastl⟩
  obtain ⟨e2, h2, k2, k3, l2, k4, k5⟩ := hmem ([(⟨⟨l.vote.leaderId, nextIndex l.lastLogId⟩, p⟩ : Ent)].filterMap (·.stored?)).getLast?
  refine G.bind ⟨e2, h2⟩ fun e2' h2' => ?_
  rw [h2] at h2'; cases h2'
  refine G.bind (Tot.unwrap k4) fun l2' hl2' => ?_
  rw [k4] at hl2'; cases hl2'
  exact g_rhInitiate (by rw [k3]; exact hJ') k2 (k2.lead _ k4) (by rw [k5]; exact (congrArg LogV.last k3).symm)

/-- after an append the log is not empty -/
theorem lhAppend_last {g : Gh} {dbg : Bool} {e' : Eng} {p : Payload} (hJ : LogJ e.st.lv g) (hlast : l.lastLogId = e.st.lastLogId)
    (hr : e.lhAppend dbg l [p] = .ok e') : e'.st.lastLogId.isSome = true := by
  unfold lhAppend at hr
  rw [if_neg (by simp)] at hr
  simp only [bind_ok, unwrap_ok, assign_single] at hr
  obtain ⟨_, _, ids, hids, _, _, st, hst, e2, he2, l2, hl2, hr⟩ := hr
  have hnx : nextIndex l.lastLogId = nextIndex e.st.lv.last := by rw [hlast]; rfl
  obtain ⟨ks, hx1, hx2, _⟩ := expand_extendFromSameLeader (new := [⟨l.vote.leaderId, nextIndex l.lastLogId⟩])
    hJ.sorted
    (by intro _ i hi; simp at hi; subst hi; simp; exact hnx)
    (by intro x hx i hi; simp at hx hi; subst hi; subst hx; simp)
    (by intro x hx y hy; simp at hx hy; subst hx; subst hy; rfl)
  have hids' : ids = ks := by
    have h3 : extendFromSameLeader e.st.logIds [⟨l.vote.leaderId, nextIndex l.lastLogId⟩] = some ks := hx1
    have h2 : extendFromSameLeader e.st.logIds [⟨l.vote.leaderId, nextIndex l.lastLogId⟩] = some ids := by simpa using hids
    rw [h2] at h3; exact Option.some.inj h3
  have hk : e2.st.logIds = st.logIds := by
    unfold lhMembership at he2
    split at he2
    · unfold rhAppendMembership at he2
      simp only [bind_ok] at he2
      obtain ⟨_, _, _, _, ms, _, l3, _, he2⟩ := he2
      rw [rhInitiate_st he2]; rfl
    · rw [pure_ok] at he2; subst he2; rfl
  rw [rhInitiate_st hr]
  show (List.getLast? e2.st.logIds).isSome = true
  have : st.logIds = ids := by rw [acceptIo_ok hst]
  rw [hk, this, hids', ← Props.expand_getLast?, hx2]; simp

/-! ## Roles -/

theorem lined_new {v : Vote} {m : Membership} {is : List LogId} (hr : Leader.new false now v m is = .ok l) : Lined m l := by
  unfold Leader.new at hr
  simp only [bind_ok, pure_ok] at hr
  obtain ⟨_, _, _, _, rfl⟩ := hr
  refine ⟨?_, ?_, ?_⟩
  · show Covers m (ids (VecProgress.new m.configs m.learnerIds none).vector)
    rw [VecProgress.new_ids]; exact covers_joint m
  · show Covers m (ids (VecProgress.new m.configs m.learnerIds none).vector)
    rw [VecProgress.new_ids]; exact covers_joint m
  · intro n; exact EntOk.empty (Nat.le_refl _)

theorem tot_leaderNew (v : Vote) (m : Membership) (is : List LogId) : Tot (Leader.new false now v m is) := by
  unfold Leader.new
  exact Tot.bind (Tot.dassert _) fun _ _ => Tot.bind (Tot.dassert _) fun _ _ => Tot.pure _

theorem g_startup {g0 : Gh} (h : StartOk g0 e) : G id (e.startup false now) := by
  unfold startup
  split
  · next hil =>
    unfold updateInternal
    rw [if_pos hil]
    unfold becomeLeader
    rw [h.leader]
    simp only
    unfold becomeNewLeader
    refine G.bind (tot_leaderNew _ _ _) fun l hl => G.bind (RState.tot_acceptIo _) fun st hst => ?_
    have hln := lined_new hl
    obtain ⟨hv, hlast, hvp⟩ := newLeader_ok hl
    rw [byLastLeader_last] at hlast
    have hms := congrArg (·.effective) (acceptIo_ms hst).1
    have hlv : st.lv = e.st.lv := by rw [acceptIo_ok hst]; rfl
    obtain ⟨e1, he1⟩ : ∃ e1, e1 = updateServerState (Eng.push { e with st := st, leader := some l }
      (.updateIO none (IOId.newLog l.vote l.lastLogId))) := ⟨_, rfl⟩
    dsimp only
    rw [← he1]
    have hlv1 : e1.st.lv = e.st.lv := by rw [he1]; exact hlv
    have heff : e1.st.ms.effective = e.st.ms.effective := by rw [he1]; exact hms
    have hln1 : Lined e1.st.ms.effective.mem l := by rw [heff]; exact hln
    obtain ⟨l', k1, k2, k3, k4⟩ := lined_rebuild (e := e1) hln1
    have hn : Ln (rhRebuildStreams e1 l) := by
      refine ⟨?_, ?_⟩
      · intro x hx; rw [k1] at hx; cases hx; exact k2
      · intro c hc
        have : e1.candidate = e.candidate := by rw [he1]; rfl
        have hc : e1.candidate = some c := hc
        rw [this, h.cand] at hc; cases hc
    refine G.bind (Tot.unwrap k1) fun l2 hl2 => ?_
    rw [k1] at hl2; cases hl2
    have hJ : LogJ (rhRebuildStreams e1 l).st.lv (g0.runs e.out) := by
      show LogJ e1.st.lv _; rw [hlv1]; exact h.lm.log
    have hla : l'.lastLogId = (rhRebuildStreams e1 l).st.lastLogId := by
      rw [k3, hlast]; exact (congrArg LogV.last hlv1).symm
    split
    · refine g_lhAppend hJ hn ?_ k2 hla ?_ _
      · have : e1.candidate = e.candidate := by rw [he1]; rfl
        exact this.trans h.cand
      · rw [k4, hv]
        show e.st.vote.data.leaderId = (LogV.vote e1.st.lv).leaderId
        rw [hlv1]; rfl
    · exact g_rhInitiate hJ hn k2 hla
  · exact G.pure (Ln.free h.leader h.cand)

theorem g_updateInternal {g0 : Gh} (hI : EInv g0 e) (h : Ln e) : G id (e.updateInternal false now) := by
  unfold updateInternal
  split
  · next hil =>
    unfold becomeLeader
    cases hl : e.leader with
    | none => rw [hI.pj.nolead hl] at hil; cases hil
    | some l =>
      have hk := hI.pj.lead l hl
      simp only
      rw [if_pos (by rw [hk.vote])]
      have := h.lead l hl
      exact G.pure (h.set (l := { l with vote := e.st.vote.data.toCommitted }) rfl ⟨this.prog, this.clock, this.ent⟩)
  · split
    · exact G.pure h
    · refine G.of tot_becomeFollowing fun e1 h1 => ?_
      obtain ⟨srv, rfl⟩ := becomeFollowing_ok h1
      exact Ln.free rfl rfl

theorem g_updateVote {g0 : Gh} (hI : EInv g0 e) (h : Ln e) {v : Vote} (hv : VoteOk e v) :
    G Prod.snd (e.updateVote false now v) := by
  unfold updateVote
  split
  · next hle =>
    refine G.bind (tot_storeVote _ _) fun e1 he1 => ?_
    by_cases hlt : e.st.vote.data < v
    · have hne : v.leaderId.node ≠ e.cfg.id := fun hx => absurd (hv hx) (not_le.2 hlt)
      have hd := storeVote_vote hle he1
      have hcf := (storeVote_same he1).2.2.2
      have hng : e1.st.isLeading e1.cfg.id = false := by
        unfold RState.isLeading
        rw [hd, hcf]
        have : (v.leaderId.node == e.cfg.id) = false := by simpa using hne
        rw [this]; simp
      have hnl : e1.st.isLeader e1.cfg.id = false := by unfold RState.isLeader; rw [hng]; rfl
      refine G.bindE id ?_ fun e2 _ h2 => G.pure h2
      unfold updateInternal
      rw [if_neg (by rw [hnl]; simp), if_neg (by rw [hng]; simp)]
      refine G.of tot_becomeFollowing fun e2 h2 => ?_
      obtain ⟨srv, rfl⟩ := becomeFollowing_ok h2
      exact Ln.free rfl rfl
    · obtain ⟨hf, hio1, hl1⟩ := storeVote_eq hlt he1
      obtain ⟨k1, k2, k3, k4⟩ := storeVote_same he1
      refine G.bindE id (g_updateInternal (hf.inv hI) (h.same (by rw [k1]) k2 k3 k4)) fun e2 _ h2 => G.pure h2
  · exact G.pure h

theorem covers_cand (m : Membership) (n : NodeId) : n ∈ ids (VecProgress.new m.configs [] false).vector ↔ m.isVoter n = true := by
  rw [VecProgress.new_ids, List.append_nil, Membership.mem_jointIds, ← Membership.isVoter_iff]

theorem g_elect (h : ∀ l, e.leader = some l → Lined e.st.ms.effective.mem l) (hv : e.st.ms.effective.mem.isVoter e.cfg.id = true) :
    G id (e.elect false now) := by
  unfold elect
  have hlt := vote_lt_new (v := e.st.vote.data) e.cfg.id
  obtain ⟨e0, he0⟩ : ∃ e0 : Eng, e0 = { e with candidate := some (Candidate.new now (Vote.new (e.st.vote.data.leaderId.term + 1) e.cfg.id) e.st.lastLogId e.st.ms.effective.mem) } := ⟨_, rfl⟩
  dsimp only
  rw [← he0]
  have hst : e0.st = e.st := by rw [he0]
  have hle : e0.leader = e.leader := by rw [he0]
  have hcf : e0.cfg = e.cfg := by rw [he0]
  have hgo : ∃ e2, e0.updateVote false now (Vote.new (e.st.vote.data.leaderId.term + 1) e.cfg.id) = .ok (true, e2) ∧ Ln e2 := by
    unfold updateVote
    rw [if_pos (by rw [hst]; exact le_of_lt hlt)]
    obtain ⟨e1, he1⟩ := tot_storeVote (now := now) (e := e0) (if (Vote.new (e.st.vote.data.leaderId.term + 1) e.cfg.id).committed = true then e0.cfg.leaderLease else 0) (Vote.new (e.st.vote.data.leaderId.term + 1) e.cfg.id)
    obtain ⟨k1, k2, k3, k4⟩ := storeVote_same he1
    have hd := storeVote_vote (by rw [hst]; exact le_of_lt hlt) he1
    have hnl : e1.st.isLeader e1.cfg.id = false := by
      unfold RState.isLeader; rw [hd]; simp [Vote.new]
    have hui : ∃ e2, e1.updateInternal false now = .ok e2 ∧ Ln e2 := by
      unfold updateInternal
      rw [if_neg (by rw [hnl]; simp)]
      split
      · next hing =>
        refine ⟨e1, rfl, ?_, ?_⟩
        · intro l hl
          rw [k3, hle] at hl
          rw [k1, hst]; exact h l hl
        · intro c hc
          rw [k2, he0] at hc
          cases hc
          unfold RState.isLeading at hing
          simp only [Bool.and_eq_true] at hing
          rw [k1, hst, k4, hcf] at hing
          rw [k1, hst, k4, hcf]
          exact ⟨rfl, covers_cand _, hv, hing.1⟩
      · obtain ⟨e2, he2⟩ := tot_becomeFollowing (e := e1)
        refine ⟨e2, he2, ?_⟩
        obtain ⟨srv, rfl⟩ := becomeFollowing_ok he2
        exact Ln.free rfl rfl
    obtain ⟨e2, he2, hl2⟩ := hui
    refine ⟨e2, ?_, hl2⟩
    simp only [bind_ok]
    exact ⟨e1, he1, e2, he2, rfl⟩
  obtain ⟨e2, he2, hl2⟩ := hgo
  refine G.bind ⟨_, he2⟩ fun p hp => ?_
  rw [he2] at hp; cases hp
  exact G.bind (Tot.unwrap rfl) fun _ _ => G.pure (Ln.same (e := e2) hl2)

theorem g_establishLeader {g0 : Gh} (hI : EInv g0 e) (h : Ln e) {c : Candidate} (hc : e.candidate = some c) :
    G id (e.establishLeader false now) := by
  have hk := hI.pj.cand c hc
  have hC := h.cand c hc
  unfold establishLeader
  refine G.bind (Tot.unwrap hc) fun c' hc' => ?_
  rw [hc] at hc'; cases hc'
  obtain ⟨l, hl⟩ : Tot (c.intoLeader false now) := Tot.bind (Tot.dassert _) fun _ _ => tot_leaderNew _ _ _
  have hest : establish false now { e with candidate := none } c = .ok (some l) := by
    unfold establish
    simp only [bind_ok]
    refine ⟨(), rfl, ?_⟩
    simp only [hk.nl]
    rw [if_neg (by simp)]
    simp only [bind_ok]
    exact ⟨l, hl, rfl⟩
  refine G.bind ⟨_, hest⟩ fun o ho => ?_
  rw [hest] at ho; cases ho
  simp only
  have hln : Lined e.st.ms.effective.mem l := by
    unfold Candidate.intoLeader at hl
    rw [bind_ok] at hl
    obtain ⟨_, _, hl⟩ := hl
    rw [← hC.mem]; exact lined_new hl
  have hprop : l.vote = c.vote.toCommitted ∧ l.lastLogId = c.lastLogId := by
    unfold Candidate.intoLeader at hl
    rw [bind_ok] at hl
    obtain ⟨_, _, hl⟩ := hl
    obtain ⟨h1, h2, h3⟩ := newLeader_ok hl
    refine ⟨by rw [h1]; rfl, ?_⟩
    rw [h2]; cases c.lastLogId <;> rfl
  have hvd : l.vote = ⟨e.st.vote.data.leaderId, true⟩ := by rw [hprop.1, hk.vote]; rfl
  have hlt : e.st.vote.data < l.vote := by
    rw [Vote.lt_def, hvd]
    right
    exact ⟨rfl, hk.com, rfl⟩
  obtain ⟨l', k1, k2, k3, k4⟩ := lined_rebuild (e := { e with candidate := none, leader := some l }) (l := l) hln
  obtain ⟨e1, he1⟩ : ∃ e1, e1 = rhRebuildStreams { e with candidate := none, leader := some l } l := ⟨_, rfl⟩
  rw [← he1] at k1 ⊢
  have hst1 : e1.st = e.st := by rw [he1]; rfl
  have hcf1 : e1.cfg = e.cfg := by rw [he1]; rfl
  have hcd1 : e1.candidate = none := by rw [he1]; rfl
  -- the vote
  have hgo : ∃ e2 l2, e1.updateVote false now l.vote = .ok (true, e2) ∧ Ln e2 ∧ e2.st.lv = { e.st.lv with vote := l.vote } ∧
      e2.candidate = none ∧ e2.leader = some l2 ∧ l2.lastLogId = e.st.lastLogId ∧ l2.vote.leaderId = l.vote.leaderId := by
    unfold updateVote
    rw [if_pos (by rw [hst1]; exact le_of_lt hlt)]
    obtain ⟨e3, he3⟩ := tot_storeVote (now := now) (e := e1) (if l.vote.committed = true then e1.cfg.leaderLease else 0) l.vote
    obtain ⟨j1, j2, j3, j4⟩ := storeVote_same he3
    have hd := storeVote_vote (by rw [hst1]; exact le_of_lt hlt) he3
    have hlv3 : e3.st.lv = { e.st.lv with vote := l.vote } := by
      have he3' := he3
      unfold storeVote at he3'
      rw [if_pos (by rw [hst1]; exact hlt), bind_ok] at he3'
      obtain ⟨st, hst, he3'⟩ := he3'
      rw [pure_ok] at he3'
      rw [← he3']
      show st.lv = _
      rw [acceptIo_ok hst, hst1]; rfl
    have hil : e3.st.isLeader e3.cfg.id = true := by
      unfold RState.isLeader RState.isLeading
      rw [hd, j1, j4, hst1, hcf1, hC.node, hvd]
      simp [hk.node]
    have hb : e3.updateInternal false now = .ok (updateServerState { e3 with leader := some { l' with vote := e3.st.vote.data.toCommitted } }) := by
      unfold updateInternal
      rw [if_pos hil]
      unfold becomeLeader
      rw [j3, k1]
      simp only
      rw [if_pos (by rw [k4, hd])]; rfl
    refine ⟨updateServerState { e3 with leader := some { l' with vote := e3.st.vote.data.toCommitted } },
      { l' with vote := e3.st.vote.data.toCommitted }, ?_, ?_, hlv3, j2.trans hcd1, rfl, ?_, ?_⟩
    · simp only [bind_ok]
      exact ⟨e3, he3, _, hb, rfl⟩
    · refine ⟨?_, ?_⟩
      · intro x hx
        cases hx
        show Lined e3.st.ms.effective.mem _
        rw [j1, hst1]
        exact ⟨k2.prog, k2.clock, k2.ent⟩
      · intro x hx
        have : e3.candidate = some x := hx
        rw [j2, hcd1] at this; cases this
    · show l'.lastLogId = _
      rw [k3, hprop.2, hk.last]
    · show e3.st.vote.data.toCommitted.leaderId = _
      rw [hd]; rfl
  obtain ⟨e2, l2, h1, h2, h3, h4, h5, h6, h7⟩ := hgo
  refine G.bind ⟨_, h1⟩ fun p hp => ?_
  rw [h1] at hp; cases hp
  refine G.bind (Tot.dassert _) fun _ _ => G.bind (RState.tot_acceptIo _) fun st hst => ?_
  have hlv : st.lv = e2.st.lv := by rw [acceptIo_ok hst]; rfl
  have hms := congrArg (·.effective) (acceptIo_ms hst).1
  refine G.bind tot_leaderHandler fun lo hlo => ?_
  have hlo := leaderHandler_ok hlo
  have hlo : lo = some l2 := hlo.trans h5
  subst hlo
  refine G.bind (Tot.unwrap rfl) fun l3 hl3 => ?_
  cases hl3
  have hL : Ln { e2 with st := st } := Ln.same (e := e2) h2 hms
  refine g_lhAppend (g := (g0.runs e.out).run (.saveVote l.vote)) ?_ hL h4 (hL.lead _ h5) ?_ ?_ _
  · show LogJ st.lv _
    rw [hlv, h3]; exact (hI.lm.log.setVote hlt).1
  · rw [h6]
    show _ = LogV.last st.lv
    rw [hlv, h3]; rfl
  · rw [h7]
    have : st.vote.data = l.vote := by
      have := congrArg LogV.vote (hlv.trans h3); exact this
    show _ = st.vote.data.leaderId
    rw [this]

/-! ## Progress reports -/

theorem g_rhUpdateConflicting (h : Ln e) (hl : Lined e.st.ms.effective.mem l) {n : NodeId} {c : LogId}
    (hn : e.st.ms.effective.mem.Has n) (hi : ∃ p q, (l.progress.ent n).inflight = .logs p q)
    (hc : nextIndex (l.progress.ent n).matching ≤ c.index ∧ c.index < (l.progress.ent n).searchingEnd) :
    GL (e.rhUpdateConflicting false l n c) := by
  obtain ⟨p, q, hi⟩ := hi
  obtain ⟨ix, hix⟩ := Option.isSome_iff_exists.1 (VecProgress.index_isSome ((hl.prog n).2 hn))
  obtain ⟨en, hen, hE⟩ : ∃ en, (l.progress.ent n).updateConflicting false c.index = .ok en ∧ EntOk (nextIndex l.lastLogId) en := by
    unfold Repl.Entry.updateConflicting
    rw [hi]
    refine ⟨_, rfl, ?_⟩
    have := hl.ent n
    exact ⟨hc.1, by show c.index ≤ _; have := this.2; omega⟩
  obtain ⟨l1, hl1⟩ : ∃ l1 : Leader, l1 = { l with progress := { l.progress with ent := fun k => if k = n then en else l.progress.ent k } } := ⟨_, rfl⟩
  have hl1' : Lined e.st.ms.effective.mem l1 := by
    rw [hl1]
    refine ⟨hl.prog, hl.clock, ?_⟩
    intro k
    show EntOk (nextIndex l.lastLogId) (if k = n then en else l.progress.ent k)
    split
    · exact hE
    · exact hl.ent k
  refine ⟨{ e with leader := some l1 }, ?_, h.set rfl hl1', rfl⟩
  unfold rhUpdateConflicting
  simp only [bind_ok]
  exact ⟨ix, unwrap_ok.2 hix, en, hen, by rw [hl1]; rfl⟩

theorem g_rhFailed (h : Ln e) (hl : Lined e.st.ms.effective.mem l) {n : NodeId} (hn : e.st.ms.effective.mem.Has n) :
    GL (e.rhFailed l n) := by
  obtain ⟨ix, hix⟩ := Option.isSome_iff_exists.1 (VecProgress.index_isSome ((hl.prog n).2 hn))
  obtain ⟨l1, hl1⟩ : ∃ l1 : Leader, l1 = { l with progress := { l.progress with
    ent := fun k => if k = n then (l.progress.ent k).resetInflight else l.progress.ent k } } := ⟨_, rfl⟩
  have hl1' : Lined e.st.ms.effective.mem l1 := by
    rw [hl1]
    refine ⟨hl.prog, hl.clock, ?_⟩
    intro k
    show EntOk (nextIndex l.lastLogId) (if k = n then (l.progress.ent k).resetInflight else l.progress.ent k)
    split
    · exact (hl.ent k).reset
    · exact hl.ent k
  refine ⟨{ e with leader := some l1 }, ?_, h.set rfl hl1', rfl⟩
  unfold rhFailed
  simp only [bind_ok]
  exact ⟨ix, unwrap_ok.2 hix, by rw [hl1]; rfl⟩

theorem ln_logPurge (h : Ln e) : Ln e.logPurge := by
  unfold logPurge
  split
  · exact h
  · split <;> exact h.same

theorem ln_rhTryPurge (h : Ln e) : Ln (e.rhTryPurge l) := by
  unfold rhTryPurge
  split
  · exact h
  · split
    · exact h
    · split
      · exact h
      · exact ln_logPurge h

theorem ln_tryPurge (h : Ln e) : Ln e.tryPurge := by
  unfold tryPurge
  split
  · exact ln_rhTryPurge h
  · exact ln_logPurge h

/-- what a replication task may report about a node -/
def ReplSafe (e : Eng) (l : Leader) (n : NodeId) : ReplResult → Prop
  | .matching m => (l.progress.ent n).inflight ≠ .none ∧ nextIndex m ≤ nextIndex e.st.lastLogId
  | .conflict c => (∃ p q, (l.progress.ent n).inflight = .logs p q) ∧
      nextIndex (l.progress.ent n).matching ≤ c.index ∧ c.index < (l.progress.ent n).searchingEnd
  | .failed => True

theorem g_rhUpdateProgress (h : Ln e) (hl : Lined e.st.ms.effective.mem l) (hlast : l.lastLogId = e.st.lastLogId) {n : NodeId} {r : ReplResult}
    (hn : e.st.ms.effective.mem.Has n) (hs : ReplSafe e l n r) : G id (e.rhUpdateProgress false l n r) := by
  have hgo : ∀ x : Res Eng, GL x → G id (x >>= fun e1 => unwrap e1.leader >>= fun l1 => Pure.pure (rhTryPurge e1 l1)) := by
    intro x hx
    obtain ⟨e1, h1, h2, h3⟩ := hx
    obtain ⟨l1, hl1⟩ := Option.isSome_iff_exists.1 h3
    refine G.bind ⟨e1, h1⟩ fun e1' h1' => ?_
    rw [h1] at h1'; cases h1'
    exact G.bind (Tot.unwrap hl1) fun _ _ => G.pure (ln_rhTryPurge h2)
  unfold rhUpdateProgress
  cases r with
  | matching m => exact hgo _ (g_rhUpdateMatching h hl hn hs.1 (by rw [hlast]; exact hs.2))
  | conflict c => exact hgo _ (g_rhUpdateConflicting h hl hn hs.1 hs.2)
  | failed => exact hgo _ (g_rhFailed h hl hn)

theorem g_rhUpdateClock (h : Ln e) (hl : Lined e.st.ms.effective.mem l) {n : NodeId} {t : Nat}
    (hn : e.st.ms.effective.mem.Has n) : G id (e.rhUpdateClock l n t) := by
  obtain ⟨c, hc⟩ := Option.isSome_iff_exists.1 (VecProgress.increaseTo_isSome ((hl.clock n).2 hn) (some t))
  unfold rhUpdateClock
  refine G.bind (Tot.unwrap hc) fun c' hc' => ?_
  rw [hc] at hc'; cases hc'
  exact G.pure (h.set rfl ⟨hl.prog, hl.clock.perm (VecProgress.increaseTo_ids hc), hl.ent⟩)

theorem g_rhUpdateLocal (h : Ln e) (hl : Lined e.st.ms.effective.mem l) {u : Option LogId}
    (hu : nextIndex u ≤ nextIndex l.lastLogId) : G id (e.rhUpdateLocal false l u) := by
  unfold rhUpdateLocal
  split
  · exact G.pure h
  · next hne =>
    split
    · next hix =>
      split
      · exact G.pure h
      · refine (g_rhUpdateMatching (l := { l with progress := { l.progress with
            ent := fun k => if k = e.cfg.id then { l.progress.ent e.cfg.id with inflight := Inflight.mkLogs none u } else l.progress.ent k } })
          h ?_ ((hl.prog _).1 (VecProgress.index_mem hix)) ?_ hu).g
        · refine ⟨hl.prog, hl.clock, ?_⟩
          intro k
          show EntOk (nextIndex l.lastLogId) (if k = e.cfg.id then { l.progress.ent e.cfg.id with inflight := Inflight.mkLogs none u } else l.progress.ent k)
          split
          · exact hl.ent e.cfg.id
          · exact hl.ent k
        · simp only [if_true]
          unfold Inflight.mkLogs
          cases u with
          | none => exact absurd rfl hne
          | some x => rw [if_pos OptOrd.none_lt_some']; simp
    · exact G.pure h

/-! ## Inputs -/

theorem g_tickElection {g0 : Gh} (hI : EInv g0 e) (h : Ln e) (en : Bool) : G id (e.tickElection false now en) := by
  unfold tickElection
  split
  · exact G.pure h
  · split
    · exact G.pure h
    · next hv =>
      have hv : e.st.ms.effective.mem.isVoter e.cfg.id = true := by simpa using hv
      split
      · exact G.pure h
      · by_cases hb : (e.st.ms.effective.mem.voterIds.length = 1 || e.st.vote.isExpired now (e.cfg.electionTimeout + if e.seenGreater then e.cfg.smallerLogTimeout else 0)) = true
        · dsimp only
          rw [if_pos hb]
          exact g_elect (e := { e with seenGreater := false }) h.lead hv
        · dsimp only
          rw [if_neg hb]; exact G.pure h

theorem coreHeartbeat_keeps {dbg : Bool} {e' : Eng} (h : e.coreHeartbeat dbg = .ok e') :
    e'.st = e.st ∧ e'.leader = e.leader ∧ e'.candidate = e.candidate ∧ e'.cfg = e.cfg := by
  unfold coreHeartbeat at h
  rw [bind_ok] at h
  obtain ⟨o, _, h⟩ := h
  split at h
  · rw [pure_ok] at h; subst h; exact ⟨rfl, rfl, rfl, rfl⟩
  · split at h
    · rw [pure_ok] at h; subst h; exact ⟨rfl, rfl, rfl, rfl⟩
    · rw [pure_ok] at h; subst h; exact ⟨rfl, rfl, rfl, rfl⟩

theorem g_coreHeartbeat (h : Ln e) : G id (e.coreHeartbeat false) := by
  refine G.of tot_coreHeartbeat fun e1 h1 => ?_
  obtain ⟨k1, k2, k3, k4⟩ := coreHeartbeat_keeps h1
  exact h.same (by show e1.st.ms.effective = _; rw [k1]) k3 k2 k4

theorem g_tickHeartbeat (h : Ln e) (en : Bool) (iv : Nat) : G id (e.tickHeartbeat false now en iv) := by
  unfold tickHeartbeat
  cases hl : e.leader with
  | none => exact G.pure h
  | some l =>
    simp only
    split
    · have hgo : ∀ x : Res Eng, G id x → G id (x >>= fun e1 => Pure.pure { e1 with leader := e1.leader.map fun l => { l with nextHeartbeat := now + iv } }) := by
        intro x hx
        refine G.bindE id hx fun e1 _ h1 => G.pure ⟨?_, h1.cand⟩
        intro x hx
        have hx : (e1.leader.map fun l => { l with nextHeartbeat := now + iv }) = some x := hx
        cases hl1 : e1.leader with
        | none => rw [hl1] at hx; cases hx
        | some y =>
          rw [hl1] at hx; cases hx
          have := h1.lead y hl1
          exact ⟨this.prog, this.clock, this.ent⟩
      split
      · exact hgo _ (g_coreHeartbeat h)
      · exact hgo _ (G.pure h)
    · exact G.pure h

theorem g_coreTick {g0 : Gh} (hI : EInv g0 e) (h : Ln e) (el hb : Bool) (iv : Nat) : G id (e.coreTick false now el hb iv) := by
  unfold coreTick
  refine G.bindE id (g_tickElection hI h el) fun e1 he1 h1 => G.bindE id (g_tickHeartbeat h1 hb iv) fun e2 he2 h2 => ?_
  have hI2 := (frame_tickHeartbeat he2).inv (inv_tickElection hI he1)
  split
  · unfold leaderStepDown
    split
    · exact g_updateInternal hI2 h2
    · exact G.pure h2
  · exact G.pure h2

theorem g_following (hf : Following e) {α : Type} {π : α → Eng} {r : Res α} (ht : Tot r) (hs : StillR π e r) : G π r := by
  refine G.of ht fun a ha => ?_
  have := hs a ha
  exact Ln.free (this.leader.trans hf.leader) (this.candidate.trans hf.cand)

theorem updateVote_ok {dbg ok : Bool} {e1 : Eng} {v : Vote} (hr : e.updateVote dbg now v = .ok (ok, e1)) :
    (ok = true → e.st.vote.data ≤ v) ∧ (ok = false → e1 = e) := by
  unfold updateVote at hr
  split at hr
  · next hle =>
    simp only [bind_ok, pure_ok] at hr
    obtain ⟨_, _, _, _, hr⟩ := hr
    cases hr
    exact ⟨fun _ => hle, fun hx => (by cases hx)⟩
  · rw [pure_ok] at hr; cases hr
    exact ⟨fun hx => (by cases hx), fun _ => rfl⟩

theorem tot_updateVote_out {g0 : Gh} (hI : EInv g0 e) (h : Ln e) {v : Vote} (hn : e.st.vote.data ≤ v → v.leaderId.node ≠ e.cfg.id) :
    G Prod.snd (e.updateVote false now v) := by
  by_cases hle : e.st.vote.data ≤ v
  · exact g_updateVote hI h fun hx => absurd hx (hn hle)
  · unfold updateVote
    rw [if_neg hle]; exact G.pure h

theorem appendEntries_success {g0 : Gh} {dbg : Bool} {e1 : Eng} (hI : EInv g0 e) {v : Vote} {prev : Option LogId} {es : List Ent} {lc : Option LogId}
    (ho : e.st.vote.data ≤ v → AppendOk e v prev es lc) (hr : e.appendEntries dbg now v prev es = .ok (.success, e1)) :
    e1.leader = none ∧ e1.candidate = none := by
  unfold appendEntries at hr
  rw [bind_ok] at hr
  obtain ⟨⟨ok, e2⟩, h1, hr⟩ := hr
  obtain ⟨ho1, ho2⟩ := updateVote_ok h1
  cases ok with
  | false => simp only [Bool.false_eq_true, if_false, pure_ok] at hr; cases hr
  | true =>
    obtain ⟨hnd, hcm, _⟩ := ho (ho1 rfl)
    obtain ⟨_, _, _, hb⟩ := inv_updateVote hI (fun hx => absurd hx hnd) h1
    have hf := (hb rfl hcm hnd).fol
    simp only [if_true, bind_ok] at hr
    obtain ⟨lv, _, ⟨ok2, e3⟩, h3, hr⟩ := hr
    have hs := still_fhEnsure e2 prev _ h3
    simp only at hr
    split at hr
    · simp only [bind_ok, pure_ok] at hr
      obtain ⟨e4, h4, hr⟩ := hr
      cases hr
      have h4 := still_fhAppendEntries e3 lv prev es _ h4
      exact ⟨h4.leader.trans (hs.leader.trans hf.leader), h4.candidate.trans (hs.candidate.trans hf.cand)⟩
    · rw [pure_ok] at hr; cases hr

theorem g_handleAppend {g0 : Gh} (hI : EInv g0 e) (h : Ln e) {tx : Nat} {v : Vote} {prev : Option LogId} {es : List Ent} {lc : Option LogId}
    (ho : e.st.vote.data ≤ v → AppendOk e v prev es lc) : G id (e.handleAppend false now tx v prev es lc) := by
  have hap : G Prod.snd (e.appendEntries false now v prev es) := by
    unfold appendEntries
    refine G.bindE Prod.snd (tot_updateVote_out hI h fun hle => (ho hle).1) fun p hp h1 => ?_
    obtain ⟨ok, e1⟩ := p
    obtain ⟨ho1, ho2⟩ := updateVote_ok hp
    cases ok with
    | false => exact G.pure h1
    | true =>
      obtain ⟨hnd, hcm, _⟩ := ho (ho1 rfl)
      obtain ⟨hinv, _, _, hb⟩ := inv_updateVote hI (fun hx => absurd hx hnd) hp
      have hf := (hb rfl hcm hnd).fol
      simp only [if_true]
      refine G.bind tot_followingHandler fun lv _ => G.bindE Prod.snd (g_following hf (tot_fhEnsure _) (still_fhEnsure _ _)) fun q hq hL => ?_
      obtain ⟨ok2, e2⟩ := q
      have hs := still_fhEnsure e1 prev (ok2, e2) hq
      simp only
      split
      · refine G.bindE id ?_ fun e3 _ h3 => G.pure h3
        refine G.of (tot_fhAppendEntries _ _ _) fun e3 h3 => ?_
        have h3 := still_fhAppendEntries e2 lv prev es e3 h3
        exact Ln.free (h3.leader.trans (hs.leader.trans hf.leader)) (h3.candidate.trans (hs.candidate.trans hf.cand))
      · exact G.pure hL
  unfold handleAppend
  refine G.bindE Prod.snd hap fun p hp h1 => ?_
  obtain ⟨r, e1⟩ := p
  obtain ⟨hinv, ht⟩ := inv_appendEntries hI ho hp
  simp only
  split
  · next hs =>
    obtain ⟨acc, ha, _⟩ := hinv.pj.acc
    refine G.bind (Tot.unwrap ha) fun a _ => G.bind tot_followingHandler fun lv _ => ?_
    refine G.of (tot_fhCommit _) fun e3 h3 => ?_
    have h3 := still_fhCommit _ lc _ h3
    subst hs
    obtain ⟨k1, k2⟩ := appendEntries_success hI ho hp
    exact Ln.free (h3.leader.trans k1) (h3.candidate.trans k2)
  · exact G.pure (Ln.same (e := e1) h1)

theorem g_handleInstall {g0 : Gh} (hI : EInv g0 e) (h : Ln e) {tx : Nat} {v : Vote} {m : SnapMeta}
    (ho : InputOk e (.snapReq tx v m)) : G id (e.handleInstall false now tx v m) := by
  unfold handleInstall
  refine G.bindE Prod.snd (tot_updateVote_out hI h fun hle => (ho hle).1) fun p hp h1 => ?_
  obtain ⟨ok, e1⟩ := p
  obtain ⟨ho1, ho2⟩ := updateVote_ok hp
  cases ok with
  | false => exact G.pure (Ln.same (e := e1) h1)
  | true =>
    obtain ⟨hnd, hcm, _⟩ := ho (ho1 rfl)
    obtain ⟨_, _, _, hb⟩ := inv_updateVote hI (fun hx => absurd hx hnd) hp
    have hf := (hb rfl hcm hnd).fol
    simp only [if_true]
    exact G.bind tot_followingHandler fun lv _ => G.bindE Prod.snd (g_following hf (tot_fhInstall _ _) (still_fhInstall _ _ _)) fun q _ hL =>
      G.pure (Ln.same (e := q.2) hL)

theorem g_writeEntry {g0 : Gh} (hI : EInv g0 e) (h : Ln e) (p : Payload) : G Prod.snd (e.writeEntry false p) := by
  unfold writeEntry
  refine G.bind tot_leaderHandler fun lo hlo => ?_
  have hlo := leaderHandler_ok hlo
  cases hle : e.leader with
  | none => rw [hle] at hlo; subst hlo; exact G.pure h
  | some l =>
    rw [hle] at hlo; subst hlo
    simp only
    have hk := hI.pj.lead l hle
    split
    · exact G.pure h
    · have hc : e.candidate = none := by
        cases hx : e.candidate with
        | none => rfl
        | some c => have := (hI.pj.cand c hx).nl; rw [hle] at this; cases this
      have hlast : l.lastLogId = e.st.lastLogId := hk.last
      refine G.bindE id (g_lhAppend hI.lm.log h hc (h.lead l hle) hlast (by rw [hk.vote]) p) fun e1 he1 h1 => ?_
      obtain ⟨x, hx⟩ := Option.isSome_iff_exists.1 (lhAppend_last hI.lm.log hlast he1)
      exact G.bind (Tot.unwrap hx) fun _ _ => G.pure h1

theorem g_initCluster {g0 : Gh} (hI : EInv g0 e) (h : Ln e) (m : Membership) : G Prod.snd (e.initCluster false now m) := by
  unfold initCluster
  split
  · exact G.pure h
  · next hni =>
    split
    · exact G.pure h
    · next hv =>
      have hv : m.isVoter e.cfg.id = true := by simpa using hv
      have hvote : e.st.vote.data = ⟨⟨0, 0⟩, false⟩ := by
        unfold RState.isInitialized at hni
        by_contra hne
        simp [hne] at hni
      have hln : e.leader = none := by
        cases hx : e.leader with
        | none => rfl
        | some l => have := (hI.pj.lead l hx).com; rw [hvote] at this; cases this
      refine G.bind tot_followingHandler fun v _ => G.bind (tot_fhDoAppend _ _) fun e2 he2 => ?_
      have hs := still_fhDoAppend _ _ _ e2 he2
      have hms : e2.st.ms.effective.mem = m ∧ e2.cfg = e.cfg := by
        unfold fhDoAppend at he2
        simp only [bind_ok] at he2
        obtain ⟨_, _, _, _, _, _, e1, he1, he2⟩ := he2
        rw [pure_ok] at he2; subst he2
        unfold fhAppendMembership at he1
        have hlt : lastTwo [⟨⟨⟨0, 0⟩, 0⟩, .membership m⟩] = [⟨some ⟨⟨0, 0⟩, 0⟩, m⟩] := rfl
        rw [hlt, if_neg (by simp)] at he1
        simp only [bind_ok, pure_ok] at he1
        obtain ⟨ms, hms, rfl⟩ := he1
        simp only [appendMems, bind_ok, pure_ok] at hms
        obtain ⟨ms', hms, rfl⟩ := hms
        unfold RState.MemState.append at hms
        simp only [bind_ok, pure_ok] at hms
        obtain ⟨_, _, _, _, rfl⟩ := hms
        exact ⟨rfl, rfl⟩
      refine G.bindE id (g_elect ?_ (by rw [hms.1, hms.2]; exact hv)) fun e3 _ h3 => G.pure h3
      intro l hl
      cases (hs.leader.trans hln).symm.trans hl

theorem g_handleVoteResp {g0 : Gh} (hI : EInv g0 e) (h : Ln e) {target : NodeId} {v : Vote} {last : Option LogId} {granted : Bool}
    (hv : VoteOk e v) (hs : ∀ c, e.candidate = some c → granted = true → v = c.vote → e.st.ms.effective.mem.isVoter target = true) :
    G id (e.handleVoteResp false now target v last granted) := by
  unfold handleVoteResp
  cases hc : e.candidate with
  | none => exact G.pure h
  | some c =>
    simp only
    have hC := h.cand c hc
    split
    · next hg =>
      simp only [Bool.and_eq_true, beq_iff_eq] at hg
      obtain ⟨p, hp⟩ := Option.isSome_iff_exists.1 (VecProgress.update_isSome ((hC.ids target).2 (hs c hc hg.1 hg.2)) true)
      have hgr : grantBy c target = .ok { c with progress := p } := by
        unfold grantBy
        simp only [bind_ok]
        exact ⟨p, unwrap_ok.2 hp, rfl⟩
      refine G.bind ⟨_, hgr⟩ fun c1 hc1 => ?_
      rw [hgr] at hc1; cases hc1
      have hL : Ln { e with candidate := some { c with progress := p } } := by
        refine ⟨h.lead, ?_⟩
        intro x hx
        cases hx
        exact ⟨hC.mem, fun n => (VecProgress.update_ids hp).mem_iff.trans (hC.ids n), hC.voter, hC.node⟩
      have hI1 : EInv g0 { e with candidate := some { c with progress := p } } := by
        have hk := hI.pj.cand c hc
        refine ⟨hI.lm.state rfl hI.lm.log hI.lm.mem, hI.pj.gv, hI.pj.acc, ?_, ?_, hI.pj.nolead⟩
        · intro l hl
          have : e.leader = some l := hl
          rw [hk.nl] at this; cases this
        · intro c2 hc2
          cases hc2
          exact ⟨hk.vote, hk.com, hk.node, hk.last, hk.nl⟩
      split
      · exact g_establishLeader hI1 hL rfl
      · exact G.pure hL
    · have hgo : ∀ e1 : Eng, EInv g0 e1 → Ln e1 → VoteOk e1 v → G id (e1.updateVote false now v >>= fun p => Pure.pure p.2) :=
        fun e1 k1 k2 k3 => G.bindE Prod.snd (g_updateVote k1 k2 k3) fun p _ hp => G.pure hp
      split
      · have hf : Frame e { e with seenGreater := true } :=
          ⟨rfl, rfl, rfl, rfl, fun _ => rfl, rfl, LSame.refl _, [], by simp, by simp⟩
        have := hgo _ (hf.inv hI) h.same hv
        rw [hc] at this; exact this
      · exact hgo _ hI h hv

theorem g_finishBuilding (h : Ln e) (m : SnapMeta) : G id (e.finishBuilding false m) := by
  refine G.of (tot_finishBuilding m) fun e1 h1 => ?_
  unfold finishBuilding at h1
  dsimp only at h1
  have hu : Ln (updateSnapshot { e with st := { e.st with io := { e.st.io with building := false } } } m).2 := by
    unfold updateSnapshot
    split <;> exact h.same
  split at h1
  · next e2 he => rw [he] at hu; rw [pure_ok] at h1; subst h1; exact hu
  · next e2 he =>
    rw [he] at hu
    simp only [bind_ok, pure_ok] at h1
    obtain ⟨e3, h3, rfl⟩ := h1
    refine ln_tryPurge ?_
    unfold schedulePurge at h3
    rw [bind_ok] at h3
    obtain ⟨o, _, h3⟩ := h3
    split at h3
    · unfold updatePurgeUpto at h3
      simp only [bind_ok, pure_ok] at h3
      obtain ⟨_, _, rfl⟩ := h3
      exact Ln.same (e := e2) hu
    · rw [pure_ok] at h3; subst h3; exact hu

theorem g_triggerPurge {g : Gh} (hJ : LogJ e.st.lv g) (h : Ln e) (i : Nat) : G id (e.triggerPurge false i) := by
  refine G.of (tot_triggerPurge hJ i) fun e1 h1 => ?_
  unfold triggerPurge at h1
  split at h1
  · rw [pure_ok] at h1; subst h1; exact h
  · split at h1
    · rw [pure_ok] at h1; subst h1; exact h
    · simp only [bind_ok, pure_ok] at h1
      obtain ⟨x, _, e2, h2, rfl⟩ := h1
      refine ln_tryPurge ?_
      unfold updatePurgeUpto at h2
      simp only [bind_ok, pure_ok] at h2
      obtain ⟨_, _, rfl⟩ := h2
      exact h.same

theorem voteMatch_leader {v : Vote} (h : e.voteMatch v = true) (hc : v.committed = true) : ∃ l, e.leader = some l ∧ l.vote = v := by
  unfold voteMatch at h
  rw [if_pos hc] at h
  cases hl : e.leader with
  | none => rw [hl] at h; simp at h
  | some l => rw [hl] at h; exact ⟨l, rfl, by simpa using h⟩

end Eng

/-- what an input must not do, beyond `InputOk`: a node that is told to take over is a voter; a vote is granted by a voter;
the storage reports ids of this log; reports of replication tasks and heartbeat workers in force are about members, and answer
what was sent -/
def InputSafe (e : Eng) : Input → Prop
  | .handleTransfer v target => e.st.vote.data = v → e.cfg.id = target → e.st.ms.effective.mem.isVoter e.cfg.id = true
  | .voteResp target v _ granted _ => ∀ c, e.candidate = some c → granted = true → v = c.vote → e.st.ms.effective.mem.isVoter target = true
  | .localIO io => io.vote.committed = true → e.voteMatch io.vote = true → nextIndex io.last ≤ nextIndex e.st.lastLogId
  | .replProgress s target r => e.sessionMatch s = true → s.vote.committed = true ∧ e.st.ms.effective.mem.Has target ∧
      ∀ l, e.leader = some l → Eng.ReplSafe e l target r
  | .hbProgress s target _ => e.sessionMatch s = true → s.vote.committed = true ∧ e.st.ms.effective.mem.Has target
  | _ => True

namespace Eng
variable {e : Eng} {now : Nat}

/-- every input is handled -/
theorem input_total {g0 : Gh} {i : Input} (hI : EInv g0 e) (h : Ln e) (ho : InputOk e i) (hs : InputSafe e i) :
    G id (e.input false now i) := by
  cases i with
  | appendReq tx v prev es lc => exact g_handleAppend hI h ho
  | voteReq tx v last =>
    show G id (e.coreVoteReq false now tx v last)
    unfold coreVoteReq
    have hg : G Prod.snd (e.handleVoteReq false now v last) := by
      unfold handleVoteReq
      split
      · exact G.pure h
      · split
        · exact G.bindE Prod.snd (g_updateVote hI h ho) fun p _ hp => G.pure hp
        · exact G.pure h
    exact G.bindE Prod.snd hg fun p _ hp => G.pure (Ln.same (e := p.2) hp)
  | snapReq tx v m => exact g_handleInstall hI h ho
  | init tx m =>
    show G id (e.coreInit false now tx m)
    unfold coreInit
    exact G.bindE Prod.snd (g_initCluster hI h m) fun p _ hp => G.pure (Ln.same (e := p.2) hp)
  | write p => exact G.bindE Prod.snd (g_writeEntry hI h p) fun q _ hq => G.pure hq
  | change c r =>
    refine G.bindE Prod.snd ?_ fun q _ hq => G.pure hq
    unfold changeMembership
    split
    · exact G.pure h
    · exact g_writeEntry hI h _
  | handleTransfer v target =>
    show G id (e.coreHandleTransfer false now v target)
    unfold coreHandleTransfer
    split
    · next hv =>
      dsimp only
      split
      · next ht => exact g_elect (e := { e with st := { e.st with vote := e.st.vote.disable } }) h.lead (hs hv ht)
      · exact G.pure h.same
    · exact G.pure h
  | electCmd =>
    show G id (e.coreElect false now)
    unfold coreElect
    split
    · next hv => exact g_elect h.lead hv
    · exact G.pure h
  | heartbeatCmd => exact g_coreHeartbeat h
  | snapshotCmd =>
    refine G.pure ?_
    show Ln e.triggerSnapshot
    unfold triggerSnapshot
    split <;> exact h.same
  | purgeCmd i => exact g_triggerPurge hI.lm.log h i
  | transferCmd t =>
    refine G.of (tot_triggerTransfer t) fun e1 h1 => ?_
    have h1 : e.triggerTransfer false t = .ok e1 := h1
    unfold triggerTransfer at h1
    rw [bind_ok] at h1
    obtain ⟨lo, hlo, h1⟩ := h1
    have hlo := leaderHandler_ok hlo
    split at h1
    · rw [pure_ok] at h1; subst h1; exact h
    · next l _ =>
      rw [pure_ok] at h1; subst h1
      have := h.lead l hlo.symm
      exact h.set (l := { l with transferTo := some t }) rfl ⟨this.prog, this.clock, this.ent⟩
  | voteResp target v last granted sender =>
    show G id (if e.candidate.isSome && e.voteMatch sender then e.handleVoteResp false now target v last granted else pure e)
    split
    · exact g_handleVoteResp hI h ho hs
    · exact G.pure h
  | higherVote higher sender =>
    show G id (if e.voteMatch sender then (e.updateVote false now higher >>= fun p => pure p.2) else pure e)
    split
    · exact G.bindE Prod.snd (g_updateVote hI h ho) fun p _ hp => G.pure hp
    · exact G.pure h
  | tick el hb interval => exact g_coreTick hI h el hb interval
  | localIO io =>
    show G id (e.coreLocalIO false io)
    unfold coreLocalIO
    refine G.bind (Tot.bind (Tot.dassert _) fun _ _ => Tot.pure _) fun p hp => ?_
    have h1 : Ln (e.withProg p) := h.same
    dsimp only
    split
    · next hc =>
      split
      · next l hl =>
        split
        · next hm =>
          refine g_rhUpdateLocal h1 (h1.lead l hl) ?_
          have : l.lastLogId = e.st.lastLogId := (hI.pj.lead l hl).last
          rw [this]; exact hs hc hm
        · exact G.pure h1
      · exact G.pure h1
    · exact G.pure h1
  | replProgress s target r =>
    show G id (e.coreReplProgress false s target r)
    unfold coreReplProgress
    split
    · next hm =>
      obtain ⟨hc, hn, hr⟩ := hs hm
      have hvm : e.voteMatch s.vote = true := by
        unfold sessionMatch at hm; simp only [Bool.and_eq_true] at hm; exact hm.1
      obtain ⟨l, hl, _⟩ := voteMatch_leader hvm hc
      refine G.bind (Tot.unwrap hl) fun l' hl' => ?_
      rw [unwrap_ok, hl] at hl'; cases hl'
      exact g_rhUpdateProgress h (h.lead l hl) (hI.pj.lead l hl).last hn (hr l hl)
    · exact G.pure h
  | hbProgress s target t =>
    show G id (e.coreHbProgress s target t)
    unfold coreHbProgress
    split
    · next hm =>
      obtain ⟨hc, hn⟩ := hs hm
      have hvm : e.voteMatch s.vote = true := by
        unfold sessionMatch at hm; simp only [Bool.and_eq_true] at hm; exact hm.1
      obtain ⟨l, hl, _⟩ := voteMatch_leader hvm hc
      refine G.bind (Tot.unwrap hl) fun l' hl' => ?_
      rw [unwrap_ok, hl] at hl'; cases hl'
      exact g_rhUpdateClock h (h.lead l hl) hn
    · exact G.pure h
  | built m =>
    show G id (e.coreBuilt false m)
    unfold coreBuilt
    exact G.bindE id (g_finishBuilding h m) fun e1 _ h1 => G.bind (Tot.bind (Tot.dassert _) fun _ _ => Tot.pure _) fun io _ =>
      G.pure (Ln.same (e := e1) h1)
  | installed io m =>
    show G id (e.coreInstalled false io m)
    unfold coreInstalled
    exact G.bind (Tot.bind (Tot.dassert _) fun _ _ => Tot.pure _) fun p _ => G.bind (Tot.bind (Tot.dassert _) fun _ _ => Tot.pure _) fun s1 _ =>
      G.bind (Tot.bind (Tot.dassert _) fun _ _ => Tot.pure _) fun s2 _ => G.pure h.same
  | applied last =>
    show G id (e.coreApplied false last)
    unfold coreApplied
    exact G.bind (Tot.bind (Tot.dassert _) fun _ _ => Tot.pure _) fun s _ => G.pure h.same
  | initiate =>
    show G id (e.coreInitiate false)
    unfold coreInitiate
    refine G.bind tot_leaderHandler fun lo hlo => ?_
    have hlo := leaderHandler_ok hlo
    split
    · exact G.pure h
    · exact g_rhInitiate hI.lm.log h (h.lead _ hlo.symm) (hI.pj.lead _ hlo.symm).last

end Eng
end Openraft.Engine
