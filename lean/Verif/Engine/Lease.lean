import Verif.Engine.VoteFlow

/-!
# A node that follows a leader and its lease
-/

set_option autoImplicit false

namespace Openraft.Engine
open Openraft.Repl (Panic dassert Inflight)
open Openraft.Cluster (Payload)

/-- vote, lease, role and configuration stay -/
structure Still (e e' : Eng) : Prop where
  vote : e'.st.vote = e.st.vote
  leader : e'.leader = e.leader
  candidate : e'.candidate = e.candidate
  cfg : e'.cfg = e.cfg

theorem Still.refl (e : Eng) : Still e e := ⟨rfl, rfl, rfl, rfl⟩
theorem Still.trans {a b c : Eng} (h : Still a b) (k : Still b c) : Still a c :=
  ⟨k.vote.trans h.vote, k.leader.trans h.leader, k.candidate.trans h.candidate, k.cfg.trans h.cfg⟩

/-- `Still` for a result -/
def StillR {α : Type} (π : α → Eng) (e : Eng) (r : Res α) : Prop := ∀ a, r = .ok a → Still e (π a)

namespace StillR
variable {α β : Type} {π : α → Eng} {e : Eng}

theorem pure {a : α} (h : Still e (π a)) : StillR π e (Pure.pure a) := by
  intro b hb; rw [pure_ok] at hb; subst hb; exact h

theorem bind {x : Res β} {f : β → Res α} (h : ∀ b, x = .ok b → StillR π e (f b)) : StillR π e (x >>= f) := by
  intro a ha; rw [bind_ok] at ha
  obtain ⟨b, hx, hb⟩ := ha; exact h b hx a hb

theorem bindE (π' : β → Eng) {x : Res β} {f : β → Res α} (hx : StillR π' e x) (h : ∀ b, StillR π (π' b) (f b)) :
    StillR π e (x >>= f) := by
  intro a ha; rw [bind_ok] at ha
  obtain ⟨b, hx', hb⟩ := ha; exact (hx b hx').trans (h b a hb)

theorem from' {e1 : Eng} {r : Res α} (h : Still e e1) (k : StillR π e1 r) : StillR π e r :=
  fun a ha => h.trans (k a ha)

end StillR

namespace Eng
variable {dbg : Bool} {now : Nat}

theorem still_logPurge (e : Eng) : Still e e.logPurge := by
  unfold logPurge
  split
  · exact Still.refl _
  · split <;> exact ⟨rfl, rfl, rfl, rfl⟩

theorem still_updatePurgeUpto (e : Eng) (x : LogId) : StillR id e (e.updatePurgeUpto dbg x) := by
  unfold updatePurgeUpto
  exact StillR.bind fun _ _ => StillR.pure ⟨rfl, rfl, rfl, rfl⟩

theorem still_schedulePurge (e : Eng) : StillR id e (e.schedulePurge dbg) := by
  unfold schedulePurge
  refine StillR.bind fun o _ => ?_
  split
  · exact still_updatePurgeUpto _ _
  · exact StillR.pure (Still.refl _)

theorem still_triggerSnapshot (e : Eng) : Still e e.triggerSnapshot := by
  unfold triggerSnapshot
  split <;> exact ⟨rfl, rfl, rfl, rfl⟩

theorem still_updateSnapshot (e : Eng) (m : SnapMeta) : Still e (e.updateSnapshot m).2 := by
  unfold updateSnapshot
  split <;> exact ⟨rfl, rfl, rfl, rfl⟩

theorem still_maybeSnapshot (e : Eng) : Still e e.maybeSnapshot := by
  unfold maybeSnapshot
  split
  · exact still_triggerSnapshot _
  · exact Still.refl _

theorem still_tryPurge (e : Eng) : Still e e.tryPurge := by
  unfold tryPurge
  split
  · unfold rhTryPurge
    split
    · exact Still.refl _
    · split
      · exact Still.refl _
      · split
        · exact Still.refl _
        · exact still_logPurge _
  · exact still_logPurge _

theorem still_fhTruncate (e : Eng) (i : Nat) : StillR id e (e.fhTruncate dbg i) := by
  unfold fhTruncate
  refine StillR.bind fun _ _ => ?_
  split
  · exact StillR.pure (Still.refl _)
  · refine StillR.bind fun ms _ => ?_
    dsimp only
    split <;> exact StillR.pure ⟨rfl, rfl, rfl, rfl⟩

theorem still_fhDoAppend (e : Eng) (v : Vote) (es : List Ent) : StillR id e (e.fhDoAppend dbg v es) := by
  unfold fhDoAppend
  refine StillR.bind fun _ _ => StillR.bind fun _ _ => StillR.bind fun _ _ => StillR.bind fun e1 h1 => ?_
  unfold fhAppendMembership at h1
  split at h1
  · rw [pure_ok] at h1; subst h1; exact StillR.pure ⟨rfl, rfl, rfl, rfl⟩
  · rw [bind_ok] at h1
    obtain ⟨ms, _, h1⟩ := h1
    rw [pure_ok] at h1; subst h1; exact StillR.pure ⟨rfl, rfl, rfl, rfl⟩

theorem still_fhAppendEntries (e : Eng) (v : Vote) (prev : Option LogId) (es : List Ent) :
    StillR id e (e.fhAppendEntries dbg v prev es) := by
  unfold fhAppendEntries
  refine StillR.bind fun _ _ => StillR.bind fun st hst => StillR.bind fun since _ => ?_
  have hv := acceptIo_vote hst
  split
  · exact StillR.from' (e1 := { e with st := st }) ⟨hv, rfl, rfl, rfl⟩
      (StillR.bindE id (still_fhTruncate _ _) fun e1 => still_fhDoAppend _ _ _)
  · split
    · exact StillR.pure ⟨hv, rfl, rfl, rfl⟩
    · exact StillR.pure ⟨hv, rfl, rfl, rfl⟩

theorem still_fhEnsure (e : Eng) (prev : Option LogId) : StillR Prod.snd e (e.fhEnsure dbg prev) := by
  unfold fhEnsure
  split
  · exact StillR.pure (Still.refl _)
  · refine StillR.bind fun b _ => ?_
    split
    · exact StillR.pure (Still.refl _)
    · exact StillR.bindE id (still_fhTruncate _ _) fun e1 => StillR.pure (Still.refl _)

theorem still_fhCommit (e : Eng) (lc : Option LogId) : StillR id e (e.fhCommit dbg lc) := by
  unfold fhCommit
  refine StillR.bind fun p hp => ?_
  obtain ⟨ch, st⟩ := p
  have hv := updateCommitted_vote hp
  dsimp only
  split
  · refine StillR.bind fun i _ => StillR.pure (Still.trans ?_ (still_maybeSnapshot _))
    exact ⟨hv, rfl, rfl, rfl⟩
  · exact StillR.pure (Still.refl _)

theorem still_fhInstall (e : Eng) (v : Vote) (m : SnapMeta) : StillR Prod.snd e (e.fhInstall dbg v m) := by
  unfold fhInstall
  split
  · exact StillR.pure (Still.refl _)
  · refine StillR.bind fun last _ => ?_
    have hu := still_updateSnapshot e m
    split
    · next e1 he => rw [he] at hu; exact StillR.pure hu
    · next e1 he =>
      rw [he] at hu
      refine StillR.from' hu (StillR.bindE id ?_ fun e2 => ?_)
      · unfold fhInstallTruncate
        split
        · split
          · exact still_fhTruncate _ _
          · exact StillR.pure (Still.refl _)
        · exact StillR.pure (Still.refl _)
      · refine StillR.bind fun st hst => StillR.bind fun ms _ => StillR.pure ?_
        have hv := acceptIo_vote hst
        refine Still.trans ?_ (still_logPurge _)
        exact ⟨hv, rfl, rfl, rfl⟩

theorem still_finishBuilding (e : Eng) (m : SnapMeta) : StillR id e (e.finishBuilding dbg m) := by
  unfold finishBuilding
  dsimp only
  have hu := still_updateSnapshot { e with st := { e.st with io := { e.st.io with building := false } } } m
  have h0 : Still e { e with st := { e.st with io := { e.st.io with building := false } } } := ⟨rfl, rfl, rfl, rfl⟩
  split
  · next e1 he => rw [he] at hu; exact StillR.pure (h0.trans hu)
  · next e1 he =>
    rw [he] at hu
    exact StillR.from' (h0.trans hu) (StillR.bindE id (still_schedulePurge _) fun e2 => StillR.pure (still_tryPurge _))

theorem still_triggerPurge (e : Eng) (i : Nat) : StillR id e (e.triggerPurge dbg i) := by
  unfold triggerPurge
  split
  · exact StillR.pure (Still.refl _)
  · split
    · exact StillR.pure (Still.refl _)
    · exact StillR.bind fun x _ => StillR.bindE id (still_updatePurgeUpto _ _) fun e1 => StillR.pure (still_tryPurge _)

/-! ## a node under a lease -/

/-- the node follows a leader with a vote not below `v`, and its promise holds at least until `t0` plus the lease -/
structure Under (v : Vote) (t0 : Nat) (e : Eng) : Prop where
  le : v ≤ e.st.vote.data
  com : e.st.vote.data.committed = true
  other : e.st.vote.data.leaderId.node ≠ e.cfg.id
  leader : e.leader = none
  candidate : e.candidate = none
  enabled : e.st.vote.enabled = true
  lease : e.st.vote.lease = e.cfg.leaderLease
  since : ∃ u, e.st.vote.lastUpdate = some u ∧ t0 ≤ u

theorem Under.still {v : Vote} {t0 : Nat} {e e' : Eng} (h : Under v t0 e) (k : Still e e') : Under v t0 e' := by
  obtain ⟨h1, h2, h3, h4, h5, h6, h7, h8⟩ := h
  exact ⟨by rw [k.vote]; exact h1, by rw [k.vote]; exact h2, by rw [k.vote, k.cfg]; exact h3, by rw [k.leader]; exact h4,
    by rw [k.candidate]; exact h5, by rw [k.vote]; exact h6, by rw [k.vote, k.cfg]; exact h7, by rw [k.vote]; exact h8⟩

theorem Under.notExpired {v : Vote} {t0 : Nat} {e : Eng} (h : Under v t0 e) (hn : now ≤ t0 + e.cfg.leaderLease) (t : Nat) :
    e.st.vote.isExpired now t = false := by
  obtain ⟨u, h1, h2⟩ := h.since
  unfold Leased.isExpired
  rw [h1]
  simp only [decide_eq_false_iff_not, h.lease]
  omega

theorem Under.notLeader {v : Vote} {t0 : Nat} {e : Eng} (h : Under v t0 e) : e.st.isLeading e.cfg.id = false := by
  unfold RState.isLeading
  rw [Bool.and_eq_false_iff]
  right
  simpa using h.other

theorem Under.updateInternal {v : Vote} {t0 : Nat} {e e' : Eng} (h : Under v t0 e) (hr : e.updateInternal dbg now = .ok e') : Under v t0 e' := by
  unfold Eng.updateInternal at hr
  have hl := h.notLeader
  rw [RState.isLeader, hl] at hr
  simp only [Bool.false_and, Bool.false_eq_true, if_false] at hr
  unfold becomeFollowing at hr
  rw [bind_ok] at hr
  obtain ⟨_, _, hr⟩ := hr
  rw [pure_ok] at hr; subst hr
  exact h.still ⟨rfl, h.leader.symm, h.candidate.symm, rfl⟩

/-- a leader's vote is accepted -/
theorem under_updateVote {v w : Vote} {t0 : Nat} {e e' : Eng} (hw : w.committed = true) (ho : w.leaderId.node ≠ e.cfg.id)
    (hle : v ≤ w) (ht : t0 ≤ now) (hen : e.st.vote.data < w ∨ e.st.vote.enabled = true)
    (hr : e.updateVote dbg now w = .ok (true, e')) : Under v t0 e' ∧ e'.cfg = e.cfg := by
  unfold updateVote at hr
  split at hr
  · next hew =>
    rw [bind_ok] at hr
    obtain ⟨e1, h1, hr⟩ := hr
    rw [bind_ok] at hr
    obtain ⟨e2, h2, hr⟩ := hr
    rw [pure_ok] at hr; cases hr
    have hu : e1.st.vote = ⟨w, some now, e.cfg.leaderLease, true⟩ ∧ e1.cfg = e.cfg := by
      unfold storeVote at h1
      split at h1
      · rw [bind_ok] at h1
        obtain ⟨st, hst, h1⟩ := h1
        rw [pure_ok] at h1; subst h1
        exact ⟨acceptIo_vote hst, rfl⟩
      · next hn =>
        rw [bind_ok] at h1
        obtain ⟨vt, hvt, h1⟩ := h1
        rw [pure_ok] at h1; subst h1
        unfold Leased.touch at hvt
        rw [bind_ok] at hvt
        obtain ⟨_, _, hvt⟩ := hvt
        rw [pure_ok] at hvt; subst hvt
        have hen' : e.st.vote.enabled = true := by
          rcases hen with h | h
          · exact absurd h hn
          · exact h
        have : e.st.vote.data = w := le_antisymm hew (not_lt.1 hn)
        refine ⟨?_, rfl⟩
        simp only [hen', if_true]
        rw [← this]
    obtain ⟨hu, hc⟩ := hu
    have hnl : e1.st.isLeading e1.cfg.id = false := by
      unfold RState.isLeading
      rw [Bool.and_eq_false_iff]
      right
      rw [hu, hc]; simpa using ho
    unfold updateInternal at h2
    rw [RState.isLeader, hnl] at h2
    simp only [Bool.false_and, Bool.false_eq_true, if_false] at h2
    unfold becomeFollowing at h2
    rw [bind_ok] at h2
    obtain ⟨_, _, h2⟩ := h2
    rw [pure_ok] at h2; subst h2
    refine ⟨⟨?_, ?_, ?_, rfl, rfl, ?_, ?_, now, ?_, ht⟩, hc⟩ <;> simp only [updateServerState, hu, hc]
    · exact hle
    · exact hw
    · exact ho
  · rw [pure_ok] at hr; cases hr

theorem updateVote_false {w : Vote} {e e' : Eng} (hr : e.updateVote dbg now w = .ok (false, e')) : e' = e := by
  unfold updateVote at hr
  split at hr
  · rw [bind_ok] at hr
    obtain ⟨e1, h1, hr⟩ := hr
    rw [bind_ok] at hr
    obtain ⟨e2, h2, hr⟩ := hr
    rw [pure_ok] at hr; cases hr
  · rw [pure_ok] at hr; cases hr; rfl

theorem updateVote_le {w : Vote} {e e' : Eng} (hr : e.updateVote dbg now w = .ok (true, e')) : e.st.vote.data ≤ w := by
  unfold updateVote at hr
  split at hr
  · next h => exact h
  · rw [pure_ok] at hr; cases hr

theorem under_updateVote' {v w : Vote} {t0 : Nat} {e e' : Eng} {b : Bool} (h : Under v t0 e) (hw : e.st.vote.data ≤ w → w.committed = true ∧ w.leaderId.node ≠ e.cfg.id)
    (ht : t0 ≤ now) (hr : e.updateVote dbg now w = .ok (b, e')) : Under v t0 e' ∧ e'.cfg = e.cfg := by
  cases b with
  | false => rw [updateVote_false hr]; exact ⟨h, rfl⟩
  | true =>
    have hle := updateVote_le hr
    obtain ⟨h1, h2⟩ := hw hle
    exact under_updateVote h1 h2 (h.le.trans hle) ht (Or.inr h.enabled) hr

theorem cfg_appendEntries {v : Vote} {t0 : Nat} {e e' : Eng} {w : Vote} {prev : Option LogId} {es : List Ent} {r : AppendResp} 
    (hu : ∀ b e1, e.updateVote dbg now w = .ok (b, e1) → Under v t0 e1 ∧ e1.cfg = e.cfg)
    (hr : e.appendEntries dbg now w prev es = .ok (r, e')) : Under v t0 e' ∧ e'.cfg = e.cfg := by
  unfold appendEntries at hr
  rw [bind_ok] at hr
  obtain ⟨⟨ok, e1⟩, h1, hr⟩ := hr
  obtain ⟨k1, k2⟩ := hu _ _ h1
  dsimp only at hr
  split at hr
  · rw [bind_ok] at hr
    obtain ⟨lv, _, hr⟩ := hr
    rw [bind_ok] at hr
    obtain ⟨⟨ok2, e2⟩, h2, hr⟩ := hr
    have s2 := still_fhEnsure _ _ _ h2
    dsimp only at hr s2
    split at hr
    · rw [bind_ok] at hr
      obtain ⟨e3, h3, hr⟩ := hr
      rw [pure_ok] at hr; cases hr
      have s3 := s2.trans (still_fhAppendEntries _ _ _ _ _ h3)
      exact ⟨k1.still s3, s3.cfg.trans k2⟩
    · rw [pure_ok] at hr; cases hr
      exact ⟨k1.still s2, s2.cfg.trans k2⟩
  · rw [pure_ok] at hr; cases hr
    exact ⟨k1, k2⟩

theorem under_handleAppend {v : Vote} {t0 : Nat} {e e' : Eng} {tx : Nat} {w : Vote} {prev : Option LogId} {es : List Ent} {lc : Option LogId}
    (hu : ∀ b e1, e.updateVote dbg now w = .ok (b, e1) → Under v t0 e1 ∧ e1.cfg = e.cfg)
    (hr : e.handleAppend dbg now tx w prev es lc = .ok e') : Under v t0 e' ∧ e'.cfg = e.cfg := by
  unfold handleAppend at hr
  rw [bind_ok] at hr
  obtain ⟨⟨r, e1⟩, h1, hr⟩ := hr
  obtain ⟨k1, k2⟩ := cfg_appendEntries hu h1
  dsimp only at hr
  split at hr
  · rw [bind_ok] at hr
    obtain ⟨acc, _, hr⟩ := hr
    rw [bind_ok] at hr
    obtain ⟨lv, _, hr⟩ := hr
    have s := (show Still e1 (e1.push _) from ⟨rfl, rfl, rfl, rfl⟩).trans (still_fhCommit _ _ _ hr)
    exact ⟨k1.still s, s.cfg.trans k2⟩
  · rw [pure_ok] at hr; subst hr
    exact ⟨k1.still ⟨rfl, rfl, rfl, rfl⟩, k2⟩

theorem under_handleInstall {v : Vote} {t0 : Nat} {e e' : Eng} {tx : Nat} {w : Vote} {m : SnapMeta}
    (hu : ∀ b e1, e.updateVote dbg now w = .ok (b, e1) → Under v t0 e1 ∧ e1.cfg = e.cfg)
    (hr : e.handleInstall dbg now tx w m = .ok e') : Under v t0 e' ∧ e'.cfg = e.cfg := by
  unfold handleInstall at hr
  rw [bind_ok] at hr
  obtain ⟨⟨ok, e1⟩, h1, hr⟩ := hr
  obtain ⟨k1, k2⟩ := hu _ _ h1
  dsimp only at hr
  split at hr
  · rw [bind_ok] at hr
    obtain ⟨lv, _, hr⟩ := hr
    rw [bind_ok] at hr
    obtain ⟨⟨c, e2⟩, h2, hr⟩ := hr
    rw [pure_ok] at hr; subst hr
    have s := still_fhInstall _ _ _ _ h2
    dsimp only at s
    exact ⟨k1.still ⟨s.vote, s.leader, s.candidate, s.cfg⟩, s.cfg.trans k2⟩
  · rw [pure_ok] at hr; subst hr
    exact ⟨k1.still ⟨rfl, rfl, rfl, rfl⟩, k2⟩

/-- an input that does not void a promise: no election by command or on behalf of the leader, no election of an only voter; requests of
leaders come from other nodes -/
def Plain (e : Eng) : Input → Prop
  | .appendReq _ w _ _ _ => e.st.vote.data ≤ w → w.committed = true ∧ w.leaderId.node ≠ e.cfg.id
  | .snapReq _ w _ => e.st.vote.data ≤ w → w.committed = true ∧ w.leaderId.node ≠ e.cfg.id
  | .electCmd => False
  | .handleTransfer w _ => e.st.vote.data ≠ w
  | .tick _ _ _ => e.st.ms.effective.mem.voterIds.length ≠ 1
  | _ => True

theorem leaderHandler_none {e : Eng} (h : e.leader = none) : e.leaderHandler dbg = .ok none := by
  unfold leaderHandler
  rw [h]; rfl

theorem Under.noMatch {v : Vote} {t0 : Nat} {e : Eng} (h : Under v t0 e) (s : Vote) : e.voteMatch s = false := by
  unfold voteMatch
  rw [h.leader, h.candidate]
  split <;> rfl

/-- a vote request under a lease: nothing changes, the answer refuses -/
theorem under_voteReq {v : Vote} {t0 : Nat} {e : Eng} (h : Under v t0 e) (hn : now ≤ t0 + e.cfg.leaderLease) (tx : Nat) (w : Vote) (last : Option LogId) :
    e.input dbg now (.voteReq tx w last) =
      .ok (e.push (.respond (some (.ioFlushed (IOId.new e.st.vote.data))) tx (.vote e.st.vote.data e.st.lastLogId false))) := by
  simp only [input, coreVoteReq, handleVoteReq]
  rw [h.com, h.notExpired hn 0]
  rfl

/-- every other input keeps the promise -/
theorem Under.input {v : Vote} {t0 : Nat} {e e' : Eng} {i : Input} (h : Under v t0 e) (ht : t0 ≤ now) (hn : now ≤ t0 + e.cfg.leaderLease)
    (hp : e.Plain i) (hr : e.input dbg now i = .ok e') : Under v t0 e' ∧ e'.cfg = e.cfg := by
  have hl := leaderHandler_none (dbg := dbg) h.leader
  have hw : ∀ p o e1, e.writeEntry dbg p = .ok (o, e1) → e1 = e := by
    intro p o e1 h1
    unfold writeEntry at h1
    rw [hl] at h1
    cases h1; rfl
  have hs : ∀ {e1 : Eng}, Still e e1 → Under v t0 e1 ∧ e1.cfg = e.cfg := fun s => ⟨h.still s, s.cfg⟩
  cases i with
  | appendReq tx w prev es lc =>
    exact under_handleAppend (fun b e1 h1 => under_updateVote' h hp ht h1) hr
  | voteReq tx w last =>
    rw [under_voteReq h hn] at hr
    cases hr
    exact hs ⟨rfl, rfl, rfl, rfl⟩
  | snapReq tx w m => exact under_handleInstall (fun b e1 h1 => under_updateVote' h hp ht h1) hr
  | init tx m =>
    simp only [Eng.input, coreInit] at hr
    have hi : e.st.isInitialized = true := by
      unfold RState.isInitialized
      rw [Bool.or_eq_true]
      right
      rw [decide_eq_true_eq]
      intro hv
      have := h.com
      rw [hv] at this; cases this
    unfold initCluster at hr
    rw [hi] at hr
    cases hr
    exact hs ⟨rfl, rfl, rfl, rfl⟩
  | write p =>
    simp only [Eng.input] at hr
    rw [bind_ok] at hr
    obtain ⟨⟨o, e1⟩, h1, hr⟩ := hr
    rw [pure_ok] at hr; subst hr
    rw [hw _ _ _ h1]; exact hs (Still.refl _)
  | change c r =>
    simp only [Eng.input] at hr
    rw [bind_ok] at hr
    obtain ⟨⟨o, e1⟩, h1, hr⟩ := hr
    rw [pure_ok] at hr; subst hr
    unfold changeMembership at h1
    split at h1
    · rw [pure_ok] at h1; cases h1; exact hs (Still.refl _)
    · rw [hw _ _ _ h1]; exact hs (Still.refl _)
  | handleTransfer w target =>
    simp only [Eng.input, coreHandleTransfer] at hr
    rw [if_neg hp, pure_ok] at hr; subst hr
    exact hs (Still.refl _)
  | electCmd => exact absurd hp id
  | heartbeatCmd =>
    simp only [Eng.input, coreHeartbeat] at hr
    rw [hl] at hr; cases hr; exact hs (Still.refl _)
  | snapshotCmd =>
    simp only [Eng.input, pure_ok] at hr; subst hr
    exact hs (still_triggerSnapshot _)
  | purgeCmd i => exact hs (still_triggerPurge _ _ _ hr)
  | transferCmd t =>
    simp only [Eng.input, triggerTransfer] at hr
    rw [hl] at hr; cases hr; exact hs (Still.refl _)
  | voteResp target w last granted sender =>
    simp only [Eng.input] at hr
    rw [h.candidate] at hr
    cases hr; exact hs (Still.refl _)
  | higherVote w sender =>
    simp only [Eng.input] at hr
    rw [h.noMatch] at hr
    cases hr; exact hs (Still.refl _)
  | tick el hb iv =>
    simp only [Eng.input, coreTick] at hr
    rw [bind_ok] at hr
    obtain ⟨e1, h1, hr⟩ := hr
    have he1 : e1 = e := by
      have hq : decide (e.st.ms.effective.mem.voterIds.length = 1) = false := decide_eq_false hp
      unfold tickElection at h1
      dsimp only at h1
      rw [hq, h.notExpired hn] at h1
      simp only [Bool.or_self, Bool.false_eq_true, if_false] at h1
      split at h1
      · cases h1; rfl
      · split at h1
        · cases h1; rfl
        · split at h1 <;> (cases h1; rfl)
    subst he1
    rw [bind_ok] at hr
    obtain ⟨e2, h2, hr⟩ := hr
    unfold tickHeartbeat at h2
    rw [h.leader] at h2
    cases h2
    split at hr
    · unfold leaderStepDown at hr
      split at hr
      · have := h.updateInternal hr
        refine ⟨this, ?_⟩
        have hl' := h.notLeader
        unfold Eng.updateInternal at hr
        rw [RState.isLeader, hl'] at hr
        simp only [Bool.false_and, Bool.false_eq_true, if_false] at hr
        unfold becomeFollowing at hr
        rw [bind_ok] at hr
        obtain ⟨_, _, hr⟩ := hr
        rw [pure_ok] at hr; subst hr; rfl
      · cases hr; exact hs (Still.refl _)
    · cases hr; exact hs (Still.refl _)
  | localIO io =>
    simp only [Eng.input, coreLocalIO] at hr
    rw [bind_ok] at hr
    obtain ⟨p, _, hr⟩ := hr
    have hl1 : (e.withProg p).leader = none := h.leader
    rw [hl1] at hr
    dsimp only at hr
    split at hr <;> (cases hr; exact hs ⟨rfl, rfl, rfl, rfl⟩)
  | replProgress s target r =>
    simp only [Eng.input, coreReplProgress, sessionMatch, h.noMatch, Bool.false_and] at hr
    cases hr; exact hs (Still.refl _)
  | hbProgress s target t =>
    simp only [Eng.input, coreHbProgress, sessionMatch, h.noMatch, Bool.false_and] at hr
    cases hr; exact hs (Still.refl _)
  | built m =>
    simp only [Eng.input, coreBuilt] at hr
    rw [bind_ok] at hr
    obtain ⟨e1, h1, hr⟩ := hr
    rw [bind_ok] at hr
    obtain ⟨s, _, hr⟩ := hr
    rw [pure_ok] at hr; subst hr
    exact hs ((still_finishBuilding _ _ _ h1).trans ⟨rfl, rfl, rfl, rfl⟩)
  | installed io m =>
    simp only [Eng.input, coreInstalled, bind_ok, pure_ok] at hr
    obtain ⟨_, _, _, _, _, _, rfl⟩ := hr
    exact hs ⟨rfl, rfl, rfl, rfl⟩
  | applied last =>
    simp only [Eng.input, coreApplied, bind_ok, pure_ok] at hr
    obtain ⟨_, _, rfl⟩ := hr
    exact hs ⟨rfl, rfl, rfl, rfl⟩
  | initiate =>
    simp only [Eng.input, coreInitiate] at hr
    rw [hl] at hr
    cases hr; exact hs (Still.refl _)

end Eng
end Openraft.Engine
