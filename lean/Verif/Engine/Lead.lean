import Verif.Engine.Stream

/-!
# When a node is leader after an input

A node that leads after an input did not cut or replace its log while handling it; and it led before, or a
greater vote was stored.
-/

set_option autoImplicit false

namespace Openraft.Engine
open Openraft.Repl (Panic dassert Inflight)
open Openraft.Cluster (Payload)

/-- the command neither truncates the log nor installs a snapshot -/
abbrev PlainC (c : Cmd) : Prop := c.plain = true

instance : Lets PlainC := ⟨fun c hc => by
  cases c with
  | sm c => cases c <;> first | rfl | cases hc
  | truncate _ => cases hc
  | _ => rfl⟩
instance : LetsVote PlainC := ⟨fun _ => rfl⟩
instance : LetsAsk PlainC := ⟨fun _ _ => rfl⟩
instance : LetsAnswer PlainC := ⟨fun _ _ _ => rfl⟩
instance : LetsPurge PlainC := ⟨fun _ => rfl⟩

/-- the same leader data -/
abbrev SameL (e e' : Eng) : Prop := e'.leader = e.leader

namespace Eng
variable {dbg : Bool} {now : Nat}

theorem plain_input {e e' : Eng} {i : Input} (hi : i.fromLeader = false) (hr : e.input dbg now i = .ok e') :
    Emits PlainC e e' := by
  revert e'
  show EmitsR PlainC id e (e.input dbg now i)
  by_cases hp : i.mayPurge = true
  · cases i with
    | snapReq tx v m => cases hi
    | purgeCmd i => exact emits_triggerPurge _ _
    | replProgress s target r =>
      simp only [input, coreReplProgress]
      split
      · exact EmitsR.bind fun l => emits_rhUpdateProgress _ _ _ _
      · exact EmitsR.pure (Emits.refl _)
    | built m =>
      simp only [input, coreBuilt]
      exact EmitsR.bindE id (emits_finishBuilding _ _) fun e1 => EmitsR.bind fun io => EmitsR.pure (emits_same rfl rfl)
    | _ => cases hp
  · exact emits_input_no e i (fun _ => inferInstance) (by simpa using hp) hi

/-! ## a greater vote was stored -/

/-- a greater vote is among the stored ones -/
def Rose (e e' : Eng) : Prop := ∃ v, e.st.vote.data < v ∧ Cmd.saveVote v ∈ e'.out

theorem Rose.grow {e e1 e2 : Eng} (h : Rose e e1) (g : Grow e1 e2) : Rose e e2 := by
  obtain ⟨v, h1, h2⟩ := h
  exact ⟨v, h1, g.2.subset h2⟩

theorem Rose.lt {g0 : Gh} {e e' : Eng} (h : Rose e e') (i : EInv g0 e') : e.st.vote.data < e'.st.vote.data := by
  obtain ⟨v, h1, h2⟩ := h
  have := Gh.saved_le i.lm.oks h2
  rw [i.pj.gv] at this
  exact lt_of_lt_of_le h1 this

theorem rose_storeVote {e e1 : Eng} {lease : Nat} {v : Vote} (hlt : e.st.vote.data < v)
    (hr : storeVote dbg now lease e v = .ok e1) : Rose e e1 := by
  unfold storeVote at hr
  rw [if_pos hlt] at hr
  simp only [bind_ok, pure_ok] at hr
  obtain ⟨st, _, hr⟩ := hr
  subst hr
  exact ⟨v, hlt, by simp [push]⟩

theorem rose_updateVote_gt {e e' : Eng} {v : Vote} {b : Bool} (hlt : e.st.vote.data < v)
    (hr : updateVote dbg now e v = .ok (b, e')) : Rose e e' := by
  unfold updateVote at hr
  rw [if_pos (le_of_lt hlt)] at hr
  simp only [bind_ok, pure_ok] at hr
  obtain ⟨e1, h1, e2, h2, hr⟩ := hr
  cases hr
  exact (rose_storeVote hlt h1).grow (grow_updateInternal _ _ h2)

theorem lead_updateInternal {e e' : Eng} (hl : e.leader = none) (hn : e.st.isLeader e.cfg.id = false)
    (hr : updateInternal dbg now e = .ok e') : e'.leader = none := by
  unfold updateInternal at hr
  rw [hn] at hr
  simp only [Bool.false_eq_true, if_false] at hr
  split at hr
  · rw [pure_ok] at hr; subst hr; exact hl
  · unfold becomeFollowing at hr
    simp only [bind_ok, pure_ok] at hr
    obtain ⟨_, _, hr⟩ := hr
    subst hr; rfl

theorem lead_updateVote {e e' : Eng} {v : Vote} {b : Bool} (hl : e.leader = none) (hn : e.st.isLeader e.cfg.id = false)
    (hr : updateVote dbg now e v = .ok (b, e')) : e'.leader = none ∨ Rose e e' := by
  by_cases hlt : e.st.vote.data < v
  · exact Or.inr (rose_updateVote_gt hlt hr)
  · left
    unfold updateVote at hr
    split at hr
    · simp only [bind_ok, pure_ok] at hr
      obtain ⟨e1, h1, e2, h2, hr⟩ := hr
      cases hr
      obtain ⟨f, _, hlead⟩ := storeVote_eq hlt h1
      refine lead_updateInternal (hlead.trans hl) ?_ h2
      have hv := f.vote
      unfold RState.isLeader RState.isLeading at hn ⊢
      rw [hv, f.cfg, f.ms]; exact hn
    · rw [pure_ok] at hr; cases hr; exact hl

theorem rose_elect {e e' : Eng} (hr : elect dbg now e = .ok e') : Rose e e' := by
  unfold elect at hr
  simp only [bind_ok, pure_ok] at hr
  obtain ⟨⟨ok, e2⟩, h1, _, _, hr⟩ := hr
  subst hr
  obtain ⟨v, k1, k2⟩ := rose_updateVote_gt (vote_lt_new e.cfg.id) h1
  refine ⟨v, k1, ?_⟩
  show _ ∈ e2.out ++ _
  exact List.mem_append_left _ k2

theorem lead_logPurge (e : Eng) : SameL e e.logPurge := by
  unfold logPurge
  split
  · rfl
  · split <;> rfl

theorem lead_maybeSnapshot (e : Eng) : SameL e e.maybeSnapshot := by
  unfold maybeSnapshot triggerSnapshot
  split
  · split <;> rfl
  · rfl

theorem lead_updatePurgeUpto {e e' : Eng} {x : LogId} (hr : e.updatePurgeUpto dbg x = .ok e') : SameL e e' := by
  unfold updatePurgeUpto at hr
  simp only [bind_ok, pure_ok] at hr
  obtain ⟨_, _, hr⟩ := hr
  subst hr; rfl

theorem lead_tryPurge {e : Eng} (hl : e.leader = none) : e.tryPurge.leader = none := by
  unfold tryPurge
  rw [hl]
  exact (lead_logPurge e).trans hl

theorem lead_establish {e e' : Eng} {c : Candidate} (hl : e.leader = none) (hc : e.candidate = some c) (hcv : e.st.vote.data = c.vote)
    (hcm : c.vote.committed = false) (hr : establishLeader dbg now e = .ok e') : e'.leader = none ∨ Rose e e' := by
  unfold establishLeader at hr
  simp only [bind_ok, unwrap_ok] at hr
  obtain ⟨c', hc', o, ho, hr⟩ := hr
  rw [hc] at hc'
  cases hc'
  cases o with
  | none => simp only [pure_ok] at hr; subst hr; exact Or.inl hl
  | some l =>
    right
    simp only [bind_ok] at hr
    obtain ⟨⟨ok, e2⟩, h2, _, _, st, hst, o3, h3, l3, hl3, hr⟩ := hr
    have hlv : l.vote = c.vote.toCommitted := by
      unfold establish at ho
      rw [bind_ok] at ho
      obtain ⟨_, _, ho⟩ := ho
      simp only [hl] at ho
      rw [if_neg (by simp), bind_ok] at ho
      obtain ⟨l', hl', ho⟩ := ho
      rw [pure_ok] at ho
      cases ho
      unfold Candidate.intoLeader at hl'
      rw [bind_ok] at hl'
      obtain ⟨_, _, hl'⟩ := hl'
      rw [(newLeader_ok hl').1]; rfl
    have hlt : e.st.vote.data < l.vote := by
      rw [hcv, hlv, Vote.lt_def]
      exact Or.inr ⟨rfl, hcm, rfl⟩
    have := rose_updateVote_gt (e := rhRebuildStreams { e with candidate := none, leader := some l } l) hlt h2
    have h4 : Rose e e2 := this
    exact h4.grow ((grow_same (e1 := { e2 with st := st }) rfl rfl).trans (grow_lhAppend _ _ _ _ hr))

/-! ## requests of a leader do not touch the role data after the vote was taken -/

theorem lead_fhTruncate {e e' : Eng} {i : Nat} (hr : e.fhTruncate dbg i = .ok e') : SameL e e' := by
  unfold fhTruncate at hr
  rw [bind_ok] at hr
  obtain ⟨_, _, hr⟩ := hr
  split at hr
  · rw [pure_ok] at hr; subst hr; rfl
  · rw [bind_ok] at hr
    obtain ⟨_, _, hr⟩ := hr
    dsimp only at hr
    split at hr
    · rw [pure_ok] at hr; subst hr; rfl
    · rw [pure_ok] at hr; subst hr; rfl

theorem lead_fhAppendMembership {e e' : Eng} {es : List Ent} (hr : e.fhAppendMembership dbg es = .ok e') : SameL e e' := by
  unfold fhAppendMembership at hr
  split at hr
  · rw [pure_ok] at hr; subst hr; rfl
  · simp only [bind_ok, pure_ok] at hr
    obtain ⟨_, _, hr⟩ := hr
    subst hr; rfl

theorem lead_fhDoAppend {e e' : Eng} {v : Vote} {es : List Ent} (hr : e.fhDoAppend dbg v es = .ok e') : SameL e e' := by
  unfold fhDoAppend at hr
  simp only [bind_ok, pure_ok] at hr
  obtain ⟨_, _, _, _, _, _, e1, h1, hr⟩ := hr
  subst hr
  have h2 := lead_fhAppendMembership h1
  exact h2

theorem lead_fhAppendEntries {e e' : Eng} {v : Vote} {prev : Option LogId} {es : List Ent}
    (hr : e.fhAppendEntries dbg v prev es = .ok e') : SameL e e' := by
  unfold fhAppendEntries at hr
  simp only [bind_ok] at hr
  obtain ⟨_, _, st, _, _, _, hr⟩ := hr
  split at hr
  · rw [bind_ok] at hr
    obtain ⟨e1, h1, hr⟩ := hr
    exact (lead_fhDoAppend hr).trans (lead_fhTruncate (e := { e with st := st }) h1)
  · split at hr
    · rw [pure_ok] at hr; subst hr; rfl
    · rw [pure_ok] at hr; subst hr; rfl

theorem lead_fhEnsure {e e' : Eng} {prev : Option LogId} {b : Bool} (hr : e.fhEnsure dbg prev = .ok (b, e')) : SameL e e' := by
  unfold fhEnsure at hr
  split at hr
  · rw [pure_ok] at hr; cases hr; rfl
  · rw [bind_ok] at hr
    obtain ⟨_, _, hr⟩ := hr
    split at hr
    · rw [pure_ok] at hr; cases hr; rfl
    · simp only [bind_ok, pure_ok] at hr
      obtain ⟨e1, h1, hr⟩ := hr
      cases hr
      exact lead_fhTruncate h1

theorem lead_fhCommit {e e' : Eng} {lc : Option LogId} (hr : e.fhCommit dbg lc = .ok e') : SameL e e' := by
  unfold fhCommit at hr
  rw [bind_ok] at hr
  obtain ⟨⟨ch, st⟩, _, hr⟩ := hr
  dsimp only at hr
  split at hr
  · simp only [bind_ok, pure_ok] at hr
    obtain ⟨_, _, hr⟩ := hr
    subst hr
    exact (lead_maybeSnapshot _)
  · rw [pure_ok] at hr; subst hr; rfl

theorem lead_fhInstall {e e' : Eng} {v : Vote} {m : SnapMeta} {c : Option Cond}
    (hr : e.fhInstall dbg v m = .ok (c, e')) : SameL e e' := by
  unfold fhInstall at hr
  split at hr
  · rw [pure_ok] at hr; cases hr; rfl
  · rw [bind_ok] at hr
    obtain ⟨last, _, hr⟩ := hr
    have hu : SameL e (e.updateSnapshot m).2 := by unfold updateSnapshot; split <;> rfl
    split at hr
    · next e1 he => rw [he] at hu; rw [pure_ok] at hr; cases hr; exact hu
    · next e1 he =>
      rw [he] at hu
      simp only [bind_ok, pure_ok] at hr
      obtain ⟨e2, h2, st, _, ms, _, hr⟩ := hr
      cases hr
      have h2' : SameL e1 e2 := by
        unfold fhInstallTruncate at h2
        split at h2
        · split at h2
          · exact lead_fhTruncate h2
          · rw [pure_ok] at h2; subst h2; rfl
        · rw [pure_ok] at h2; subst h2; rfl
      exact (lead_logPurge _).trans (h2'.trans hu)

theorem lead_appendReq {g0 : Gh} {e e' : Eng} {tx : Nat} {v : Vote} {prev : Option LogId} {es : List Ent} {lc : Option LogId}
    (h : EInv g0 e) (ho : InputOk e (.appendReq tx v prev es lc)) (hr : e.handleAppend dbg now tx v prev es lc = .ok e') :
    e'.leader = none ∨ (e'.leader = e.leader ∧ Emits PlainC e e' ∧ e'.st.vote.data = e.st.vote.data) := by
  unfold handleAppend at hr
  rw [bind_ok] at hr
  obtain ⟨⟨r, e1⟩, h1, hr⟩ := hr
  dsimp only at hr
  have hmid : e1.leader = none ∨ (e1 = e ∧ r ≠ .success) := by
    unfold appendEntries at h1
    rw [bind_ok] at h1
    obtain ⟨⟨ok, e2⟩, h2, h1⟩ := h1
    dsimp only at h1
    by_cases hle : e.st.vote.data ≤ v
    · left
      obtain ⟨hnd, hcm, _⟩ := ho hle
      obtain ⟨_, h3, _, hb⟩ := inv_updateVote h (fun hx => absurd hx hnd) h2
      have hok := h3.2 hle
      have hlead := (hb hok hcm hnd).fol.leader
      rw [if_pos hok] at h1
      simp only [bind_ok] at h1
      obtain ⟨_, _, ⟨ok2, e3⟩, h4, h1⟩ := h1
      have h4' := (lead_fhEnsure h4).trans hlead
      dsimp only at h1
      split at h1
      · simp only [bind_ok, pure_ok] at h1
        obtain ⟨e4, h5, h1⟩ := h1
        cases h1
        exact (lead_fhAppendEntries h5).trans h4'
      · rw [pure_ok] at h1; cases h1; exact h4'
    · right
      unfold updateVote at h2
      rw [if_neg hle, pure_ok] at h2
      cases h2
      simp only [Bool.false_eq_true, if_false, pure_ok] at h1
      cases h1
      exact ⟨rfl, fun hx => by cases hx⟩
  split at hr
  · next hs =>
    left
    rcases hmid with hm | hm
    · simp only [bind_ok] at hr
      obtain ⟨_, _, _, _, hr⟩ := hr
      exact (lead_fhCommit hr).trans hm
    · exact absurd hs hm.2
  · rw [pure_ok] at hr
    subst hr
    rcases hmid with hm | hm
    · exact Or.inl hm
    · rw [hm.1]; exact Or.inr ⟨rfl, emits_push _ _, rfl⟩

theorem lead_snapReq {g0 : Gh} {e e' : Eng} {tx : Nat} {v : Vote} {m : SnapMeta}
    (h : EInv g0 e) (ho : InputOk e (.snapReq tx v m)) (hr : e.handleInstall dbg now tx v m = .ok e') :
    e'.leader = none ∨ (e'.leader = e.leader ∧ Emits PlainC e e' ∧ e'.st.vote.data = e.st.vote.data) := by
  unfold handleInstall at hr
  rw [bind_ok] at hr
  obtain ⟨⟨ok, e1⟩, h1, hr⟩ := hr
  dsimp only at hr
  by_cases hle : e.st.vote.data ≤ v
  · left
    obtain ⟨hnd, hcm, _⟩ := ho hle
    obtain ⟨_, h3, _, hb⟩ := inv_updateVote h (fun hx => absurd hx hnd) h1
    have hok := h3.2 hle
    have hlead := (hb hok hcm hnd).fol.leader
    rw [if_pos hok] at hr
    simp only [bind_ok, pure_ok] at hr
    obtain ⟨_, _, ⟨c, e2⟩, h4, hr⟩ := hr
    subst hr
    exact (lead_fhInstall h4).trans hlead
  · unfold updateVote at h1
    rw [if_neg hle, pure_ok] at h1
    cases h1
    simp only [Bool.false_eq_true, if_false, pure_ok] at hr
    subst hr
    exact Or.inr ⟨rfl, emits_push _ _, rfl⟩

/-- without leader data before, there is none after, or a greater vote was stored -/
theorem lead_other {g0 : Gh} {e e' : Eng} {i : Input} (h : EInv g0 e) (hl : e.leader = none) (hi : i.fromLeader = false)
    (hr : e.input dbg now i = .ok e') : e'.leader = none ∨ Rose e e' := by
  have hn := h.pj.nolead hl
  have hlh : e.leaderHandler dbg = .ok none := by unfold leaderHandler; rw [hl]; rfl
  cases i with
  | appendReq tx v prev es lc => cases hi
  | snapReq tx v m => cases hi
  | voteReq tx v last =>
    simp only [input, coreVoteReq, bind_ok, pure_ok] at hr
    obtain ⟨⟨r, e1⟩, h1, hr⟩ := hr
    subst hr
    unfold handleVoteReq at h1
    split at h1
    · rw [pure_ok] at h1; cases h1; exact Or.inl hl
    · split at h1
      · simp only [bind_ok, pure_ok] at h1
        obtain ⟨⟨b, e2⟩, h2, h1⟩ := h1
        cases h1
        rcases lead_updateVote hl hn h2 with h3 | h3
        · exact Or.inl h3
        · exact Or.inr (h3.grow (grow_push _ _))
      · rw [pure_ok] at h1; cases h1; exact Or.inl hl
  | init tx m =>
    simp only [input, coreInit, bind_ok, pure_ok] at hr
    obtain ⟨⟨r, e1⟩, h1, hr⟩ := hr
    subst hr
    unfold initCluster at h1
    split at h1
    · rw [pure_ok] at h1; cases h1; exact Or.inl hl
    · next hni =>
      split at h1
      · rw [pure_ok] at h1; cases h1; exact Or.inl hl
      · right
        simp only [bind_ok, pure_ok] at h1
        obtain ⟨v, hv, e2, he2, e3, he3, h1⟩ := h1
        cases h1
        have hvote : e.st.vote.data = ⟨⟨0, 0⟩, false⟩ := by
          unfold RState.isInitialized at hni
          by_contra hne
          simp [hne] at hni
        obtain ⟨v, k1, k2⟩ := rose_elect he3
        have hle : ¬ v ≤ e.st.vote.data := by
          rw [hvote]
          intro hle
          rcases lt_or_eq_of_le hle with h5 | h5
          · exact vote_min h5
          · rw [h5] at k1; exact vote_min k1
        exact ⟨v, not_le.1 hle, List.mem_append_left _ k2⟩
  | write p =>
    simp only [input, writeEntry, hlh, bind_ok, pure_ok] at hr
    obtain ⟨⟨r, e1⟩, h1, hr⟩ := hr
    obtain ⟨o, ho, h1⟩ := h1
    cases ho
    simp only [pure_ok] at h1
    cases h1; subst hr; exact Or.inl hl
  | change c r =>
    simp only [input, bind_ok, pure_ok] at hr
    obtain ⟨⟨r, e1⟩, h1, hr⟩ := hr
    subst hr
    unfold changeMembership at h1
    split at h1
    · rw [pure_ok] at h1; cases h1; exact Or.inl hl
    · simp only [writeEntry, hlh, bind_ok] at h1
      obtain ⟨o, ho, h1⟩ := h1
      cases ho
      simp only [pure_ok] at h1
      cases h1; exact Or.inl hl
  | handleTransfer v target =>
    simp only [input, coreHandleTransfer] at hr
    split at hr
    · split at hr
      · exact Or.inr (rose_elect (e := { e with st := { e.st with vote := e.st.vote.disable } }) hr)
      · rw [pure_ok] at hr; subst hr; exact Or.inl hl
    · rw [pure_ok] at hr; subst hr; exact Or.inl hl
  | electCmd =>
    simp only [input, coreElect] at hr
    split at hr
    · exact Or.inr (rose_elect hr)
    · rw [pure_ok] at hr; subst hr; exact Or.inl hl
  | heartbeatCmd =>
    simp only [input, coreHeartbeat, hlh, bind_ok] at hr
    obtain ⟨o, ho, hr⟩ := hr
    cases ho
    rw [pure_ok] at hr; subst hr; exact Or.inl hl
  | snapshotCmd =>
    simp only [input, pure_ok] at hr
    subst hr
    left
    unfold triggerSnapshot
    split
    · exact hl
    · exact hl
  | purgeCmd i =>
    simp only [input, triggerPurge] at hr
    split at hr
    · rw [pure_ok] at hr; subst hr; exact Or.inl hl
    · split at hr
      · rw [pure_ok] at hr; subst hr; exact Or.inl hl
      · simp only [bind_ok, pure_ok] at hr
        obtain ⟨_, _, e1, h1, hr⟩ := hr
        subst hr
        exact Or.inl (lead_tryPurge ((lead_updatePurgeUpto h1).trans hl))
  | transferCmd t =>
    simp only [input, triggerTransfer, hlh, bind_ok] at hr
    obtain ⟨o, ho, hr⟩ := hr
    cases ho
    rw [pure_ok] at hr; subst hr; exact Or.inl hl
  | voteResp target v last granted sender =>
    simp only [input] at hr
    split at hr
    · unfold handleVoteResp at hr
      split at hr
      · rw [pure_ok] at hr; subst hr; exact Or.inl hl
      · next c hc =>
        have hk := h.pj.cand c hc
        split at hr
        · simp only [bind_ok] at hr
          obtain ⟨c1, hc1, hr⟩ := hr
          have hcv : c1.vote = c.vote := by
            unfold grantBy at hc1
            simp only [bind_ok, pure_ok] at hc1
            obtain ⟨_, _, hc1⟩ := hc1
            subst hc1; rfl
          split at hr
          · exact lead_establish (e := { e with candidate := some c1 }) hl rfl (by rw [hcv]; exact hk.vote.symm)
              (by rw [hcv, hk.vote]; exact hk.com) hr
          · rw [pure_ok] at hr; subst hr; exact Or.inl hl
        · simp only [bind_ok, pure_ok] at hr
          obtain ⟨⟨b, e2⟩, h2, hr⟩ := hr
          subst hr
          have hgo : ∀ e1 : Eng, e1.leader = e.leader → e1.st = e.st → e1.cfg = e.cfg →
              updateVote dbg now e1 v = .ok (b, e2) → e2.leader = none ∨ Rose e e2 := by
            intro e1 a1 a2 a3 a4
            rcases lead_updateVote (a1.trans hl) (by rw [a2, a3]; exact hn) a4 with h3 | ⟨w, h3, h4⟩
            · exact Or.inl h3
            · exact Or.inr ⟨w, by rw [← a2]; exact h3, h4⟩
          split at h2
          · exact hgo { e with seenGreater := true } rfl rfl rfl h2
          · exact hgo e rfl rfl rfl h2
    · rw [pure_ok] at hr; subst hr; exact Or.inl hl
  | higherVote v sender =>
    simp only [input] at hr
    split at hr
    · simp only [bind_ok, pure_ok] at hr
      obtain ⟨⟨b, e1⟩, h1, hr⟩ := hr
      subst hr
      exact lead_updateVote hl hn h1
    · rw [pure_ok] at hr; subst hr; exact Or.inl hl
  | tick el hb iv =>
    simp only [input, coreTick, bind_ok] at hr
    obtain ⟨e1, h1, e2, h2, hr⟩ := hr
    have hte : Rose e e1 ∨ e1 = e := by
      unfold tickElection at h1
      split at h1
      · rw [pure_ok] at h1; exact Or.inr h1.symm
      · split at h1
        · rw [pure_ok] at h1; exact Or.inr h1.symm
        · split at h1
          · rw [pure_ok] at h1; exact Or.inr h1.symm
          · have hgo : ∀ b : Bool, (if b = true then elect dbg now { e with seenGreater := false } else pure e) = .ok e1 →
                Rose e e1 ∨ e1 = e := by
              intro b hb
              cases b with
              | true => exact Or.inl (rose_elect (e := { e with seenGreater := false }) hb)
              | false =>
                simp only [Bool.false_eq_true, if_false] at hb
                rw [pure_ok] at hb; exact Or.inr hb.symm
            exact hgo _ h1
    rcases hte with hte | hte
    · right
      have g2 := grow_tickHeartbeat _ _ _ _ h2
      split at hr
      · exact hte.grow (g2.trans (grow_leaderStepDown _ _ hr))
      · rw [pure_ok] at hr; subst hr; exact hte.grow g2
    · subst hte
      have h2' : e2 = e1 := by
        unfold tickHeartbeat at h2
        rw [hl] at h2
        rw [pure_ok] at h2; exact h2.symm
      subst h2'
      left
      split at hr
      · unfold leaderStepDown at hr
        split at hr
        · exact lead_updateInternal hl hn hr
        · rw [pure_ok] at hr; subst hr; exact hl
      · rw [pure_ok] at hr; subst hr; exact hl
  | localIO io =>
    simp only [input, coreLocalIO, bind_ok] at hr
    obtain ⟨p, _, hr⟩ := hr
    left
    have h1 : (e.withProg p).leader = none := hl
    rw [h1] at hr
    split at hr
    · rw [pure_ok] at hr; subst hr; exact h1
    · rw [pure_ok] at hr; subst hr; exact h1
  | replProgress s target r =>
    simp only [input, coreReplProgress] at hr
    split at hr
    · simp only [bind_ok, unwrap_ok] at hr
      obtain ⟨l, hl', _⟩ := hr
      rw [hl] at hl'; cases hl'
    · rw [pure_ok] at hr; subst hr; exact Or.inl hl
  | hbProgress s target t =>
    simp only [input, coreHbProgress] at hr
    split at hr
    · simp only [bind_ok, unwrap_ok] at hr
      obtain ⟨l, hl', _⟩ := hr
      rw [hl] at hl'; cases hl'
    · rw [pure_ok] at hr; subst hr; exact Or.inl hl
  | built m =>
    simp only [input, coreBuilt, bind_ok, pure_ok] at hr
    obtain ⟨e1, h1, io, _, hr⟩ := hr
    subst hr
    left
    show e1.leader = none
    unfold finishBuilding at h1
    have hu : SameL e ((Eng.updateSnapshot { e with st := { e.st with io := { e.st.io with building := false } } } m).2) := by
      unfold updateSnapshot; split <;> rfl
    dsimp only at h1
    split at h1
    · next e2 he => rw [he] at hu; rw [pure_ok] at h1; subst h1; exact hu.trans hl
    · next e2 he =>
      rw [he] at hu
      simp only [bind_ok, pure_ok] at h1
      obtain ⟨e3, h3, h1⟩ := h1
      subst h1
      refine lead_tryPurge ?_
      have h3' : SameL e2 e3 := by
        unfold schedulePurge at h3
        rw [bind_ok] at h3
        obtain ⟨o, _, h3⟩ := h3
        cases o with
        | none => rw [pure_ok] at h3; subst h3; rfl
        | some x => exact lead_updatePurgeUpto h3
      exact h3'.trans (hu.trans hl)
  | installed io m =>
    simp only [input, coreInstalled, bind_ok, pure_ok] at hr
    obtain ⟨_, _, _, _, _, _, hr⟩ := hr
    subst hr; exact Or.inl hl
  | applied last =>
    simp only [input, coreApplied, bind_ok, pure_ok] at hr
    obtain ⟨_, _, hr⟩ := hr
    subst hr; exact Or.inl hl
  | initiate =>
    simp only [input, coreInitiate, hlh, bind_ok] at hr
    obtain ⟨o, ho, hr⟩ := hr
    cases ho
    rw [pure_ok] at hr; subst hr; exact Or.inl hl

/-- a node that leads after an input kept its log, and led before or stored a greater vote -/
theorem lead_input {g0 : Gh} {e e' : Eng} {i : Input} {l : Leader} (h : EInv g0 e) (ho : InputOk e i)
    (hr : e.input dbg now i = .ok e') (hl : e'.leader = some l) :
    Emits PlainC e e' ∧ (e.leader.isSome = true ∨ e.st.vote.data < e'.st.vote.data) := by
  have hi' := inv_input h ho hr
  have hgo : i.fromLeader = false → Emits PlainC e e' ∧ (e.leader.isSome = true ∨ e.st.vote.data < e'.st.vote.data) := by
    intro hi
    refine ⟨plain_input hi hr, ?_⟩
    cases hle : e.leader with
    | some x => exact Or.inl rfl
    | none =>
      right
      rcases lead_other h hle hi hr with h1 | h1
      · rw [h1] at hl; cases hl
      · exact h1.lt hi'
  cases i with
  | appendReq tx v prev es lc =>
    rcases lead_appendReq h ho hr with h1 | ⟨h1, h2, _⟩
    · rw [h1] at hl; cases hl
    · refine ⟨h2, Or.inl ?_⟩; rw [← h1, hl]; rfl
  | snapReq tx v m =>
    rcases lead_snapReq h ho hr with h1 | ⟨h1, h2, _⟩
    · rw [h1] at hl; cases hl
    · refine ⟨h2, Or.inl ?_⟩; rw [← h1, hl]; rfl
  | _ => exact hgo rfl

end Eng
end Openraft.Engine
