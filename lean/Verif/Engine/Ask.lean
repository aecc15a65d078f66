import Verif.Engine.Lease

/-!
# The answers to requests

A request (append entries, vote, install snapshot, initialize) is answered by one `Respond` command; no other input adds one.
-/

set_option autoImplicit false

namespace Openraft.Engine
open Openraft.Repl (Panic dassert Inflight)
open Openraft.Cluster (Payload)

/-- the answer carried by a command -/
def Cmd.answer : Cmd → Option (Nat × Resp)
  | .respond _ tx r => some (tx, r)
  | _ => none

/-- the commands that `e'` has after those of `e` carry these answers -/
def Gives (as : List (Nat × Resp)) (e e' : Eng) : Prop := ∃ cs, e'.out = e.out ++ cs ∧ cs.filterMap Cmd.answer = as

/-- no answer -/
abbrev NoAns (c : Cmd) : Prop := c.answer = none

instance : Lets NoAns := ⟨fun c hc => by cases c <;> first | rfl | cases hc⟩
instance : LetsVote NoAns := ⟨fun _ => rfl⟩
instance : LetsAsk NoAns := ⟨fun _ _ => rfl⟩
instance : LetsTrunc NoAns := ⟨fun _ => rfl⟩
instance : LetsPurge NoAns := ⟨fun _ => rfl⟩
instance : LetsInstall NoAns := ⟨fun _ _ => rfl⟩

theorem Emits.gives {e e' : Eng} (h : Emits NoAns e e') : Gives [] e e' := by
  obtain ⟨cs, h1, h2⟩ := h
  refine ⟨cs, h1, ?_⟩
  rw [List.filterMap_eq_nil_iff]
  exact h2

theorem Gives.trans {as bs : List (Nat × Resp)} {a b c : Eng} (h : Gives as a b) (k : Gives bs b c) : Gives (as ++ bs) a c := by
  obtain ⟨x, h1, h2⟩ := h
  obtain ⟨y, k1, k2⟩ := k
  exact ⟨x ++ y, by rw [k1, h1, List.append_assoc], by rw [List.filterMap_append, h2, k2]⟩

theorem gives_respond (e : Eng) (w : Option Cond) (tx : Nat) (r : Resp) : Gives [(tx, r)] e (e.push (.respond w tx r)) :=
  ⟨[.respond w tx r], rfl, rfl⟩

namespace Eng
variable {dbg : Bool} {now : Nat} {e e' : Eng}

/-- other inputs give no answer -/
theorem gives_none {i : Input} (hi : i.asks = false) (hr : e.input dbg now i = .ok e') : Gives [] e e' := by
  refine Emits.gives ?_
  revert e'
  show EmitsR NoAns id e (e.input dbg now i)
  by_cases hp : i.mayPurge = true
  · cases i with
    | snapReq tx v m => cases hi
    | purgeCmd i => exact emits_triggerPurge _ _
    | replProgress s target r =>
      simp only [input, coreReplProgress]
      split
      · exact EmitsR.bind fun l => emits_rhUpdateProgress _ _ _ _
      · exact EmitsR.pure (Emits.refl _)
    | built m =>
      simp only [input, coreBuilt]
      exact EmitsR.bindE id (emits_finishBuilding _ _) fun e1 => EmitsR.bind fun io => EmitsR.pure (emits_same rfl rfl)
    | _ => cases hp
  · refine emits_input_no e i (fun h => ?_) (by simpa using hp) ?_
    · rw [hi] at h; cases h
    · cases i <;> first | rfl | cases hi

/-- the answer to an append request -/
theorem gives_append {tx : Nat} {v : Vote} {prev : Option LogId} {es : List Ent} {lc : Option LogId}
    (hr : e.handleAppend dbg now tx v prev es lc = .ok e') :
    ∃ r e1, e.appendEntries dbg now v prev es = .ok (r, e1) ∧ Gives [(tx, .append r v (max prev (es.getLast?.map (·.id))))] e e' ∧
      e'.st.vote = e1.st.vote ∧ (r ≠ .success → e'.st = e1.st) := by
  unfold handleAppend at hr
  rw [bind_ok] at hr
  obtain ⟨⟨r, e1⟩, h1, hr⟩ := hr
  refine ⟨r, e1, h1, ?_⟩
  have g1 : Gives [] e e1 := (emits_appendEntries _ _ _ _ _ h1 : Emits NoAns e e1).gives
  dsimp only at hr
  split at hr
  · rw [bind_ok] at hr
    obtain ⟨acc, _, hr⟩ := hr
    rw [bind_ok] at hr
    obtain ⟨_, _, hr⟩ := hr
    have g3 := (emits_fhCommit _ _ _ hr : Emits NoAns _ e').gives
    refine ⟨by simpa using (g1.trans (gives_respond e1 _ tx _)).trans g3, ?_, fun h => absurd (by assumption) h⟩
    exact (still_fhCommit _ _ _ hr).vote
  · rw [pure_ok] at hr; subst hr
    exact ⟨by simpa using g1.trans (gives_respond e1 _ tx _), rfl, fun _ => rfl⟩

/-- the answer to a vote request -/
theorem gives_vote {tx : Nat} {v : Vote} {last : Option LogId} (hr : e.coreVoteReq dbg now tx v last = .ok e') :
    ∃ r e1, e.handleVoteReq dbg now v last = .ok (r, e1) ∧ Gives [(tx, r)] e e' ∧ e'.st = e1.st ∧ e'.leader = e1.leader := by
  unfold coreVoteReq at hr
  rw [bind_ok] at hr
  obtain ⟨⟨r, e1⟩, h1, hr⟩ := hr
  rw [pure_ok] at hr; subst hr
  have g1 := (emits_handleVoteReq _ _ _ _ h1 : Emits NoAns e e1).gives
  exact ⟨r, e1, h1, by simpa using g1.trans (gives_respond e1 _ tx r), rfl, rfl⟩

/-- the answer to a request to install a snapshot -/
theorem gives_install {tx : Nat} {v : Vote} {m : SnapMeta} (hr : e.handleInstall dbg now tx v m = .ok e') :
    Gives [(tx, .snapshot e'.st.vote.data)] e e' ∧ (e.st.vote.data ≤ v → e'.st.vote.data = v) ∧ (¬ e.st.vote.data ≤ v → e'.st = e.st) := by
  unfold handleInstall at hr
  rw [bind_ok] at hr
  obtain ⟨⟨ok, e1⟩, h1, hr⟩ := hr
  have g1 := (emits_updateVote _ _ _ h1 : Emits NoAns e e1).gives
  dsimp only at hr
  split at hr
  · next hok =>
    subst hok
    rw [bind_ok] at hr
    obtain ⟨lv, _, hr⟩ := hr
    rw [bind_ok] at hr
    obtain ⟨⟨c, e2⟩, h2, hr⟩ := hr
    rw [pure_ok] at hr; subst hr
    have g2 := (emits_fhInstall _ _ _ _ h2 : Emits NoAns e1 e2).gives
    have hv : e2.st.vote.data = v := (congrArg Leased.data (still_fhInstall _ _ _ _ h2).vote).trans (updateVote_vote h1)
    exact ⟨(g1.trans g2).trans (gives_respond e2 c tx (.snapshot e2.st.vote.data)), fun _ => hv, fun h => absurd (updateVote_le h1) h⟩
  · next hok =>
    cases ok with
    | true => exact absurd rfl hok
    | false =>
      rw [pure_ok] at hr; subst hr
      have := updateVote_false h1
      subst this
      refine ⟨g1.trans (gives_respond e1 _ tx (.snapshot e1.st.vote.data)), fun h => ?_, fun _ => rfl⟩
      unfold updateVote at h1
      rw [if_pos h, bind_ok] at h1
      obtain ⟨_, _, h1⟩ := h1
      rw [bind_ok] at h1
      obtain ⟨_, _, h1⟩ := h1
      rw [pure_ok] at h1; cases h1

/-- the answer to a request to initialize -/
theorem gives_init {tx : Nat} {m : Membership} (hr : e.coreInit dbg now tx m = .ok e') :
    ∃ ok e1, e.initCluster dbg now m = .ok (ok, e1) ∧ Gives [(tx, .init ok)] e e' ∧ e'.st = e1.st := by
  unfold coreInit at hr
  rw [bind_ok] at hr
  obtain ⟨⟨r, e1⟩, h1, hr⟩ := hr
  rw [pure_ok] at hr; subst hr
  have g1 := (emits_initCluster _ _ _ h1 : Emits NoAns e e1).gives
  exact ⟨r, e1, h1, by simpa using g1.trans (gives_respond e1 _ tx _), rfl⟩

theorem updateVote_yes {v : Vote} {b : Bool} {e1 : Eng} (hr : e.updateVote dbg now v = .ok (b, e1)) : b = decide (e.st.vote.data ≤ v) := by
  unfold updateVote at hr
  split at hr
  · next h =>
    rw [bind_ok] at hr
    obtain ⟨_, _, hr⟩ := hr
    rw [bind_ok] at hr
    obtain ⟨_, _, hr⟩ := hr
    rw [pure_ok] at hr; cases hr
    simp [h]
  · next h => rw [pure_ok] at hr; cases hr; simp [h]

/-- the vote of another node leaves the log and the committed position alone -/
theorem updateVote_log {v : Vote} {b : Bool} {e1 : Eng} (hn : v.leaderId.node ≠ e.cfg.id) (hr : e.updateVote dbg now v = .ok (b, e1)) :
    e1.st.logIds = e.st.logIds ∧ e1.st.committed = e.st.committed ∧ e1.st.ms = e.st.ms ∧ e1.st.snap = e.st.snap ∧
      e1.st.purgedNext = e.st.purgedNext := by
  unfold updateVote at hr
  split at hr
  · next hle =>
    rw [bind_ok] at hr
    obtain ⟨e2, h2, hr⟩ := hr
    rw [bind_ok] at hr
    obtain ⟨e3, h3, hr⟩ := hr
    rw [pure_ok] at hr; cases hr
    have hv := congrArg Vote.leaderId (storeVote_vote hle h2)
    have k2 : e2.st.logIds = e.st.logIds ∧ e2.st.committed = e.st.committed ∧ e2.st.ms = e.st.ms ∧ e2.st.snap = e.st.snap ∧
        e2.st.purgedNext = e.st.purgedNext ∧ e2.cfg = e.cfg := by
      unfold storeVote at h2
      split at h2
      · rw [bind_ok] at h2
        obtain ⟨st, hst, h2⟩ := h2
        rw [pure_ok] at h2; subst h2
        have := acceptIo_ok hst
        refine ⟨?_, ?_, ?_, ?_, ?_, rfl⟩ <;> (simp only [push]; rw [this])
      · rw [bind_ok] at h2
        obtain ⟨vt, _, h2⟩ := h2
        rw [pure_ok] at h2; subst h2
        exact ⟨rfl, rfl, rfl, rfl, rfl, rfl⟩
    have hk : e2.st.vote.data.leaderId.node ≠ e2.cfg.id := by rw [hv, k2.2.2.2.2.2]; exact hn
    have hl : e2.st.isLeading e2.cfg.id = false := by
      unfold RState.isLeading; simp [hk]
    unfold updateInternal at h3
    rw [if_neg (by simp [RState.isLeader, hl]), if_neg (by simp [hl])] at h3
    unfold becomeFollowing at h3
    rw [bind_ok] at h3
    obtain ⟨_, _, h3⟩ := h3
    rw [pure_ok] at h3; subst h3
    exact ⟨k2.1, k2.2.1, k2.2.2.1, k2.2.2.2.1, k2.2.2.2.2.1⟩
  · rw [pure_ok] at hr; cases hr; exact ⟨rfl, rfl, rfl, rfl, rfl⟩

end Eng
end Openraft.Engine
