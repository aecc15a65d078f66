import Verif.Engine.Emits
import Verif.Engine.IoKeep
import Verif.Engine.IoOrder

/-!
# What the commands that wait are waiting for

A command may carry a condition (`Cmd.condition`). Here: which inputs emit commands that wait for a snapshot
or for an entry of the log, and what they emit before.
-/

set_option autoImplicit false

namespace Openraft.Engine
open Openraft.Repl (Panic dassert Inflight)
open Openraft.Cluster (Payload)

/-- purges, answers to snapshots and answers to `initialize` -/
def Cmd.awaits : Cmd → Bool
  | .purge _ => true
  | .respond _ _ (.snapshot _) => true
  | .respond _ _ (.init _) => true
  | _ => false

/-- not a purge, not an answer -/
def Cmd.mild (c : Cmd) : Prop := (∀ u, c ≠ .purge u) ∧ ∀ w tx r, c ≠ .respond w tx r

theorem Cmd.mild.awaits {c : Cmd} (h : c.mild) : c.awaits = false := by
  cases c with
  | purge u => exact absurd rfl (h.1 u)
  | respond w tx r => exact absurd rfl (h.2 w tx r)
  | _ => rfl

instance : Lets Cmd.mild := ⟨fun c h => by
  refine ⟨fun u hu => ?_, fun w tx r hu => ?_⟩ <;> (subst hu; cases h)⟩
instance : LetsVote Cmd.mild := ⟨fun _ => ⟨fun _ h => by (cases h), fun _ _ _ h => by cases h⟩⟩
instance : LetsAsk Cmd.mild := ⟨fun _ _ => ⟨fun _ h => by (cases h), fun _ _ _ h => by cases h⟩⟩
instance : LetsTrunc Cmd.mild := ⟨fun _ => ⟨fun _ h => by (cases h), fun _ _ _ h => by cases h⟩⟩

/-- the commands added, the purges among them go up to the position `e'` has recorded -/
def Bounded (e e' : Eng) : Prop :=
  ∃ cs, e'.out = e.out ++ cs ∧ ∀ c ∈ cs, c.awaits = true → ∃ u, c = .purge u ∧ e'.st.purgeUpto = some u

namespace Eng
variable {dbg : Bool} {now : Nat}

theorem Bounded.mild {e e' : Eng} (h : Emits Cmd.mild e e') : Bounded e e' := by
  obtain ⟨cs, h1, h2⟩ := h
  exact ⟨cs, h1, fun c hc ha => by rw [(h2 c hc).awaits] at ha; cases ha⟩

theorem Bounded.after {e e1 e' : Eng} (h : Emits Cmd.mild e e1) (k : Bounded e1 e') : Bounded e e' := by
  obtain ⟨cs, h1, h2⟩ := h
  obtain ⟨ds, k1, k2⟩ := k
  refine ⟨cs ++ ds, by rw [k1, h1, List.append_assoc], fun c hc ha => ?_⟩
  rcases List.mem_append.1 hc with hc | hc
  · rw [(h2 c hc).awaits] at ha; cases ha
  · exact k2 c hc ha

theorem logPurge_out (e : Eng) : ∃ C, e.logPurge.out = e.out ++ C ∧ ∀ c ∈ C, ∃ u, c = .purge u ∧ e.st.purgeUpto = some u := by
  unfold logPurge
  split
  · exact ⟨[], by simp, by simp⟩
  · split
    · exact ⟨[], by simp, by simp⟩
    · next u hu => exact ⟨[.purge u], rfl, fun c hc => ⟨u, List.mem_singleton.1 hc, hu⟩⟩

theorem bounded_logPurge (e : Eng) : Bounded e e.logPurge := by
  unfold logPurge
  split
  · exact Bounded.mild (Emits.refl _)
  · split
    · exact Bounded.mild (Emits.refl _)
    · next u hu =>
      refine ⟨[.purge u], rfl, fun c hc _ => ⟨u, List.mem_singleton.1 hc, ?_⟩⟩
      show (e.st.purgeLog u).purgeUpto = some u
      exact hu

theorem bounded_rhTryPurge (e : Eng) (l : Leader) : Bounded e (e.rhTryPurge l) := by
  unfold rhTryPurge
  split
  · exact Bounded.mild (Emits.refl _)
  · split
    · exact Bounded.mild (Emits.refl _)
    · split
      · exact Bounded.mild (Emits.refl _)
      · exact bounded_logPurge _

theorem bounded_tryPurge (e : Eng) : Bounded e e.tryPurge := by
  unfold tryPurge
  split
  · exact bounded_rhTryPurge _ _
  · exact bounded_logPurge _

/-- inputs but snapshots and `initialize` -/
theorem bounded_input {e e' : Eng} {i : Input} (h1 : ∀ tx v m, i ≠ .snapReq tx v m) (h2 : ∀ tx m, i ≠ .init tx m)
    (hr : e.input dbg now i = .ok e') : Bounded e e' := by
  cases i with
  | snapReq tx v m => exact absurd rfl (h1 tx v m)
  | init tx m => exact absurd rfl (h2 tx m)
  | appendReq tx v prev es lc =>
    simp only [input, handleAppend, bind_ok] at hr
    obtain ⟨⟨r, e1⟩, he1, hr⟩ := hr
    have k1 : Emits Cmd.mild e e1 := emits_appendEntries _ _ _ _ _ he1
    dsimp only at hr
    split at hr
    · simp only [bind_ok] at hr
      obtain ⟨acc, _, _, _, hr⟩ := hr
      have k2 : Emits Cmd.mild _ e' := emits_fhCommit _ _ _ hr
      obtain ⟨cs, a1, a2⟩ := k2
      refine Bounded.after k1 ⟨_, by rw [a1]; show e1.out ++ [_] ++ cs = _; rw [List.append_assoc], fun c hc ha => ?_⟩
      rcases List.mem_append.1 hc with hc | hc
      · cases List.mem_singleton.1 hc; cases ha
      · rw [(a2 c hc).awaits] at ha; cases ha
    · rw [pure_ok] at hr; subst hr
      refine Bounded.after k1 ⟨_, rfl, fun c hc ha => ?_⟩
      cases List.mem_singleton.1 hc; cases ha
  | voteReq tx v last =>
    simp only [input, coreVoteReq, bind_ok, pure_ok] at hr
    obtain ⟨⟨r, e1⟩, he1, rfl⟩ := hr
    have k1 : Emits Cmd.mild e e1 := emits_handleVoteReq _ _ _ _ he1
    have hrv : ∃ v last g, r = .vote v last g := by
      unfold handleVoteReq at he1
      split at he1
      · rw [pure_ok] at he1; cases he1; exact ⟨_, _, _, rfl⟩
      · split at he1
        · simp only [bind_ok, pure_ok] at he1
          obtain ⟨_, _, he1⟩ := he1
          cases he1; exact ⟨_, _, _, rfl⟩
        · rw [pure_ok] at he1; cases he1; exact ⟨_, _, _, rfl⟩
    obtain ⟨_, _, _, rfl⟩ := hrv
    refine Bounded.after k1 ⟨_, rfl, fun c hc ha => ?_⟩
    cases List.mem_singleton.1 hc; cases ha
  | purgeCmd i =>
    simp only [input, triggerPurge] at hr
    split at hr
    · rw [pure_ok] at hr; subst hr; exact Bounded.mild (Emits.refl _)
    · split at hr
      · rw [pure_ok] at hr; subst hr; exact Bounded.mild (Emits.refl _)
      · simp only [bind_ok, pure_ok] at hr
        obtain ⟨id, _, e1, he1, rfl⟩ := hr
        exact Bounded.after (emits_updatePurgeUpto _ _ _ he1) (bounded_tryPurge _)
  | replProgress s target r =>
    simp only [input, coreReplProgress] at hr
    split at hr
    · rw [bind_ok] at hr
      obtain ⟨l, _, hr⟩ := hr
      unfold rhUpdateProgress at hr
      cases r with
      | matching m =>
        simp only [bind_ok, pure_ok] at hr
        obtain ⟨e1, he1, l1, _, rfl⟩ := hr
        exact Bounded.after (emits_rhUpdateMatching _ _ _ _ _ he1) (bounded_rhTryPurge _ _)
      | conflict c =>
        simp only [bind_ok, pure_ok] at hr
        obtain ⟨e1, he1, l1, _, rfl⟩ := hr
        exact Bounded.after (emits_rhUpdateConflicting _ _ _ _ _ he1) (bounded_rhTryPurge _ _)
      | failed =>
        simp only [bind_ok, pure_ok] at hr
        obtain ⟨e1, he1, l1, _, rfl⟩ := hr
        exact Bounded.after (emits_rhFailed _ _ _ _ he1) (bounded_rhTryPurge _ _)
    · rw [pure_ok] at hr; subst hr; exact Bounded.mild (Emits.refl _)
  | built m =>
    simp only [input, coreBuilt, bind_ok, pure_ok] at hr
    obtain ⟨e1, h1, io, _, rfl⟩ := hr
    suffices h : Bounded e e1 from h
    unfold finishBuilding at h1
    have hu := emits_updateSnapshot (P := Cmd.mild) { e with st := { e.st with io := { e.st.io with building := false } } } m
    dsimp only at h1
    split at h1
    · next e2 he => rw [he] at hu; rw [pure_ok] at h1; subst h1; exact Bounded.mild hu
    · next e2 he =>
      rw [he] at hu
      simp only [bind_ok, pure_ok] at h1
      obtain ⟨e3, h3, rfl⟩ := h1
      exact Bounded.after (hu.trans (emits_schedulePurge _ _ h3)) (bounded_tryPurge _)
  | _ => exact Bounded.mild (emits_input_no _ _ (fun h => by cases h) rfl rfl _ hr)

/-- a snapshot from a leader: what waits for a snapshot comes after the command that installs it -/
theorem waits_snapReq {e e' : Eng} {tx : Nat} {v : Vote} {m : SnapMeta} (hr : e.input dbg now (.snapReq tx v m) = .ok e') :
    ∃ A B, e'.out = e.out ++ A ++ B ∧ (∀ c ∈ A, c.mild) ∧
      (e'.st.snap = e.st.snap ∧ (∀ c ∈ B, ∃ w v', c = .respond w tx (.snapshot v') ∧ ∀ l, w ≠ some (.snapshot l)) ∨
       ∃ io B', B = .sm (.install m io) :: B' ∧ e'.st.snap = m ∧
        ∀ c ∈ B', (∃ w v', c = .respond w tx (.snapshot v') ∧ w = some (.snapshot m.lastLogId)) ∨ ∃ u, c = .purge u ∧ m.lastLogId = some u) := by
  simp only [input, handleInstall, bind_ok] at hr
  obtain ⟨⟨ok, e1⟩, he1, hr⟩ := hr
  obtain ⟨A, a1, a2⟩ : Emits Cmd.mild e e1 := emits_updateVote _ _ _ he1
  have hs1 : e1.st.snap = e.st.snap := keeps_snap (keeps_updateVote _ _ _ he1)
  dsimp only at hr
  split at hr
  · simp only [bind_ok, pure_ok] at hr
    obtain ⟨lv, _, ⟨w, e2⟩, he2, rfl⟩ := hr
    unfold fhInstall at he2
    have hno : w = none → e2.out = e1.out → e2.st.snap = e1.st.snap → _ := fun hw ho hs =>
      (⟨A, [.respond w tx (.snapshot e2.st.vote.data)], by show e2.out ++ _ = _; rw [ho, a1], a2,
        Or.inl ⟨by show e2.st.snap = _; rw [hs, hs1], fun c hc => ⟨w, _, List.mem_singleton.1 hc, fun l h => by rw [hw] at h; cases h⟩⟩⟩ :
        ∃ A B, (e2.push (.respond w tx (.snapshot e2.st.vote.data))).out = e.out ++ A ++ B ∧ (∀ c ∈ A, c.mild) ∧
          ((e2.push (.respond w tx (.snapshot e2.st.vote.data))).st.snap = e.st.snap ∧ (∀ c ∈ B, ∃ w v', c = .respond w tx (.snapshot v') ∧ ∀ l, w ≠ some (.snapshot l)) ∨
           ∃ io B', B = .sm (.install m io) :: B' ∧ (e2.push (.respond w tx (.snapshot e2.st.vote.data))).st.snap = m ∧
            ∀ c ∈ B', (∃ w v', c = .respond w tx (.snapshot v') ∧ w = some (.snapshot m.lastLogId)) ∨ ∃ u, c = .purge u ∧ m.lastLogId = some u))
    split at he2
    · rw [pure_ok] at he2; cases he2
      exact hno rfl rfl rfl
    · simp only [bind_ok, unwrap_ok] at he2
      obtain ⟨last, hlast, he2⟩ := he2
      split at he2
      · next e3 he3 =>
        rw [pure_ok] at he2; cases he2
        unfold updateSnapshot at he3
        split at he3
        · cases he3; exact hno rfl rfl rfl
        · cases he3
      · next e3 he3 =>
        simp only [bind_ok, pure_ok] at he2
        obtain ⟨e4, he4, st, hst, ms, _, he2⟩ := he2
        cases he2
        have ho3 : e3.out = e1.out ∧ e3.st.snap = m := by
          unfold updateSnapshot at he3
          split at he3
          · cases he3
          · cases he3; exact ⟨rfl, rfl⟩
        obtain ⟨B, b1, b2⟩ : Emits Cmd.mild e3 e4 := emits_fhInstallTruncate _ _ _ he4
        have hs4 : e4.st.snap = m := (keeps_snap (keeps_fhInstallTruncate _ _ _ he4)).trans ho3.2
        have hst' : st.snap = e4.st.snap := by
          unfold RState.acceptIo at hst
          rw [bind_ok] at hst
          obtain ⟨p, _, hst⟩ := hst
          split at hst
          · rw [bind_ok] at hst
            obtain ⟨p, _, hst⟩ := hst
            rw [pure_ok] at hst; subst hst; rfl
          · rw [pure_ok] at hst; subst hst; rfl
        generalize he5 : Eng.push (updateServerState { e4 with st := { st with committed := some last, ms := ms } })
          (.sm (.install m (IOId.newLog lv (some last)))) = e5 at *
        have ho5 : e5.out = e4.out ++ [.sm (.install m (IOId.newLog lv (some last)))] := by rw [← he5]; rfl
        have hs5 : e5.st.snap = m := by rw [← he5]; exact hst'.trans hs4
        obtain ⟨C, c1, c2⟩ := logPurge_out { e5 with st := { e5.st with purgeUpto := some last } }
        have hs6 := keeps_snap (keeps_logPurge { e5 with st := { e5.st with purgeUpto := some last } })
        generalize logPurge { e5 with st := { e5.st with purgeUpto := some last } } = e6 at *
        refine ⟨A ++ B, .sm (.install m (IOId.newLog lv (some last))) :: (C ++ [.respond (some (.snapshot (some last))) tx (.snapshot e6.st.vote.data)]),
          ?_, ?_, Or.inr ⟨_, _, rfl, hs6.trans hs5, fun c hc => ?_⟩⟩
        · show e6.out ++ _ = _
          rw [c1]
          show e5.out ++ C ++ _ = _
          rw [ho5, b1, ho3.1, a1]
          simp
        · intro c hc
          rcases List.mem_append.1 hc with hc | hc
          · exact a2 c hc
          · exact b2 c hc
        · rcases List.mem_append.1 hc with hc | hc
          · obtain ⟨u, h1, h2⟩ := c2 c hc
            have h2 : some last = some u := h2
            exact Or.inr ⟨u, h1, hlast.trans h2⟩
          · rw [hlast]
            exact Or.inl ⟨_, _, List.mem_singleton.1 hc, rfl⟩
  · rw [pure_ok] at hr; subst hr
    refine ⟨A, [_], by show e1.out ++ [_] = _; rw [a1], a2, Or.inl ⟨hs1, fun c hc => ⟨_, _, List.mem_singleton.1 hc, fun l h => by cases h⟩⟩⟩

theorem acceptIo_keep {s s' : RState} {x : IOId} (h : s.acceptIo dbg x = .ok s') : s'.snap = s.snap ∧ s'.logIds = s.logIds ∧ s'.vote = s.vote := by
  unfold RState.acceptIo at h
  rw [bind_ok] at h
  obtain ⟨p, _, h⟩ := h
  split at h
  · rw [bind_ok] at h
    obtain ⟨p, _, h⟩ := h
    rw [pure_ok] at h; subst h; exact ⟨rfl, rfl, rfl⟩
  · rw [pure_ok] at h; subst h; exact ⟨rfl, rfl, rfl⟩

/-- an election stores the vote and asks for votes; nothing that waits -/
theorem waits_elect {e e' : Eng} (hr : e.elect dbg now = .ok e') :
    e'.st.logIds = e.st.logIds ∧ ∃ B, e'.out = e.out ++ B ∧ ∀ c ∈ B, c.mild ∧ c.condition = none := by
  unfold elect at hr
  simp only [bind_ok, pure_ok] at hr
  obtain ⟨⟨ok, e2⟩, he2, _, _, rfl⟩ := hr
  show e2.st.logIds = _ ∧ ∃ B, e2.out ++ [_] = _ ∧ _
  suffices h : e2.st.logIds = e.st.logIds ∧ ∃ B, e2.out = e.out ++ B ∧ ∀ c ∈ B, c.mild ∧ c.condition = none by
    obtain ⟨h1, B, h2, h3⟩ := h
    refine ⟨h1, B ++ [_], by rw [h2, List.append_assoc], fun c hc => ?_⟩
    rcases List.mem_append.1 hc with hc | hc
    · exact h3 c hc
    · cases List.mem_singleton.1 hc; exact ⟨LetsAsk.ok _ _, rfl⟩
  unfold updateVote at he2
  split at he2
  · simp only [bind_ok, pure_ok] at he2
    obtain ⟨e3, he3, e4, he4, he2⟩ := he2
    cases he2
    have h3 : e3.st.logIds = e.st.logIds ∧ e3.cfg = e.cfg ∧ e3.st.vote.data.committed = false ∧ ∃ B, e3.out = e.out ++ B ∧ ∀ c ∈ B, c.mild ∧ c.condition = none := by
      unfold storeVote at he3
      split at he3
      · simp only [bind_ok, pure_ok] at he3
        obtain ⟨st, hst, rfl⟩ := he3
        obtain ⟨_, k2, k3⟩ := acceptIo_keep hst
        refine ⟨k2, rfl, ?_, [_], rfl, fun c hc => ?_⟩
        · show st.vote.data.committed = false
          rw [k3]; rfl
        · cases List.mem_singleton.1 hc; exact ⟨LetsVote.ok _, rfl⟩
      · next hle hlt =>
        simp only [bind_ok, pure_ok] at he3
        obtain ⟨vt, hvt, rfl⟩ := he3
        exact absurd (Or.inl (Or.inl (Nat.lt_succ_self _))) hlt
    obtain ⟨h4, h5, h6, B, h7, h8⟩ := h3
    unfold updateInternal at he4
    have hnl : e3.st.isLeader e3.cfg.id = false := by
      unfold RState.isLeader; rw [h6, Bool.and_false]
    rw [if_neg (by rw [hnl]; simp)] at he4
    split at he4
    · rw [pure_ok] at he4; subst he4; exact ⟨h4, B, h7, h8⟩
    · simp only [becomeFollowing, bind_ok, pure_ok] at he4
      obtain ⟨_, _, rfl⟩ := he4
      exact ⟨h4, B, h7, h8⟩
  · rw [pure_ok] at he2; cases he2
    exact ⟨rfl, [], by simp, by simp⟩

/-- `initialize`: before the answer, which waits for the first entry, comes the command that appends the entry, and
between the two nothing that waits -/
theorem waits_init {e e' : Eng} {tx : Nat} {m : Membership} (hr : e.input dbg now (.init tx m) = .ok e') :
    e'.st.snap = e.st.snap ∧ (e'.out = e.out ++ [.respond none tx (.init false)] ∨
    ∃ v x B, e'.out = e.out ++ (.append v [x] :: (B ++ [.respond (some (.logFlushed (some x.id))) tx (.init true)])) ∧
      ∀ c ∈ B, c.mild ∧ c.condition = none) := by
  simp only [input, coreInit, bind_ok, pure_ok] at hr
  obtain ⟨⟨ok, e1⟩, he1, rfl⟩ := hr
  have hsn : e1.st.snap = e.st.snap := keeps_snap (keeps_initCluster _ _ _ he1)
  refine ⟨hsn, ?_⟩
  unfold initCluster at he1
  split at he1
  · rw [pure_ok] at he1; cases he1; exact Or.inl rfl
  · next hin =>
    split at he1
    · rw [pure_ok] at he1; cases he1; exact Or.inl rfl
    · right
      simp only [bind_ok, pure_ok] at he1
      obtain ⟨v, _, e2, he2, e3, he3, he1⟩ := he1
      cases he1
      have hnil : e.st.logIds = [] := by
        simp only [RState.isInitialized, RState.lastLogId, Bool.or_eq_true, not_or] at hin
        cases h : e.st.logIds with
        | nil => rfl
        | cons a l => exfalso; apply hin.1; rw [h]; cases hx : (a :: l).getLast? with
          | none => simp at hx
          | some x => rfl
      obtain ⟨h4, B, h5, h6⟩ := waits_elect he3
      unfold fhDoAppend at he2
      simp only [bind_ok, pure_ok] at he2
      obtain ⟨_, _, _, _, _, _, e4, he4, rfl⟩ := he2
      have h7 : e4.out = e.out ∧ e4.st.logIds = [⟨⟨0, 0⟩, 0⟩] := by
        unfold fhAppendMembership at he4
        split at he4
        · rw [pure_ok] at he4; subst he4
          refine ⟨rfl, ?_⟩
          simp only [hnil]; rfl
        · simp only [bind_ok, pure_ok] at he4
          obtain ⟨ms, _, rfl⟩ := he4
          refine ⟨rfl, ?_⟩
          simp only [updateServerState, hnil]; rfl
      refine ⟨v, ⟨⟨⟨0, 0⟩, 0⟩, .membership m⟩, B, ?_, h6⟩
      have h8 : e1.st.lastLogId = some ⟨⟨0, 0⟩, 0⟩ := by
        show e1.st.logIds.getLast? = _
        rw [h4]
        show e4.st.logIds.getLast? = _
        rw [h7.2]; rfl
      show e1.out ++ [_] = _
      rw [h5, h8]
      show e4.out ++ [_] ++ B ++ [_] = _
      rw [h7.1]
      simp

end Eng
end Openraft.Engine
