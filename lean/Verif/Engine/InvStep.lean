import Verif.Engine.InvVote
import Verif.Engine.Input

/-!
# The invariant holds after every input

`InputOk` says what the engine may assume about an input: what its peers, its storage and its state
machine promise. `EInv` is then kept by every input, and by every sequence of inputs.
-/

set_option autoImplicit false

namespace Openraft.Engine
open Openraft.Repl (Panic dassert Inflight)
open Openraft.Cluster (Payload)
open LogIdList

/-- nobody else makes votes for this node: a vote for it is not above the one it has itself -/
def VoteOk (e : Eng) (v : Vote) : Prop := v.leaderId.node = e.cfg.id → v ≤ e.st.vote.data

/-- an append-entries request comes from another node that is the leader of `v`; what it sends is
taken from its log, and its log agrees with this node's where it must -/
def AppendOk (e : Eng) (v : Vote) (prev : Option LogId) (es : List Ent) (lc : Option LogId) : Prop :=
  v.leaderId.node ≠ e.cfg.id ∧ v.committed = true ∧
  ∃ lead : List LogId, LeadLog lead v e.st.lv.L (e.floor v) ∧ (∀ p, prev = some p → p ∈ lead) ∧
    (∀ x ∈ es, x.id ∈ lead) ∧ Cons (es.map (·.id)) ∧ (∀ x, es.head? = some x → x.id.index = nextIndex prev) ∧
    ∀ x, lc = some x → x ∈ lead

/-- what the engine may assume about an input -/
def InputOk (e : Eng) : Input → Prop
  | .appendReq _ v prev es lc => e.st.vote.data ≤ v → AppendOk e v prev es lc
  | .voteReq _ v _ => VoteOk e v
  | .snapReq _ v m => e.st.vote.data ≤ v → v.leaderId.node ≠ e.cfg.id ∧ v.committed = true ∧
      ∀ x, m.lastLogId = some x → e.st.committed < some x → Eng.SnapOk e v m x
  | .handleTransfer v target => e.st.vote.data = v → e.cfg.id = target → e.leader = none
  | .electCmd => e.leader = none
  | .voteResp _ v _ _ _ => VoteOk e v
  | .higherVote v _ => VoteOk e v
  | .localIO io => io.vote.committed = true → e.voteMatch io.vote = true → KnownO e.st.lv io.last
  | .replProgress s _ r => e.sessionMatch s = true → ∀ m, r = .matching m → KnownO e.st.lv m
  | .built m => Eng.BuiltOk e m
  | _ => True

namespace Eng

theorem inv_appendEntries {g0 : Gh} {dbg : Bool} {now : Nat} {e e' : Eng} {v : Vote} {prev : Option LogId} {es : List Ent}
    {lc : Option LogId} {r : AppendResp} (h : EInv g0 e) (ho : e.st.vote.data ≤ v → AppendOk e v prev es lc)
    (hr : e.appendEntries dbg now v prev es = .ok (r, e')) :
    EInv g0 e' ∧ (r = .success → ∃ lead, Took lead v e' ∧ ∀ x, lc = some x → x ∈ lead) := by
  unfold appendEntries at hr
  rw [bind_ok] at hr
  obtain ⟨⟨ok, e1⟩, he1, hr⟩ := hr
  simp only at hr
  cases ok with
  | false =>
    simp only [Bool.false_eq_true, if_false] at hr
    rw [pure_ok] at hr
    cases hr
    have hn : ¬ e.st.vote.data ≤ v := by
      unfold updateVote at he1
      intro hle
      rw [if_pos hle] at he1
      simp only [bind_ok, pure_ok] at he1
      obtain ⟨_, _, _, _, he1⟩ := he1
      cases he1
    have : e' = e := by
      unfold updateVote at he1
      rw [if_neg hn, pure_ok] at he1
      cases he1; rfl
    exact ⟨by rw [this]; exact h, fun hx => by cases hx⟩
  | true =>
    have hle : e.st.vote.data ≤ v := by
      by_contra hn
      unfold updateVote at he1
      rw [if_neg hn, pure_ok] at he1
      cases he1
    obtain ⟨hnd, hcm, lead, hl, hp, hes, hc, hh, hlc⟩ := ho hle
    obtain ⟨hinv, _, _, hb⟩ := inv_updateVote h (fun hx => absurd hx hnd) he1
    have hbe := hb rfl hcm hnd
    simp only [if_true, bind_ok] at hr
    obtain ⟨lv, hlv, ⟨ok2, e2⟩, he2, hr⟩ := hr
    have hlv := followingHandler_ok hlv
    rw [toCommitted_eq hbe.fol.com] at hlv
    have hl' : LeadLog lead e1.st.vote.data e1.st.lv.L (e1.floor e1.st.vote.data) := by
      rw [hbe.vote, hbe.L, hbe.floor]; exact hl
    simp only at hr
    cases ok2 with
    | false =>
      simp only [Bool.false_eq_true, if_false] at hr
      rw [pure_ok] at hr
      cases hr
      exact ⟨inv_fhEnsure_false hinv hbe.fol hl' hp he2, fun hx => by cases hx⟩
    | true =>
      simp only [if_true, bind_ok, pure_ok] at hr
      obtain ⟨e3, he3, hr⟩ := hr
      cases hr
      obtain ⟨h1, h2, h3⟩ := fhEnsure_true hinv.lm hl' (floor_parts rfl).1 hp he2
      subst h1
      rw [hlv] at he3
      obtain ⟨k1, _, k3⟩ := inv_fhAppendEntries hinv hbe.fol hl' h2 h3 hp hes hc hh he3
      exact ⟨k1, fun _ => ⟨lead, by rw [← hbe.vote]; exact k3, hlc⟩⟩

theorem inv_handleAppend {g0 : Gh} {dbg : Bool} {now tx : Nat} {e e' : Eng} {v : Vote} {prev : Option LogId} {es : List Ent}
    {lc : Option LogId} (h : EInv g0 e) (ho : e.st.vote.data ≤ v → AppendOk e v prev es lc)
    (hr : e.handleAppend dbg now tx v prev es lc = .ok e') : EInv g0 e' := by
  unfold handleAppend at hr
  rw [bind_ok] at hr
  obtain ⟨⟨r, e1⟩, he1, hr⟩ := hr
  obtain ⟨hinv, ht⟩ := inv_appendEntries h ho he1
  simp only at hr
  split at hr
  · next hs =>
    simp only [bind_ok] at hr
    obtain ⟨acc, _, _, _, hr⟩ := hr
    obtain ⟨lead, htk, hlc⟩ := ht hs
    have hf := Frame.push e1 (c := .respond (some (.ioFlushed acc)) tx (.append r v (max prev (es.getLast?.map (·.id))))) rfl
    exact inv_fhCommit (hf.inv hinv) ⟨htk.log, htk.acc⟩ hlc hr
  · rw [pure_ok] at hr
    subst hr
    exact (Frame.push _ (c := .respond _ _ _) rfl).inv hinv

theorem inv_handleInstall {g0 : Gh} {dbg : Bool} {now tx : Nat} {e e' : Eng} {v : Vote} {m : SnapMeta} (h : EInv g0 e)
    (ho : InputOk e (.snapReq tx v m)) (hr : e.handleInstall dbg now tx v m = .ok e') : EInv g0 e' := by
  unfold handleInstall at hr
  rw [bind_ok] at hr
  obtain ⟨⟨ok, e1⟩, he1, hr⟩ := hr
  simp only at hr
  cases ok with
  | false =>
    simp only [Bool.false_eq_true, if_false] at hr
    rw [pure_ok] at hr
    have : e1 = e := by
      unfold updateVote at he1
      split at he1
      · simp only [bind_ok, pure_ok] at he1
        obtain ⟨_, _, _, _, he1⟩ := he1
        cases he1
      · rw [pure_ok] at he1; cases he1; rfl
    subst hr
    rw [this]
    exact (Frame.push _ (c := .respond _ _ _) rfl).inv h
  | true =>
    have hle : e.st.vote.data ≤ v := by
      by_contra hn
      unfold updateVote at he1
      rw [if_neg hn, pure_ok] at he1
      cases he1
    obtain ⟨hnd, hcm, hso⟩ := ho hle
    obtain ⟨hinv, _, _, hb⟩ := inv_updateVote h (fun hx => absurd hx hnd) he1
    have hbe := hb rfl hcm hnd
    simp only [if_true, bind_ok, pure_ok] at hr
    obtain ⟨lv, hlv, ⟨cond, e2⟩, he2, hr⟩ := hr
    have hlv := followingHandler_ok hlv
    rw [toCommitted_eq hbe.fol.com] at hlv
    rw [hlv] at he2
    subst hr
    refine (Frame.push _ (c := .respond _ _ _) rfl).inv (inv_fhInstall hinv hbe.fol ?_ he2)
    intro x hx hlt
    have hs := hso x hx (by rw [← hbe.com]; exact hlt)
    rw [hbe.vote]
    refine ⟨hs.leader, by rw [hbe.com]; exact hs.ahead, by rw [hbe.L, hbe.floor]; exact hs.agree, ?_,
      by rw [hbe.L, hbe.ms, hbe.com]; exact hs.conflict, by rw [hbe.L, hbe.ms]; exact hs.inside,
      by rw [hbe.L, hbe.ms, hbe.com]; exact hs.beyond⟩
    intro a _ ha hi
    rw [hbe.acc] at ha
    split at ha
    · next heq => exact hs.acc a heq ha hi
    · cases ha

theorem inv_writeEntry {g0 : Gh} {dbg : Bool} {e e' : Eng} {p : Payload} {r : Option Nat} (h : EInv g0 e)
    (hr : e.writeEntry dbg p = .ok (r, e')) : EInv g0 e' := by
  unfold writeEntry at hr
  rw [bind_ok] at hr
  obtain ⟨lo, hlo, hr⟩ := hr
  have hlo := leaderHandler_ok hlo
  split at hr
  · rw [pure_ok] at hr; cases hr; exact h
  · next l =>
    split at hr
    · rw [pure_ok] at hr; cases hr; exact h
    · simp only [bind_ok, pure_ok, unwrap_ok] at hr
      obtain ⟨e1, he1, last, _, hr⟩ := hr
      cases hr
      exact (inv_lhAppend h hlo.symm he1).1

theorem frame_io {e : Eng} (io : IOState) (h : io.prog.accepted = e.st.io.prog.accepted) :
    Frame e { e with st := { e.st with io := io } } :=
  ⟨rfl, rfl, rfl, h, fun _ => rfl, rfl, LSame.refl _, [], by simp, by simp⟩

theorem flush_ok {dbg : Bool} {p p' : IOProgress} {io : IOId} (h : p.flush dbg io = .ok p') :
    p' = { p with flushed := some io } := by
  unfold IOProgress.flush at h
  rw [bind_ok] at h
  obtain ⟨_, _, h⟩ := h
  rw [pure_ok] at h; exact h.symm

theorem updateApplied_ok {dbg : Bool} {s s' : IOState} {l : Option LogId} (h : s.updateApplied dbg l = .ok s') :
    s' = { s with applied := l } := by
  unfold IOState.updateApplied at h
  rw [bind_ok] at h
  obtain ⟨_, _, h⟩ := h
  rw [pure_ok] at h; exact h.symm

theorem updateSnapshotIO_ok {dbg : Bool} {s s' : IOState} {l : Option LogId} (h : s.updateSnapshot dbg l = .ok s') :
    s' = { s with snapshot := l } := by
  unfold IOState.updateSnapshot at h
  rw [bind_ok] at h
  obtain ⟨_, _, h⟩ := h
  rw [pure_ok] at h; exact h.symm

theorem inv_electCmd {g0 : Gh} {dbg : Bool} {now : Nat} {e e' : Eng} (h : EInv g0 e) (hl : e.leader = none)
    (hr : elect dbg now e = .ok e') : EInv g0 e' := by
  obtain ⟨a, ha1, ha2, _⟩ := h.pj.acc
  exact inv_elect h.lm ha1 (le_of_eq ha2) hl hr

theorem inv_tickElection {g0 : Gh} {dbg : Bool} {now : Nat} {en : Bool} {e e' : Eng} (h : EInv g0 e)
    (hr : e.tickElection dbg now en = .ok e') : EInv g0 e' := by
  unfold tickElection at hr
  split at hr
  · rw [pure_ok] at hr; subst hr; exact h
  · next hsv =>
    split at hr
    · rw [pure_ok] at hr; subst hr; exact h
    · split at hr
      · rw [pure_ok] at hr; subst hr; exact h
      · have hln : e.leader = none := by
          cases hx : e.leader with
          | none => rfl
          | some l => exact absurd (h.pj.lead l hx).srv hsv
        have hf : Frame e { e with seenGreater := false } :=
          ⟨rfl, rfl, rfl, rfl, fun _ => rfl, rfl, LSame.refl _, [], by simp, by simp⟩
        have hgo : ∀ b : Bool, (if b = true then elect dbg now { e with seenGreater := false } else pure e) = .ok e' →
            EInv g0 e' := by
          intro b hb
          cases b with
          | true => exact inv_electCmd (hf.inv h) hln hb
          | false =>
            simp only [Bool.false_eq_true, if_false] at hb
            rw [pure_ok] at hb; subst hb; exact h
        exact hgo _ hr

theorem inv_handleVoteResp {g0 : Gh} {dbg : Bool} {now : Nat} {e e' : Eng} {target : NodeId} {v : Vote}
    {last : Option LogId} {granted : Bool} (h : EInv g0 e) (hv : VoteOk e v)
    (hr : e.handleVoteResp dbg now target v last granted = .ok e') : EInv g0 e' := by
  unfold handleVoteResp at hr
  split at hr
  · rw [pure_ok] at hr; subst hr; exact h
  · next c hc =>
    have hk := h.pj.cand c hc
    split at hr
    · simp only [bind_ok] at hr
      obtain ⟨c1, hc1, hr⟩ := hr
      unfold grantBy at hc1
      rw [bind_ok] at hc1
      obtain ⟨p, _, hc1⟩ := hc1
      rw [pure_ok] at hc1
      have hinv : EInv g0 { e with candidate := some c1 } := by
        refine ⟨h.lm.state rfl h.lm.log h.lm.mem, h.pj.gv, h.pj.acc, ?_, ?_, h.pj.nolead⟩
        · intro l hl
          have : e.leader = some l := hl
          rw [hk.nl] at this; cases this
        · intro c2 hc2
          have : c2 = c1 := (Option.some.inj hc2).symm
          subst this
          subst hc1
          exact ⟨hk.vote, hk.com, hk.node, hk.last, hk.nl⟩
      split at hr
      · exact inv_establishLeader hinv hr
      · rw [pure_ok] at hr; subst hr; exact hinv
    · simp only [bind_ok] at hr
      obtain ⟨⟨ok, e2⟩, he2, hr⟩ := hr
      rw [pure_ok] at hr
      simp only at hr
      subst hr
      split at he2
      · have hf : Frame e { e with seenGreater := true } :=
          ⟨rfl, rfl, rfl, rfl, fun _ => rfl, rfl, LSame.refl _, [], by simp, by simp⟩
        exact (inv_updateVote (hf.inv h) hv he2).1
      · exact (inv_updateVote h hv he2).1

/-- every input keeps the invariant -/
theorem inv_input {g0 : Gh} {dbg : Bool} {now : Nat} {e e' : Eng} {i : Input} (h : EInv g0 e) (ho : InputOk e i)
    (hr : e.input dbg now i = .ok e') : EInv g0 e' := by
  cases i with
  | appendReq tx v prev es lc => exact inv_handleAppend h ho hr
  | voteReq tx v last =>
    simp only [input, coreVoteReq, bind_ok, pure_ok] at hr
    obtain ⟨⟨r, e1⟩, he1, hr⟩ := hr
    subst hr
    refine (Frame.push _ (c := .respond _ _ _) rfl).inv ?_
    unfold handleVoteReq at he1
    split at he1
    · rw [pure_ok] at he1; cases he1; exact h
    · split at he1
      · simp only [bind_ok, pure_ok] at he1
        obtain ⟨⟨ok, e2⟩, he2, he1⟩ := he1
        cases he1
        exact (inv_updateVote h ho he2).1
      · rw [pure_ok] at he1; cases he1; exact h
  | snapReq tx v m => exact inv_handleInstall h ho hr
  | init tx m =>
    simp only [input, coreInit, bind_ok, pure_ok] at hr
    obtain ⟨⟨ok, e1⟩, he1, hr⟩ := hr
    subst hr
    exact (Frame.push _ (c := .respond _ _ _) rfl).inv (inv_initCluster h he1)
  | write p =>
    simp only [input, bind_ok, pure_ok] at hr
    obtain ⟨⟨r, e1⟩, he1, hr⟩ := hr
    subst hr
    exact inv_writeEntry h he1
  | change c r =>
    simp only [input, bind_ok, pure_ok] at hr
    obtain ⟨⟨r', e1⟩, he1, hr⟩ := hr
    subst hr
    unfold changeMembership at he1
    split at he1
    · rw [pure_ok] at he1; cases he1; exact h
    · exact inv_writeEntry h he1
  | handleTransfer v target =>
    simp only [input, coreHandleTransfer] at hr
    split at hr
    · next hv =>
      have hf : Frame e { e with st := { e.st with vote := e.st.vote.disable } } :=
        ⟨rfl, rfl, rfl, rfl, fun _ => rfl, rfl, LSame.refl _, [], by simp, by simp⟩
      split at hr
      · next ht => exact inv_electCmd (hf.inv h) (ho hv ht) hr
      · rw [pure_ok] at hr; subst hr; exact hf.inv h
    · rw [pure_ok] at hr; subst hr; exact h
  | electCmd =>
    simp only [input, coreElect] at hr
    split at hr
    · exact inv_electCmd h ho hr
    · rw [pure_ok] at hr; subst hr; exact h
  | heartbeatCmd => exact (frame_coreHeartbeat hr).inv h
  | snapshotCmd =>
    simp only [input] at hr
    rw [pure_ok] at hr; subst hr
    exact (frame_triggerSnapshot e).inv h
  | purgeCmd i => exact inv_triggerPurge h hr
  | transferCmd t =>
    simp only [input, triggerTransfer, bind_ok] at hr
    obtain ⟨lo, hlo, hr⟩ := hr
    have hlo := leaderHandler_ok hlo
    split at hr
    · rw [pure_ok] at hr; subst hr; exact h
    · rw [pure_ok] at hr; subst hr; exact (frame_lhTransfer hlo.symm t).inv h
  | voteResp target v last granted sender =>
    simp only [input] at hr
    split at hr
    · exact inv_handleVoteResp h ho hr
    · rw [pure_ok] at hr; subst hr; exact h
  | higherVote v sender =>
    simp only [input] at hr
    split at hr
    · rw [bind_ok] at hr
      obtain ⟨⟨ok, e1⟩, he1, hr⟩ := hr
      rw [pure_ok] at hr
      simp only at hr
      subst hr
      exact (inv_updateVote h ho he1).1
    · rw [pure_ok] at hr; subst hr; exact h
  | tick el hb iv =>
    simp only [input, coreTick, bind_ok] at hr
    obtain ⟨e1, he1, e2, he2, hr⟩ := hr
    have h2 := (frame_tickHeartbeat he2).inv (inv_tickElection h he1)
    split at hr
    · unfold leaderStepDown at hr
      split at hr
      · exact inv_updateInternal h2 hr
      · rw [pure_ok] at hr; subst hr; exact h2
    · rw [pure_ok] at hr; subst hr; exact h2
  | localIO io =>
    simp only [input, coreLocalIO, bind_ok] at hr
    obtain ⟨p, hp, hr⟩ := hr
    have hp := flush_ok hp
    have hf : Frame e (e.withProg p) := frame_io _ (by rw [hp])
    have h1 := hf.inv h
    split at hr
    · next hcm =>
      split at hr
      · next l hl =>
        split at hr
        · next hvm =>
          exact inv_rhUpdateLocal h1 hl (by rw [hf.lv]; exact ho hcm hvm) hr
        · rw [pure_ok] at hr; subst hr; exact h1
      · rw [pure_ok] at hr; subst hr; exact h1
    · rw [pure_ok] at hr; subst hr; exact h1
  | replProgress s target r =>
    simp only [input, coreReplProgress] at hr
    split at hr
    · next hs =>
      simp only [bind_ok, unwrap_ok] at hr
      obtain ⟨l, hl, hr⟩ := hr
      exact inv_rhUpdateProgress h hl (ho hs) hr
    · rw [pure_ok] at hr; subst hr; exact h
  | hbProgress s target t =>
    simp only [input, coreHbProgress] at hr
    split at hr
    · simp only [bind_ok, unwrap_ok] at hr
      obtain ⟨l, hl, hr⟩ := hr
      exact (frame_updateClock hl hr).inv h
    · rw [pure_ok] at hr; subst hr; exact h
  | built m =>
    simp only [input, coreBuilt, bind_ok, pure_ok] at hr
    obtain ⟨e1, he1, io, hio, hr⟩ := hr
    have hio := updateSnapshotIO_ok hio
    subst hr
    exact (frame_io io (by rw [hio])).inv (inv_finishBuilding h ho he1)
  | installed io m =>
    simp only [input, coreInstalled, bind_ok, pure_ok] at hr
    obtain ⟨p, hp, s1, hs1, s2, hs2, hr⟩ := hr
    have hp := flush_ok hp
    have hs1 := updateApplied_ok hs1
    have hs2 := updateSnapshotIO_ok hs2
    subst hr
    exact (frame_io s2 (by rw [hs2, hs1, hp])).inv h
  | applied last =>
    simp only [input, coreApplied, bind_ok, pure_ok] at hr
    obtain ⟨s, hs, hr⟩ := hr
    have hs := updateApplied_ok hs
    subst hr
    exact (frame_io s (by rw [hs])).inv h
  | initiate =>
    simp only [input, coreInitiate, bind_ok] at hr
    obtain ⟨lo, hlo, hr⟩ := hr
    have hlo := leaderHandler_ok hlo
    split at hr
    · rw [pure_ok] at hr; subst hr; exact h
    · exact (frame_rhInitiate (by rw [← hlo]; exact LSame.refl _) hr).inv h

/-! ## Executions -/

/-- a node's execution from `e0`: every input is one that `InputOk` allows -/
inductive Run (dbg : Bool) (e0 : Eng) : Eng → Prop
  | refl : Run dbg e0 e0
  | step {e e' : Eng} (now : Nat) (i : Input) : Run dbg e0 e → InputOk e i → e.input dbg now i = .ok e' → Run dbg e0 e'

theorem Run.inv {g0 : Gh} {dbg : Bool} {e0 e : Eng} (h0 : EInv g0 e0) (h : Run dbg e0 e) : EInv g0 e := by
  induction h with
  | refl => exact h0
  | step now i _ ho hr ih => exact inv_input ih ho hr

/-- a new node: `RaftState::default()` and no command yet -/
def fresh (cfg : Cfg) (now : Nat) : Eng :=
  { cfg := cfg
    st := { vote := Leased.new now 0 ⟨⟨0, 0⟩, false⟩, committed := none, purgedNext := 0, logIds := [],
            ms := ⟨.empty, .empty⟩, snap := .empty, server := .learner,
            io := IOState.new ⟨⟨0, 0⟩, false⟩ none none none, purgeUpto := none }
    seenGreater := false, leader := none, candidate := none, out := [] }

/-- the abstract node with nothing stored -/
def _root_.Openraft.Engine.Gh.empty : Gh := ⟨⟨none, []⟩, .empty, .empty, none, ⟨⟨0, 0⟩, false⟩⟩

theorem fresh_inv (cfg : Cfg) (now : Nat) : EInv Gh.empty (fresh cfg now) := by
  refine inv_norole ⟨trivial, ?_, ?_⟩ rfl rfl rfl ⟨_, rfl, rfl, KnownO.none⟩ ?_
  · refine ⟨by simp [fresh, RState.lv, SortedIdx], trivial, ?_, rfl, ?_, rfl, rfl, rfl, ?_, ?_, ?_, ?_, ?_, ?_, le_refl _⟩
    · intro x hx; cases hx
    · intro _ x hx; cases hx
    · intro x hx; cases hx
    · intro x hx; cases hx
    · intro x hx; cases hx
    · exact Nat.le_refl _
    · exact Nat.le_refl _
    · exact Nat.le_refl _
  · exact ⟨rfl, Or.inl rfl, fun _ => rfl, OptOrd.none_le' _, Nat.le_refl _⟩
  · simp [RState.isLeader, fresh, Leased.new]

end Eng
end Openraft.Engine
