import Verif.Engine.SafeStep
import Verif.Engine.Won
import Verif.Engine.IoOrder
import Verif.Engine.Cand

/-!
# A candidate that is granted by a quorum

What `establish_leader` leaves behind, and that a granted answer is counted.
-/

set_option autoImplicit false

namespace Openraft.Engine
open Openraft.Repl (Panic dassert)
open Openraft.Cluster (Payload)
namespace Eng
variable {dbg : Bool} {e e' : Eng} {now : Nat}

/-- the last step of an append leaves a leader -/
theorem lhAppend_leads {l : Leader} {p : Payload} (hr : lhAppend dbg e l [p] = .ok e') : ∃ l', e'.leader = some l' := by
  unfold lhAppend at hr
  rw [if_neg (by simp)] at hr
  simp only [bind_ok] at hr
  obtain ⟨_, _, ids, _, _, _, st, _, e2, _, l2, _, hr⟩ := hr
  unfold rhInitiate at hr
  rw [bind_ok] at hr
  obtain ⟨_, _, hr⟩ := hr
  rw [pure_ok] at hr; subst hr
  exact ⟨_, rfl⟩

/-- a candidate that becomes the leader: it saves its vote as that of a leader and appends a blank entry -/
theorem establishLeader_leads {g0 : Gh} {c : Candidate} (hI : EInv g0 e) (hc : e.candidate = some c)
    (hr : e.establishLeader dbg now = .ok e') :
    (∃ l, e'.leader = some l) ∧ e'.candidate = none ∧ e'.st.vote.data = ⟨c.vote.leaderId, true⟩ ∧
    ∃ rs cs, e'.out = e.out ++ .rebuild rs :: .saveVote ⟨c.vote.leaderId, true⟩ ::
        .append ⟨c.vote.leaderId, true⟩ [⟨⟨c.vote.leaderId, nextIndex e.st.lastLogId⟩, .blank⟩] :: cs ∧
      ∀ x ∈ cs, x.quiet = true := by
  have hk := hI.pj.cand c hc
  have hcd : e'.candidate = none := by
    unfold establishLeader at hr
    simp only [bind_ok, unwrap_ok] at hr
    obtain ⟨c', hc', o, ho, hr⟩ := hr
    cases o with
    | none => simp only [pure_ok] at hr; subst hr; rfl
    | some l =>
      simp only [bind_ok] at hr
      obtain ⟨⟨ok, e2⟩, h2, _, _, st, hst, o3, h3, l3, hl3, hr⟩ := hr
      have h4 : e2.candidate = none := by
        rcases keep_updateVote _ _ _ h2 with h | h
        · exact h
        · exact h
      rcases keep_lhAppend _ _ _ _ hr with h | h
      · exact h.trans h4
      · exact h
  unfold establishLeader at hr
  simp only [bind_ok, unwrap_ok] at hr
  obtain ⟨c', hc', o, ho, hr⟩ := hr
  rw [hc] at hc'; cases hc'
  cases o with
  | none =>
    exfalso
    unfold establish at ho
    simp only [hk.nl, bind_ok] at ho
    obtain ⟨_, _, ho⟩ := ho
    rw [if_neg (by simp)] at ho
    simp only [bind_ok, pure_ok] at ho
    obtain ⟨_, _, ho⟩ := ho
    cases ho
  | some l =>
    simp only [bind_ok] at hr
    obtain ⟨⟨ok, e2⟩, h2, _, _, st, hst, o3, h3, l3, hl3, hr⟩ := hr
    have hprop : l.vote = ⟨c.vote.leaderId, true⟩ ∧ l.lastLogId = c.lastLogId := by
      have hin := establish_into ho
      unfold Candidate.intoLeader at hin
      rw [bind_ok] at hin
      obtain ⟨_, _, hin⟩ := hin
      obtain ⟨h1, h2, _⟩ := newLeader_ok hin
      refine ⟨by rw [h1]; rfl, ?_⟩
      rw [h2]; cases c.lastLogId <;> rfl
    have hlt : e.st.vote.data < l.vote := by
      rw [Vote.lt_def, hprop.1, hk.vote]
      exact Or.inr ⟨rfl, hk.com, rfl⟩
    obtain ⟨e1, he1⟩ : ∃ e1, e1 = rhRebuildStreams { e with candidate := none, leader := some l } l := ⟨_, rfl⟩
    have h2' : e1.updateVote dbg now l.vote = .ok (ok, e2) := by rw [he1]; exact h2
    have hst1 : e1.st = e.st := by rw [he1]; rfl
    obtain ⟨l1, hl1, hl1v, hl1l⟩ : ∃ l1, e1.leader = some l1 ∧ l1.vote = l.vote ∧ l1.lastLogId = l.lastLogId := by
      rw [he1]; exact ⟨_, rfl, rfl, rfl⟩
    obtain ⟨rs, ho1⟩ : ∃ rs, e1.out = e.out ++ [.rebuild rs] := by rw [he1]; exact ⟨_, rfl⟩
    clear h2 he1
    unfold updateVote at h2'
    rw [if_pos (by rw [hst1]; exact le_of_lt hlt)] at h2'
    simp only [bind_ok, pure_ok] at h2'
    obtain ⟨e3, he3, e4, he4, h2'⟩ := h2'
    cases h2'
    unfold storeVote at he3
    rw [if_pos (by rw [hst1]; exact hlt), bind_ok] at he3
    obtain ⟨st3, hst3, he3⟩ := he3
    rw [pure_ok] at he3
    have hv3 : e3.st.vote.data = l.vote := by
      rw [← he3]; exact congrArg Leased.data (acceptIo_vote hst3)
    have hl3' : e3.leader = some l1 := by rw [← he3]; exact hl1
    have ho3 : e3.out = e1.out ++ [.saveVote l.vote] := by rw [← he3]; rfl
    clear he3
    have hlh := leaderHandler_ok h3
    have hl3s : e2.leader = some l3 := by
      rw [hlh] at hl3; exact unwrap_ok.1 hl3
    have hgo : e2.out = e3.out ∧ l3.vote = l.vote ∧ l3.lastLogId = l.lastLogId ∧ e2.st.vote = e3.st.vote := by
      unfold updateInternal at he4
      split at he4
      · unfold becomeLeader at he4
        rw [hl3'] at he4
        simp only at he4
        rw [if_pos (by rw [hl1v, hv3]), pure_ok] at he4
        subst he4
        cases hl3s
        refine ⟨rfl, ?_, hl1l, rfl⟩
        show e3.st.vote.data.toCommitted = _
        rw [hv3, hprop.1]; rfl
      · next hil =>
        split at he4
        · next hig =>
          exfalso
          rw [RState.isLeader, hig, hv3, hprop.1] at hil
          exact hil rfl
        · unfold becomeFollowing at he4
          rw [bind_ok] at he4
          obtain ⟨_, _, he4⟩ := he4
          rw [pure_ok] at he4
          subst he4
          cases hl3s
    obtain ⟨cs, h5, h6, _⟩ := lhAppend_shape hr
    refine ⟨lhAppend_leads hr, hcd, ?_, rs, cs, ?_, h6⟩
    · refine (VF.noSave (vf_lhAppend _ _ _ _ hr) (emits_lhAppend _ _ _ _ hr)).trans ?_
      refine (congrArg Leased.data (acceptIo_vote hst)).trans ?_
      rw [hgo.2.2.2, hv3, hprop.1]
    · have h5' : e'.out = e2.out ++ _ := h5
      rw [h5', hgo.1, ho3, ho1, hgo.2.1, hgo.2.2.1, hprop.1, hprop.2, hk.last]
      simp

/-- what a granted answer does to a candidate -/
theorem voteResp_counts {g0 : Gh} {c : Candidate} {n : NodeId} {last : Option LogId} (hI : EInv g0 e)
    (hc : e.candidate = some c) (hr : e.input dbg now (.voteResp n c.vote last true c.vote) = .ok e') :
    ∃ c1, grantBy c n = .ok c1 ∧
      (c1.progress.granted = false ∧ e' = { e with candidate := some c1 } ∨
       c1.progress.granted = true ∧ { e with candidate := some c1 }.establishLeader dbg now = .ok e') := by
  have hk := hI.pj.cand c hc
  simp only [input] at hr
  rw [if_pos (by rw [hc]; simp [voteMatch, hc, hk.vote, hk.com])] at hr
  unfold handleVoteResp at hr
  rw [hc] at hr
  simp only [beq_self_eq_true, Bool.and_self, if_true] at hr
  rw [bind_ok] at hr
  obtain ⟨c1, hc1, hr⟩ := hr
  refine ⟨c1, hc1, ?_⟩
  cases hg : c1.progress.granted with
  | true => rw [if_pos hg] at hr; exact Or.inr ⟨rfl, hr⟩
  | false => rw [if_neg (by rw [hg]; simp), pure_ok] at hr; exact Or.inl ⟨rfl, hr.symm⟩

/-- a candidate with another count is as good -/
theorem inv_counted {g0 : Gh} {c : Candidate} {p : VecProgress Bool} (hI : EInv g0 e) (hc : e.candidate = some c) :
    EInv g0 { e with candidate := some { c with progress := p } } := by
  have hk := hI.pj.cand c hc
  refine ⟨hI.lm.state rfl hI.lm.log hI.lm.mem, hI.pj.gv, hI.pj.acc, ?_, ?_, hI.pj.nolead⟩
  · intro l hl
    have : e.leader = some l := hl
    rw [hk.nl] at this; cases this
  · intro c2 hc2
    cases hc2
    exact ⟨hk.vote, hk.com, hk.node, hk.last, hk.nl⟩

/-- the vote of a new election -/
theorem elect_new (hr : e.elect dbg now = .ok e') : e'.st.vote.data = Vote.new (e.st.vote.data.leaderId.term + 1) e.cfg.id := by
  unfold elect at hr
  simp only [bind_ok] at hr
  obtain ⟨⟨ok, e2⟩, he2, _, hok, hr⟩ := hr
  rw [pure_ok] at hr
  subst hr
  rcases updateVote_cases he2 with ⟨_, h⟩ | ⟨_, h⟩
  · subst h; cases hok
  · exact h

/-- An input other than an answer to a vote request keeps the candidate or drops it, or there is a new vote. -/
theorem keep_or_new {i : Input} (hv : ∀ t v l g s, i ≠ .voteResp t v l g s) (hr : e.input dbg now i = .ok e') :
    Keep e e' ∨ e.st.vote.data < e'.st.vote.data := by
  have hel : ∀ {e1 e2 : Eng}, e1.st.vote.data = e.st.vote.data → e1.elect dbg now = .ok e2 → e.st.vote.data < e2.st.vote.data := by
    intro e1 e2 h1 h2
    rw [elect_new h2, h1]; exact vote_lt_new _
  by_cases hi : i.mayElect = false
  · exact Or.inl (keep_input e i hi e' hr)
  cases i with
  | voteResp t v l g s => exact absurd rfl (hv t v l g s)
  | init tx m =>
    simp only [input, coreInit, bind_ok, pure_ok] at hr
    obtain ⟨⟨r, e1⟩, h1, hr⟩ := hr
    subst hr
    unfold initCluster at h1
    split at h1
    · rw [pure_ok] at h1; cases h1; exact Or.inl (Or.inl rfl)
    · next hin =>
      split at h1
      · rw [pure_ok] at h1; cases h1; exact Or.inl (Or.inl rfl)
      · simp only [bind_ok, pure_ok] at h1
        obtain ⟨v, hv, e2, he2, e3, he3, h1⟩ := h1
        cases h1
        right
        have h0 : e.st.vote.data = ⟨⟨0, 0⟩, false⟩ := by
          by_contra hn
          exact hin (by unfold RState.isInitialized; simp [hn])
        show _ < e1.st.vote.data
        rw [elect_new he3, h0, Vote.lt_def]
        left
        rw [LeaderId.lt_def]
        left
        exact Nat.succ_pos _
  | handleTransfer v target =>
    simp only [input, coreHandleTransfer] at hr
    split at hr
    · split at hr
      · exact Or.inr (hel (by rfl) hr)
      · rw [pure_ok] at hr; rw [← hr]; exact Or.inl (Or.inl rfl)
    · rw [pure_ok] at hr; rw [← hr]; exact Or.inl (Or.inl rfl)
  | electCmd =>
    simp only [input, coreElect] at hr
    split at hr
    · exact Or.inr (hel (by rfl) hr)
    · rw [pure_ok] at hr; rw [← hr]; exact Or.inl (Or.inl rfl)
  | tick el hb iv =>
    simp only [input, coreTick, bind_ok] at hr
    obtain ⟨e1, he1, e2, he2, hr⟩ := hr
    have hk2 : Keep e1 e2 := keep_tickHeartbeat e1 hb iv e2 he2
    have hk3 : Keep e2 e' := by
      split at hr
      · exact keep_leaderStepDown e2 e' hr
      · rw [pure_ok] at hr; rw [hr]; exact Keep.refl _
    have hv2 : e2.st.vote.data = e1.st.vote.data := (vf_tickHeartbeat _ _ _ _ he2).noSave (emits_tickHeartbeat _ _ _ _ he2)
    have hv3 : e'.st.vote.data = e2.st.vote.data := by
      split at hr
      · exact (vf_leaderStepDown _ _ hr).noSave (emits_leaderStepDown _ _ hr)
      · rw [pure_ok] at hr; rw [hr]
    have h1 : Keep e e1 ∨ e.st.vote.data < e1.st.vote.data := by
      unfold tickElection at he1
      split at he1
      · rw [pure_ok] at he1; rw [he1]; exact Or.inl (Keep.refl _)
      · split at he1
        · rw [pure_ok] at he1; rw [he1]; exact Or.inl (Keep.refl _)
        · split at he1
          · rw [pure_ok] at he1; rw [he1]; exact Or.inl (Keep.refl _)
          · generalize (e.cfg.electionTimeout + if e.seenGreater = true then e.cfg.smallerLogTimeout else 0) = tm at he1
            dsimp only at he1
            split at he1
            · exact Or.inr (hel (by rfl) he1)
            · rw [pure_ok] at he1; rw [he1]; exact Or.inl (Keep.refl _)
    rcases h1 with h1 | h1
    · exact Or.inl (h1.trans (hk2.trans hk3))
    · right; rw [hv3, hv2]; exact h1
  | _ => exact absurd rfl hi

/-- An answer to a vote request that is not a yes to the candidate keeps it or drops it. -/
theorem keep_other {g0 : Gh} {n : NodeId} {v s : Vote} {last : Option LogId} {g : Bool} (hI : EInv g0 e)
    (hn : ∀ c, e.candidate = some c → ¬ (g = true ∧ v = c.vote ∧ s = c.vote)) (hr : e.input dbg now (.voteResp n v last g s) = .ok e') :
    Keep e e' := by
  simp only [input] at hr
  split at hr
  · next hm =>
    rw [Bool.and_eq_true] at hm
    unfold handleVoteResp at hr
    split at hr
    · rw [pure_ok] at hr; rw [← hr]; exact Keep.refl _
    · next c hc =>
      split at hr
      · next hg =>
        exfalso
        rw [Bool.and_eq_true, beq_iff_eq] at hg
        refine hn c hc ⟨hg.1, hg.2, ?_⟩
        have hk := hI.pj.cand c hc
        have h2 := hm.2
        unfold voteMatch at h2
        rw [hk.nl, hc] at h2
        split at h2
        · simp at h2
        · have h3 : c.vote = s := by simpa using h2
          exact h3.symm
      · rw [bind_ok] at hr
        obtain ⟨⟨ok, e2⟩, he2, hr⟩ := hr
        rw [pure_ok] at hr
        subst hr
        split at he2
        · exact keep_updateVote _ _ _ he2
        · exact keep_updateVote _ _ _ he2
  · rw [pure_ok] at hr; rw [← hr]; exact Keep.refl _

end Eng
end Openraft.Engine
