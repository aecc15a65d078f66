import Verif.Engine.Noop
import Verif.Engine.Won

/-!
# The blank entry of a leader does not change

While a node leads by one vote, its `noop_log_id` stays the same; when it begins to lead, `noop_log_id` is an
entry of its log.
-/

set_option autoImplicit false

namespace Openraft.Engine
open Openraft.Repl (Panic dassert Inflight)
open LogIdList
namespace Eng
variable {T : LeaderId → Option LogId → Prop} {dbg : Bool} {now : Nat}

theorem noopKeep_updateInternal {e e' : Eng} {l : Leader} (hl : e.leader = some l) (hv : l.vote.leaderId = e.st.vote.data.leaderId) (h : NoopInv T e)
    (hr : e.updateInternal dbg now = .ok e') : NoopInv T e' := by
  unfold updateInternal at hr
  split at hr
  · unfold becomeLeader at hr
    rw [hl] at hr
    dsimp only at hr
    rw [if_pos hv, pure_ok] at hr
    subst hr
    exact NoopInv.set rfl (NoopL.same (h l hl) rfl hv.symm)
  · split at hr
    · rw [pure_ok] at hr; subst hr; exact h
    · unfold becomeFollowing at hr
      simp only [bind_ok, pure_ok] at hr
      obtain ⟨_, _, hr⟩ := hr
      subst hr
      exact NoopInv.none rfl

theorem noopKeep_updateVote {e e' : Eng} {l : Leader} {v : Vote} {b : Bool} (hl : e.leader = some l) (hlv : l.vote = e.st.vote.data) (h : NoopInv T e)
    (hr : e.updateVote dbg now v = .ok (b, e')) (hv : e'.st.vote.data = e.st.vote.data) : NoopInv T e' := by
  rcases updateVote_cases hr with ⟨rfl, _⟩ | ⟨hle, h2⟩
  · exact h
  · unfold updateVote at hr
    rw [if_pos hle] at hr
    · simp only [bind_ok, pure_ok] at hr
      obtain ⟨e1, h3, e2, h4, hr⟩ := hr
      cases hr
      unfold storeVote at h3
      rw [if_neg (by rw [← h2, hv]; exact lt_irrefl _)] at h3
      simp only [bind_ok, pure_ok] at h3
      obtain ⟨vt, hvt, h3⟩ := h3
      subst h3
      refine noopKeep_updateInternal (e := { e with st := { e.st with vote := vt } }) hl ?_ h.same h4
      have : vt.data = e.st.vote.data := by
        unfold Leased.touch at hvt
        simp only [bind_ok, pure_ok] at hvt
        obtain ⟨_, _, hvt⟩ := hvt
        rw [← hvt]
      show l.vote.leaderId = vt.data.leaderId
      rw [this, hlv]

/-- **While a node leads by one vote, its blank entry stays the same.** -/
theorem noopKeep_input {g0 : Gh} {e e' : Eng} {i : Input} {l l' : Leader} (h : EInv g0 e) (ho : InputOk e i)
    (hr : e.input dbg now i = .ok e') (hl : e.leader = some l) (hl' : e'.leader = some l') (hv : e'.st.vote.data = e.st.vote.data) :
    l'.noopLogId = l.noopLogId := by
  suffices hk : NoopInv (fun _ o => o = l.noopLogId) e' from hk l' hl'
  have h0 : NoopInv (fun _ o => o = l.noopLogId) e := fun x hx => by rw [hl] at hx; cases hx; rfl
  have hlo := h.pj.lead l hl
  have same : e'.leader = e.leader → NoopInv (fun _ o => o = l.noopLogId) e' := fun hx => h0.same hx
  have elects : ∀ {e1 : Eng}, e1.elect dbg now = .ok e' → NoopInv (fun _ o => o = l.noopLogId) e' := by
    intro e1 h1
    have := elect_vote h1
    rw [hv, hlo.com] at this; cases this
  by_cases hi : i.calm = true
  · exact noop_calm h0 hi _ hr
  cases i with
  | appendReq tx v prev es lc =>
    rcases lead_appendReq h ho hr with h1 | ⟨h1, _⟩
    · rw [h1] at hl'; cases hl'
    · exact same h1
  | snapReq tx v m =>
    rcases lead_snapReq h ho hr with h1 | ⟨h1, _⟩
    · rw [h1] at hl'; cases hl'
    · exact same h1
  | voteReq tx v last =>
    simp only [input, coreVoteReq, bind_ok, pure_ok] at hr
    obtain ⟨⟨r, e1⟩, h1, hr⟩ := hr
    subst hr
    unfold handleVoteReq at h1
    split at h1
    · rw [pure_ok] at h1; cases h1; exact h0.same
    · split at h1
      · simp only [bind_ok, pure_ok] at h1
        obtain ⟨⟨b, e2⟩, h2, h1⟩ := h1
        cases h1
        exact (noopKeep_updateVote hl hlo.vote h0 h2 hv).same
      · rw [pure_ok] at h1; cases h1; exact h0.same
  | init tx m =>
    simp only [input, coreInit, bind_ok, pure_ok] at hr
    obtain ⟨⟨r, e1⟩, h1, hr⟩ := hr
    subst hr
    unfold initCluster at h1
    split at h1
    · rw [pure_ok] at h1; cases h1; exact h0.same
    · split at h1
      · rw [pure_ok] at h1; cases h1; exact h0.same
      · simp only [bind_ok, pure_ok] at h1
        obtain ⟨v, _, e2, he2, e3, he3, h1⟩ := h1
        cases h1
        have := elect_vote he3
        have hv' := congrArg Vote.committed hv
        rw [hlo.com] at hv'
        cases (hv'.symm.trans this)
  | handleTransfer v target =>
    simp only [input, coreHandleTransfer] at hr
    split at hr
    · split at hr
      · exact elects hr
      · rw [pure_ok] at hr; subst hr; exact h0.same
    · rw [pure_ok] at hr; subst hr; exact h0
  | electCmd =>
    simp only [input, coreElect] at hr
    split at hr
    · exact elects hr
    · rw [pure_ok] at hr; subst hr; exact h0
  | voteResp t v la gr s =>
    have hc : e.candidate = none := by
      cases hc : e.candidate with
      | none => rfl
      | some c => rw [(h.pj.cand c hc).nl] at hl; cases hl
    simp only [input, handleVoteResp, hc] at hr
    split at hr
    · rw [pure_ok] at hr; subst hr; exact h0
    · rw [pure_ok] at hr; subst hr; exact h0
  | higherVote v sender =>
    simp only [input] at hr
    split at hr
    · simp only [bind_ok, pure_ok] at hr
      obtain ⟨⟨b, e2⟩, h2, hr⟩ := hr
      subst hr
      exact noopKeep_updateVote hl hlo.vote h0 h2 hv
    · rw [pure_ok] at hr; subst hr; exact h0
  | tick el hb iv =>
    simp only [input, coreTick, bind_ok] at hr
    obtain ⟨e1, h1, e2, h2, hr⟩ := hr
    have hv1 : e'.st.vote.data = e1.st.vote.data := by
      have k1 := (vf_tickHeartbeat _ _ _ _ h2).noSave (emits_tickHeartbeat _ _ _ _ h2)
      split at hr
      · exact ((vf_leaderStepDown _ _ hr).noSave (emits_leaderStepDown _ _ hr)).trans k1
      · rw [pure_ok] at hr; subst hr; exact k1
    have he : e1 = e := by
      unfold tickElection at h1
      split at h1
      · rw [pure_ok] at h1; exact h1.symm
      · split at h1
        · rw [pure_ok] at h1; exact h1.symm
        · split at h1
          · rw [pure_ok] at h1; exact h1.symm
          · generalize (e.cfg.electionTimeout + if e.seenGreater = true then e.cfg.smallerLogTimeout else 0) = tm at h1
            dsimp only at h1
            split at h1
            · have := elect_vote h1
              rw [← hv1, hv, hlo.com] at this; cases this
            · rw [pure_ok] at h1; exact h1.symm
    subst he
    have k2 : NoopInv (fun _ o => o = l.noopLogId) e2 := noop_tickHeartbeat h0 _ _ _ h2
    have k3 : NoopInv (fun L _ => L = e1.st.vote.data.leaderId) e2 :=
      noop_tickHeartbeat (T := fun L _ => L = e1.st.vote.data.leaderId) (fun x hx => by rw [hl] at hx; cases hx; show l.vote.leaderId = _; rw [hlo.vote]) _ _ _ h2
    have k4 := (vf_tickHeartbeat _ _ _ _ h2).noSave (emits_tickHeartbeat _ _ _ _ h2)
    split at hr
    · unfold leaderStepDown at hr
      split at hr
      · cases hl2 : e2.leader with
        | none =>
          have hf := (frame_tickHeartbeat h2).lead
          rw [hl, hl2] at hf; exact hf.elim
        | some l2 => exact noopKeep_updateInternal hl2 ((k3 l2 hl2).trans (congrArg Vote.leaderId k4).symm) k2 hr
      · rw [pure_ok] at hr; subst hr; exact k2
    · rw [pure_ok] at hr; subst hr; exact k2
  | _ => exact absurd rfl hi

/-- offering its own vote to a leader changes only the vote in its data -/
theorem updateVote_leader {e e' : Eng} {l l' : Leader} {v : Vote} {b : Bool} (hl : e.leader = some l) (hlv : l.vote.leaderId = v.leaderId)
    (hr : e.updateVote dbg now v = .ok (b, e')) (hl' : e'.leader = some l') :
    l'.noopLogId = l.noopLogId ∧ l'.lastLogId = l.lastLogId ∧ l'.vote.leaderId = l.vote.leaderId := by
  rcases updateVote_cases hr with ⟨rfl, _⟩ | ⟨hle, h2⟩
  · rw [hl] at hl'; cases hl'; exact ⟨rfl, rfl, rfl⟩
  · unfold updateVote at hr
    rw [if_pos hle] at hr
    simp only [bind_ok, pure_ok] at hr
    obtain ⟨e1, h3, e2, h4, hr⟩ := hr
    cases hr
    have k : e1.leader = some l ∧ e1.st.vote.data = v := by
      unfold storeVote at h3
      split at h3
      · simp only [bind_ok, pure_ok] at h3
        obtain ⟨st, hst, rfl⟩ := h3
        exact ⟨hl, congrArg Leased.data (acceptIo_vote hst)⟩
      · next hlt =>
        simp only [bind_ok, pure_ok] at h3
        obtain ⟨vt, hvt, rfl⟩ := h3
        refine ⟨hl, ?_⟩
        unfold Leased.touch at hvt
        simp only [bind_ok, pure_ok] at hvt
        obtain ⟨_, _, rfl⟩ := hvt
        rcases eq_or_lt_of_le hle with h5 | h5
        · exact h5
        · exact absurd h5 hlt
    unfold updateInternal at h4
    split at h4
    · unfold becomeLeader at h4
      rw [k.1] at h4
      dsimp only at h4
      rw [if_pos (by rw [k.2, hlv]), pure_ok] at h4
      subst h4
      cases hl'
      exact ⟨rfl, rfl, by show (e1.st.vote.data.toCommitted).leaderId = _; rw [k.2, hlv]; rfl⟩
    · split at h4
      · rw [pure_ok] at h4; subst h4
        rw [k.1] at hl'; cases hl'; exact ⟨rfl, rfl, rfl⟩
      · unfold becomeFollowing at h4
        simp only [bind_ok, pure_ok] at h4
        obtain ⟨_, _, h4⟩ := h4
        subst h4
        cases hl'

/-- **When a candidate becomes leader its blank entry is the last entry of its log**, unless its log ended with an
entry of its own vote already. -/
theorem new_input {g0 : Gh} {e e' : Eng} {i : Input} {l' : Leader} (h : EInv g0 e) (ho : InputOk e i)
    (hr : e.input dbg now i = .ok e') (hl : e.leader = none) (hl' : e'.leader = some l') :
    l'.noopLogId = l'.lastLogId ∨ e.st.lastLogId.map (·.leaderId) = some e.st.vote.data.leaderId := by
  have hw := won_input h ho hr hl'
  rw [hl] at hw
  rcases hw with ⟨h1, _⟩ | ⟨hcs, hwv⟩
  · cases h1
  obtain ⟨c, hc⟩ := Option.isSome_iff_exists.1 hcs
  have hco := h.pj.cand c hc
  have hi' := inv_input h ho hr
  have hp := hi'.pj.lead l' hl'
  have hcf : e'.cfg = e.cfg := (grow_input _ _ _ hr).1
  have hkl : ¬ KeepsLead e e' := by
    intro hk
    rcases hk with hk | hk | hk
    · have := hp.com
      rw [hk, hco.com] at this; cases this
    · rw [hp.com] at hk; cases hk
    · exact absurd (by rw [hp.node, hcf]) hk
  by_cases hv : ∃ t v l g s, i = .voteResp t v l g s
  · obtain ⟨t, v, la, gr, s, rfl⟩ := hv
    simp only [input] at hr
    split at hr
    · unfold handleVoteResp at hr
      split at hr
      · rw [pure_ok] at hr; subst hr; exact absurd (Or.inl rfl) hkl
      next c' hc' =>
      rw [hc] at hc'; cases hc'
      split at hr
      · simp only [bind_ok] at hr
        obtain ⟨c1, hc1, hr⟩ := hr
        have hcv : c1.vote = c.vote ∧ c1.lastLogId = c.lastLogId := by
          unfold grantBy at hc1
          simp only [bind_ok, pure_ok] at hc1
          obtain ⟨_, _, hc1⟩ := hc1
          rw [← hc1]; exact ⟨rfl, rfl⟩
        split at hr
        · unfold establishLeader at hr
          simp only [bind_ok, unwrap_ok] at hr
          obtain ⟨c2, hc2, o, ho2, hr⟩ := hr
          cases hc2
          cases o with
          | none => simp only [pure_ok] at hr; subst hr; exact absurd (Or.inl rfl) hkl
          | some l =>
            simp only [bind_ok] at hr
            obtain ⟨⟨ok, e2⟩, h2, _, _, st, hst, o3, h3, l3, hl3, hr⟩ := hr
            have hin := establish_into ho2
            unfold Candidate.intoLeader at hin
            rw [bind_ok] at hin
            obtain ⟨_, _, hin⟩ := hin
            obtain ⟨f1, f2, f3⟩ := Leader.new_fields hin
            rw [unwrap_ok] at hl3
            subst hl3
            have hl3 : e2.leader = some l3 := (leaderHandler_ok h3).symm
            obtain ⟨la, hla, a1, a2, a3⟩ : ∃ la, (rhRebuildStreams { e with candidate := none, leader := some l } l).leader = some la ∧
                la.vote = l.vote ∧ la.noopLogId = l.noopLogId ∧ la.lastLogId = l.lastLogId := ⟨_, rfl, rfl, rfl, rfl⟩
            obtain ⟨k1, k2, k3⟩ := updateVote_leader (e' := e2) (l' := l3) hla (by rw [a1]) h2 hl3
            rw [a1] at k3
            rw [a2] at k1
            rw [a3] at k2
            obtain ⟨l4, m1, m2, m3, m4⟩ := lhAppend_leader hr
            rw [hl'] at m1; cases m1
            have hlast : l.lastLogId = e.st.lastLogId := by
              rw [f2, hcv.2, hco.last]
              cases e.st.lastLogId <;> rfl
            have hhead : c1.lastLogId.toList.head? = e.st.lastLogId := by
              rw [hcv.2, hco.last]
              cases e.st.lastLogId <;> rfl
            rw [hhead] at f3
            by_cases hq : e.st.lastLogId.map (·.leaderId) = some e.st.vote.data.leaderId
            · exact Or.inr hq
            · left
              have hcl : c1.vote.leaderId = e.st.vote.data.leaderId := by rw [hcv.1, hco.vote]
              rw [if_neg (by show ¬ (_ = some c1.vote.leaderId); rw [hcl]; exact hq)] at f3
              rw [m3, m4, k1, k2, k3]
              show l.noopLogId = some ⟨l.vote.leaderId, nextIndex l.lastLogId⟩
              rw [f3, f2, f1]; rfl
        · rw [pure_ok] at hr; subst hr; exact absurd (Or.inl rfl) hkl
      · simp only [bind_ok, pure_ok] at hr
        obtain ⟨⟨b, e2⟩, h2, hr⟩ := hr
        subst hr
        refine absurd ?_ hkl
        split at h2
        · exact keepsLead_updateVote (e := { e with seenGreater := true }) (e1 := e2) ho h2
        · exact keepsLead_updateVote (e1 := e2) ho h2
    · rw [pure_ok] at hr; subst hr; exact absurd (Or.inl rfl) hkl
  · cases hfl : i.fromLeader with
    | false => exact absurd (keepsLead_input h ho (fun t v l g s hx => hv ⟨t, v, l, g, s, hx⟩) hfl hr) hkl
    | true =>
      cases i with
      | appendReq tx v prev es lc =>
        rcases lead_appendReq h ho hr with h1 | ⟨_, _, h1⟩
        · rw [h1] at hl'; cases hl'
        · exact absurd (Or.inl h1) hkl
      | snapReq tx v m =>
        rcases lead_snapReq h ho hr with h1 | ⟨_, _, h1⟩
        · rw [h1] at hl'; cases hl'
        · exact absurd (Or.inl h1) hkl
      | _ => cases hfl

/-- **A leader that resumes has its blank entry in its log**, unless its log ends with an entry of a later leader. -/
theorem resume_noop {e e' : Eng} {l' : Leader} (hs : SortedIdx e.st.logIds) (h : e.startup dbg now = .ok e') (hl : e.leader = none) (hl' : e'.leader = some l') :
    ∃ x, l'.noopLogId = some x ∧ (l'.lastLogId = some x ∨ x ∈ e'.st.logIds ∨ ∃ y, l'.lastLogId = some y ∧ x.leaderId = e.st.vote.data.leaderId ∧ x.leaderId < y.leaderId) := by
  have same : ∀ {a b : Eng} {l m : Leader}, a.rhInitiate dbg l = .ok b → b.leader = some m →
      m.noopLogId = l.noopLogId ∧ m.lastLogId = l.lastLogId ∧ b.st.logIds = a.st.logIds := by
    intro a b l m hb hm
    unfold rhInitiate at hb
    rw [bind_ok] at hb
    obtain ⟨_, _, hb⟩ := hb
    rw [pure_ok] at hb; subst hb
    cases hm
    exact ⟨rfl, rfl, rfl⟩
  unfold startup at h
  split at h
  · next hlead =>
    unfold updateInternal at h
    rw [if_pos hlead] at h
    unfold becomeLeader at h
    rw [hl] at h
    dsimp only at h
    unfold becomeNewLeader at h
    simp only [bind_ok, unwrap_ok] at h
    obtain ⟨l, hln, st, hst, l2, hl2, h⟩ := h
    have hl2' : some _ = some l2 := hl2
    obtain ⟨f1, f2, f3⟩ := Leader.new_fields hln
    rw [byLastLeader_last] at f2 f3
    cases hl2'
    split at h
    · next hlt =>
      by_cases hh : (LogIdList.byLastLeader e.st.logIds).head?.map (·.leaderId) = some e.st.vote.data.leaderId
      · rw [if_pos hh] at f3
        obtain ⟨x, j1, j2⟩ := Option.map_eq_some_iff.1 hh
        rw [f3, f2, j1] at hlt
        exact absurd (byLastLeader_le hs j1) (not_le.2 hlt)
      · rw [if_neg hh] at f3
        obtain ⟨l3, h1, h2, h3, h4⟩ := lhAppend_leader h
        rw [hl'] at h1; cases h1
        refine ⟨_, h3.trans f3, Or.inl ?_⟩
        rw [h4]
        show some (LogId.mk l.vote.leaderId (nextIndex l.lastLogId)) = _
        rw [f1, f2]; rfl
    · next hn =>
      obtain ⟨k1, k2, k3⟩ := same h hl'
      by_cases hh : (LogIdList.byLastLeader e.st.logIds).head?.map (·.leaderId) = some e.st.vote.data.leaderId
      · rw [if_pos hh] at f3
        obtain ⟨x, j1, j2⟩ := Option.map_eq_some_iff.1 hh
        refine ⟨x, k1.trans (f3.trans j1), Or.inr (Or.inl ?_)⟩
        rw [k3]
        show x ∈ st.logIds
        rw [acceptIo_ok hst]
        have hx := List.mem_of_mem_head? j1
        unfold LogIdList.byLastLeader at hx
        simp only at hx
        split at hx
        · exact hx
        · split at hx <;> exact List.mem_of_mem_drop hx
      · rw [if_neg hh] at f3
        refine ⟨_, k1.trans f3, Or.inr (Or.inr ?_)⟩
        rw [f3, f2, not_lt] at hn
        cases hy : e.st.logIds.getLast? with
        | none => rw [hy] at hn; exact absurd hn OptOrd.not_some_le_none'
        | some y =>
          refine ⟨y, k2.trans (f2.trans hy), rfl, ?_⟩
          rw [hy] at hn
          rcases LogId.le_def.1 (OptOrd.some_le_some'.1 hn) with h1 | ⟨_, h1⟩
          · exact h1
          · have h2 : nextIndex (some y) ≤ y.index := h1
            rw [nextIndex_some] at h2; omega
  · rw [pure_ok] at h; subst h; rw [hl] at hl'; cases hl'

end Eng
end Openraft.Engine
