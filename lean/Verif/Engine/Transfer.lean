import Verif.Engine.SafeStep

/-!
# Elections a node is told to start
-/

set_option autoImplicit false

namespace Openraft.Engine
open Openraft.Repl (Panic dassert)

/-- the vote with which node `me` stands for election after vote `v` -/
def nextVote (v : Vote) (me : NodeId) : Vote := ⟨⟨v.leaderId.term + 1, me⟩, false⟩

namespace Eng
variable {e : Eng} {now : Nat}

/-- what a node does that stands for election, if it has a record in its membership -/
theorem elect_ok (hc : e.st.ms.effective.mem.contains e.cfg.id = true) :
    ∃ e', e.elect false now = .ok e' ∧
      e'.candidate = some (Candidate.new now (nextVote e.st.vote.data e.cfg.id) e.st.lastLogId e.st.ms.effective.mem) ∧
      e'.st.vote.data = nextVote e.st.vote.data e.cfg.id ∧ e'.cfg = e.cfg ∧ e'.leader = e.leader ∧
      e'.st.ms = e.st.ms ∧ e'.st.logIds = e.st.logIds ∧
      e'.out = e.out ++ [.saveVote (nextVote e.st.vote.data e.cfg.id), .sendVote (nextVote e.st.vote.data e.cfg.id) e.st.lastLogId] := by
  have hlt : e.st.vote.data < nextVote e.st.vote.data e.cfg.id := vote_lt_new (v := e.st.vote.data) e.cfg.id
  obtain ⟨v, hv⟩ : ∃ v, v = nextVote e.st.vote.data e.cfg.id := ⟨_, rfl⟩
  have hvn : v.committed = false ∧ v.leaderId.node = e.cfg.id := by rw [hv]; exact ⟨rfl, rfl⟩
  unfold elect
  dsimp only
  rw [show Vote.new (e.st.vote.data.leaderId.term + 1) e.cfg.id = v from hv.symm]
  rw [← hv] at hlt ⊢
  obtain ⟨e0, he0⟩ : ∃ e0 : Eng, e0 = { e with candidate := some (Candidate.new now v e.st.lastLogId e.st.ms.effective.mem) } := ⟨_, rfl⟩
  have hst : e0.st = e.st := by rw [he0]
  have hcf : e0.cfg = e.cfg := by rw [he0]
  rw [← he0]
  have hlt0 : e0.st.vote.data < v := by rw [hst]; exact hlt
  obtain ⟨e1, he1⟩ := tot_storeVote (now := now) (e := e0) (if v.committed = true then e0.cfg.leaderLease else 0) v
  have hu : e0.updateVote false now v = .ok (true, e1) := by
    unfold updateVote
    rw [if_pos (le_of_lt hlt0)]
    simp only [bind_ok]
    refine ⟨e1, he1, e1, ?_, rfl⟩
    obtain ⟨k1, _, _, k4⟩ := storeVote_same he1
    have hd := storeVote_vote (le_of_lt hlt0) he1
    unfold updateInternal
    rw [if_neg (by unfold RState.isLeader; rw [hd, hvn.1]; simp), if_pos]
    · rfl
    · unfold RState.isLeading
      rw [hd, k1, hst, k4, hcf, hvn.2, hc]; simp
  have hfin : e1.st.vote.data = v ∧ e1.st.logIds = e.st.logIds ∧ e1.out = e.out ++ [.saveVote v] := by
    have hd := storeVote_vote (le_of_lt hlt0) he1
    unfold storeVote at he1
    rw [if_pos hlt0, bind_ok] at he1
    obtain ⟨st, hs, he1⟩ := he1
    rw [pure_ok] at he1
    subst he1
    refine ⟨hd, ?_, ?_⟩
    · show st.logIds = _
      rw [acceptIo_ok hs]
      show e0.st.logIds = _
      rw [hst]
    · show e0.out ++ _ = _
      rw [he0]
  obtain ⟨k1, k2, k3, k4⟩ := storeVote_same he1
  refine ⟨(e1.push (.sendVote v e.st.lastLogId)).updateServerState, ?_, ?_, hfin.1, ?_, ?_, ?_, hfin.2.1, ?_⟩
  · simp only [bind_ok, pure_ok]
    exact ⟨(true, e1), hu, (), rfl, rfl⟩
  · show e1.candidate = _
    rw [k2, he0]
  · show e1.cfg = _
    rw [k4, he0]
  · show e1.leader = _
    rw [k3, he0]
  · show e1.st.ms = _
    rw [k1, he0]
  · show e1.out ++ _ = _
    rw [hfin.2.2, List.append_assoc]
    rfl

/-- a candidate that is no voter cannot count its own vote -/
theorem self_vote_aborts {c : Candidate} (hc : e.candidate = some c) (hv : c.vote.committed = false)
    (hp : c.progress.index e.cfg.id = none) (last : Option LogId) :
    e.input false now (.voteResp e.cfg.id c.vote last true c.vote) = .error .unreachable := by
  have hm : e.voteMatch c.vote = true := by
    unfold voteMatch
    rw [if_neg (by rw [hv]; simp), hc]
    simp
  show (if e.candidate.isSome && e.voteMatch c.vote then e.handleVoteResp false now e.cfg.id c.vote last true else pure e) = _
  rw [hm, hc]
  simp only [Option.isSome_some, Bool.and_self, if_true]
  unfold handleVoteResp
  rw [hc]
  simp only [Bool.true_and, beq_self_eq_true, if_true]
  unfold grantBy VecProgress.update
  rw [hp]
  rfl

end Eng
end Openraft.Engine
