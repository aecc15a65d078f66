import Verif.Engine.Elected
import Verif.Props.EngineProps2
import Verif.Props.AbortProps

/-!
# C52: a candidate that a quorum grants leads; C35: the target of a transfer wins

C40 has the other direction: nobody leads without a quorum.
-/

set_option autoImplicit false

namespace Openraft.Props
open Openraft.Engine Openraft.Runtime Openraft.Runtime.Demo
open Openraft.Engine.Demo (cfg lid m3 v2 okB okB_ok f0 after afterR_ok)
open Openraft.Repl (Panic)

variable {dbg : Bool} {g0 : Gh} {e0 e e' : Eng} {now : Nat}

/-- the node that answers a vote request of `v` with yes, if the input is such an answer -/
def yesOf (v : Vote) : Input → Option NodeId
  | .voteResp n w _ true s => if w = v ∧ s = v then some n else none
  | _ => none

/-- the nodes that have granted vote `v` -/
def grantedBy (is : List Input) (v : Vote) : List NodeId := is.filterMap (yesOf v)

theorem yesOf_some {v : Vote} {i : Input} {n : NodeId} (h : yesOf v i = some n) : ∃ last, i = .voteResp n v last true v := by
  unfold yesOf at h
  split at h
  · split at h
    · next hv =>
      obtain ⟨rfl, rfl⟩ := hv
      cases h
      exact ⟨_, rfl⟩
    · cases h
  · cases h

theorem grantedBy_snoc (is : List Input) (i : Input) (v : Vote) : grantedBy (is ++ [i]) v = grantedBy is v ++ (yesOf v i).toList := by
  unfold grantedBy
  rw [List.filterMap_append]
  cases h : yesOf v i with
  | none => simp [h]
  | some n => simp [h]

theorem grantedBy_other {is : List Input} {i : Input} {v : Vote} (h : yesOf v i = none) : grantedBy (is ++ [i]) v = grantedBy is v := by
  rw [grantedBy_snoc, h]; simp

/-- the vote of a node that is its own does not come back before it is there -/
theorem no_yes_before {is : List Input} {v : Vote} (h0 : EInv g0 e0) (h : Hist dbg e0 is e) (hn : v.leaderId.node = e.cfg.id)
    (hlt : e.st.vote.data < v) : grantedBy is v = [] := by
  induction h with
  | nil => rfl
  | @snoc is e e' now i h ho hr ih =>
    have hcf : e'.cfg = e.cfg := (Eng.grow_input _ _ _ hr).1
    have hle : e.st.vote.data ≤ e'.st.vote.data := C06_vote_forward (h.run.inv h0) ho hr
    have hlt' := lt_of_le_of_lt hle hlt
    rw [hcf] at hn
    have hy : yesOf v i = none := by
      cases hy : yesOf v i with
      | none => rfl
      | some n =>
        obtain ⟨last, rfl⟩ := yesOf_some hy
        exact absurd (ho hn) (not_le_of_gt hlt')
    rw [grantedBy_other hy]
    exact ih hn hlt'

theorem jq_mono {configs : List (Finset Nat)} {S T : Finset Nat} (h : S ⊆ T) (hS : Spec.JointQuorum configs S) : Spec.JointQuorum configs T :=
  fun c hc => lt_of_lt_of_le (hS c hc) (Nat.mul_le_mul_left 2 (Finset.card_le_card (Finset.inter_subset_inter_left h)))

/-! ## C52, the count -/

/-- **C52**: a candidate has counted every node that granted its vote, and no other, whatever else it handled in between. -/
theorem C52_all_counted {is : List Input} {c : Candidate} (h0 : EInv g0 e0) (hn : e0.candidate = none) (h : Hist dbg e0 is e)
    (hc : e.candidate = some c) :
    grantAll (VecProgress.new c.mem.configs [] false) (grantedBy is c.vote) = some c.progress ∧ c.progress.granted = false := by
  induction h generalizing c with
  | nil => rw [hn] at hc; cases hc
  | @snoc is e e' now i h ho hr ih =>
    have hI := h.run.inv h0
    have hI' := Eng.inv_input hI ho hr
    have hcf : e'.cfg = e.cfg := (Eng.grow_input _ _ _ hr).1
    have hk := hI'.pj.cand c hc
    -- the candidate is the old one, and the input is no yes
    have hsame : e.candidate = some c → yesOf c.vote i = none →
        grantAll (VecProgress.new c.mem.configs [] false) (grantedBy (is ++ [i]) c.vote) = some c.progress ∧
          c.progress.granted = false := by
      intro h1 h2
      rw [grantedBy_other h2]; exact ih h1
    by_cases hy : ∃ c0 n, e.candidate = some c0 ∧ yesOf c0.vote i = some n
    · obtain ⟨c0, n, hc0, hy⟩ := hy
      obtain ⟨h1, h2⟩ := ih hc0
      obtain ⟨last, rfl⟩ := yesOf_some hy
      obtain ⟨c1, hg, hgo⟩ := Eng.voteResp_counts hI hc0 hr
      rcases hgo with ⟨hf, he⟩ | ⟨ht, he⟩
      · rw [he] at hc; cases hc
        unfold Eng.grantBy at hg
        simp only [bind_ok, unwrap_ok, pure_ok] at hg
        obtain ⟨p, hp, hg⟩ := hg
        subst hg
        refine ⟨?_, hf⟩
        rw [grantedBy_snoc, hy]
        exact grantAll_snoc h1 hp
      · have hce : { e with candidate := some c1 }.candidate = some c1 := rfl
        have hI1 : EInv g0 { e with candidate := some c1 } := by
          unfold Eng.grantBy at hg
          simp only [bind_ok, unwrap_ok, pure_ok] at hg
          obtain ⟨p, hp, hg⟩ := hg
          subst hg
          exact Eng.inv_counted hI hc0
        rw [(Eng.establishLeader_leads hI1 hce he).2.1] at hc; cases hc
    · have hno : ∀ c0, e.candidate = some c0 → yesOf c0.vote i = none := by
        intro c0 h1
        cases h2 : yesOf c0.vote i with
        | none => rfl
        | some n => exact absurd ⟨c0, n, h1, h2⟩ hy
      have hkeep : Keep e e' → grantAll (VecProgress.new c.mem.configs [] false) (grantedBy (is ++ [i]) c.vote) = some c.progress ∧
          c.progress.granted = false := by
        rintro (h1 | h1)
        · rw [h1] at hc; exact hsame hc (hno c hc)
        · rw [h1] at hc; cases hc
      by_cases hv : ∃ t v l g s, i = .voteResp t v l g s
      · obtain ⟨t, v, l, g, s, rfl⟩ := hv
        refine hkeep (Eng.keep_other hI (fun c0 h1 h2 => ?_) hr)
        obtain ⟨rfl, rfl, rfl⟩ := h2
        have h3 := hno c0 h1
        simp [yesOf] at h3
      · rcases Eng.keep_or_new (fun t v l g s hx => hv ⟨t, v, l, g, s, hx⟩) hr with h1 | h1
        · exact hkeep h1
        · rw [← hk.vote] at h1
          rcases Eng.input_cand hr with hkp | ⟨mem, c', _, ⟨v, l, hf⟩, h2⟩ | ⟨n, last, c', c1, sender, hi, _⟩
          · exact hkeep hkp
          · rw [h2] at hc; cases hc
            have hyn : yesOf c.vote i = none := by
              cases hx : yesOf c.vote i with
              | none => rfl
              | some n =>
                obtain ⟨last, rfl⟩ := yesOf_some hx
                exact absurd ⟨_, _, _, _, _, rfl⟩ hv
            rw [grantedBy_other hyn, no_yes_before h0 h (by rw [hk.vote, hk.node, hcf]) h1, hf]
            exact ⟨rfl, rfl⟩
          · exact absurd ⟨_, _, _, _, _, hi⟩ hv

/-- **C52**, in release and debug builds: a node never waits as a candidate when a quorum has granted its vote. -/
theorem C52_not_waiting {is : List Input} {c : Candidate} (h0 : EInv g0 e0) (hn : e0.candidate = none) (h : Hist dbg e0 is e)
    (hc : e.candidate = some c) (hv : ValidSets c.mem.configs []) :
    ¬ Spec.JointQuorum (c.mem.configs.map List.toFinset) (grantedBy is c.vote).toFinset := by
  obtain ⟨h1, h2⟩ := C52_all_counted h0 hn h hc
  intro hq
  rw [← C13_vote_count_exact hv h1, h2] at hq
  cases hq

/-- **C52**, in release and debug builds: the yes that completes a quorum makes the candidate the leader. It saves its vote as
that of a leader and appends a blank entry after the last entry of its log. -/
theorem C52_last_yes {is : List Input} {c : Candidate} {n : NodeId} {last : Option LogId} (h0 : EInv g0 e0) (hn : e0.candidate = none)
    (h : Hist dbg e0 is e) (hc : e.candidate = some c) (hv : ValidSets c.mem.configs [])
    (hq : Spec.JointQuorum (c.mem.configs.map List.toFinset) (grantedBy (is ++ [.voteResp n c.vote last true c.vote]) c.vote).toFinset)
    (hr : e.input dbg now (.voteResp n c.vote last true c.vote) = .ok e') :
    (∃ l, e'.leader = some l ∧ l.vote = ⟨c.vote.leaderId, true⟩) ∧ e'.candidate = none ∧ e'.st.vote.data = ⟨c.vote.leaderId, true⟩ ∧
    ∃ rs cs, e'.out = e.out ++ .rebuild rs :: .saveVote ⟨c.vote.leaderId, true⟩ ::
      .append ⟨c.vote.leaderId, true⟩ [⟨⟨c.vote.leaderId, nextIndex e.st.lastLogId⟩, .blank⟩] :: cs := by
  have hI := h.run.inv h0
  obtain ⟨h1, h2⟩ := C52_all_counted h0 hn h hc
  have hk := hI.pj.cand c hc
  have ho : InputOk e (.voteResp n c.vote last true c.vote) := fun _ => le_of_eq hk.vote
  have hI' := Eng.inv_input hI ho hr
  obtain ⟨c1, hg, hgo⟩ := Eng.voteResp_counts hI hc hr
  unfold Eng.grantBy at hg
  simp only [bind_ok, unwrap_ok, pure_ok] at hg
  obtain ⟨p, hp, hg⟩ := hg
  subst hg
  have hy : yesOf c.vote (.voteResp n c.vote last true c.vote) = some n := by simp [yesOf]
  rw [grantedBy_snoc, hy] at hq
  have hq2 := (C13_vote_count_exact hv (grantAll_snoc h1 hp)).2 hq
  rcases hgo with ⟨hf, _⟩ | ⟨_, he⟩
  · have : p.granted = false := hf
    rw [hq2] at this; cases this
  · obtain ⟨⟨l, hl⟩, k2, k3, rs, cs, k4, _⟩ := Eng.establishLeader_leads (Eng.inv_counted hI hc) rfl he
    exact ⟨⟨l, hl, (hI'.pj.lead l hl).vote.trans k3⟩, k2, k3, rs, cs, k4⟩

/-- three voters: the second yes makes node 1 the leader -/
example : ∃ e e' c, Hist true f0 [.init 5 m3, .voteResp 1 ⟨⟨1, 1⟩, false⟩ (some (lid 0 0 0)) true ⟨⟨1, 1⟩, false⟩] e ∧
    e.candidate = some c ∧ c.mem = m3 ∧ c.vote = ⟨⟨1, 1⟩, false⟩ ∧
    e.input true 3 (.voteResp 3 ⟨⟨1, 1⟩, false⟩ none true ⟨⟨1, 1⟩, false⟩) = .ok e' ∧
    grantedBy ([.init 5 m3, .voteResp 1 ⟨⟨1, 1⟩, false⟩ (some (lid 0 0 0)) true ⟨⟨1, 1⟩, false⟩] ++
      [.voteResp 3 ⟨⟨1, 1⟩, false⟩ none true ⟨⟨1, 1⟩, false⟩]) ⟨⟨1, 1⟩, false⟩ = [1, 3] := by
  obtain ⟨c, hc⟩ := Option.isSome_iff_exists.1 (show (after 2 (after 1 f0 (.init 5 m3)) (.voteResp 1 ⟨⟨1, 1⟩, false⟩ (some (lid 0 0 0)) true ⟨⟨1, 1⟩, false⟩)).candidate.isSome = true by decide +kernel)
  have hm : (after 2 (after 1 f0 (.init 5 m3)) (.voteResp 1 ⟨⟨1, 1⟩, false⟩ (some (lid 0 0 0)) true ⟨⟨1, 1⟩, false⟩)).candidate.map (fun c => (c.mem, c.vote)) = some (m3, ⟨⟨1, 1⟩, false⟩) := by
    decide +kernel
  rw [hc] at hm
  obtain ⟨hm1, hm2⟩ := Prod.mk.inj (Option.some.inj hm)
  exact ⟨_, _, c, .snoc (is := [.init 5 m3]) 2 _ (.snoc (is := []) 1 (.init 5 m3) .nil trivial (Engine.Demo.after_ok (by decide +kernel)))
      (okB_ok (lead := []) (by decide +kernel)) (Engine.Demo.after_ok (by decide +kernel)), hc, hm1, hm2, afterR_ok (by decide +kernel), by decide +kernel⟩

/-! ## C52, release builds: the election is won -/

/-- the answers of a vote request, as they come in: the time, the node, and its last log id -/
def takeYes (v : Vote) : List (Nat × NodeId × Option LogId) → Eng → Res Eng
  | [], e => .ok e
  | (now, n, last) :: gs, e => do
    let e1 ← e.input false now (.voteResp n v last true v)
    takeYes v gs e1

/-- after the election the late answers change nothing -/
theorem takeYes_late {v : Vote} (hv : v.committed = false) (gs : List (Nat × NodeId × Option LogId)) (hc : e.candidate = none) :
    takeYes v gs e = .ok e := by
  induction gs with
  | nil => rfl
  | cons g gs ih =>
    obtain ⟨now, n, last⟩ := g
    have : e.input false now (.voteResp n v last true v) = .ok e := by
      simp only [Eng.input]
      rw [hc]; rfl
    show (do let e1 ← e.input false now (.voteResp n v last true v); takeYes v gs e1) = _
    rw [this]
    exact ih

theorem takeYes_wins {c : Candidate} {ns : List NodeId} (gs : List (Nat × NodeId × Option LogId)) (hI : EInv g0 e) (hL : Ln e)
    (hc : e.candidate = some c) (hv : ValidSets c.mem.configs [])
    (hns : grantAll (VecProgress.new c.mem.configs [] false) ns = some c.progress) (hf : c.progress.granted = false)
    (hg : ∀ g ∈ gs, c.mem.isVoter g.2.1 = true) :
    ∃ e', takeYes c.vote gs e = .ok e' ∧ EInv g0 e' ∧ Ln e' ∧
      (¬ Spec.JointQuorum (c.mem.configs.map List.toFinset) (ns ++ gs.map (·.2.1)).toFinset ∧ e'.leader = none ∧ e'.st = e.st ∧ e'.out = e.out ∨
       Spec.JointQuorum (c.mem.configs.map List.toFinset) (ns ++ gs.map (·.2.1)).toFinset ∧
        (∃ l, e'.leader = some l ∧ l.vote = ⟨c.vote.leaderId, true⟩) ∧ e'.st.vote.data = ⟨c.vote.leaderId, true⟩ ∧
        ∃ rs cs, e'.out = e.out ++ .rebuild rs :: .saveVote ⟨c.vote.leaderId, true⟩ ::
          .append ⟨c.vote.leaderId, true⟩ [⟨⟨c.vote.leaderId, nextIndex e.st.lastLogId⟩, .blank⟩] :: cs) := by
  induction gs generalizing e c ns with
  | nil =>
    refine ⟨e, rfl, hI, hL, Or.inl ⟨?_, (hI.pj.cand c hc).nl, rfl, rfl⟩⟩
    intro hq
    simp only [List.map_nil, List.append_nil] at hq
    rw [← C13_vote_count_exact hv hns, hf] at hq
    cases hq
  | cons g gs ih =>
    obtain ⟨now, n, last⟩ := g
    have hk := hI.pj.cand c hc
    have hC := hL.cand c hc
    have ho : InputOk e (.voteResp n c.vote last true c.vote) := fun _ => le_of_eq hk.vote
    obtain ⟨e1, hr, hL1⟩ := Eng.input_total (now := now) hI hL ho (fun c' hc' _ _ => by
      rw [← hC.mem]; exact hg _ (List.mem_cons_self ..))
    have hI1 := Eng.inv_input hI ho hr
    have hstep : takeYes c.vote ((now, n, last) :: gs) e = takeYes c.vote gs e1 := by
      show (do let e1 ← e.input false now (.voteResp n c.vote last true c.vote); takeYes c.vote gs e1) = _
      rw [hr]; rfl
    obtain ⟨c1, hg1, hgo⟩ := Eng.voteResp_counts hI hc hr
    unfold Eng.grantBy at hg1
    simp only [bind_ok, unwrap_ok, pure_ok] at hg1
    obtain ⟨p, hp, hg1⟩ := hg1
    subst hg1
    have hns1 := grantAll_snoc hns hp
    rw [hstep]
    rcases hgo with ⟨hf1, he⟩ | ⟨ht, he⟩
    · have hc1 : e1.candidate = some { c with progress := p } := by rw [he]
      obtain ⟨e', k1, k2, k3, k4⟩ := ih hI1 hL1 hc1 hv hns1 hf1 fun g hg2 => hg g (List.mem_cons_of_mem _ hg2)
      refine ⟨e', k1, k2, k3, ?_⟩
      have hap : ns ++ [n] ++ gs.map (·.2.1) = ns ++ ((now, n, last) :: gs).map (·.2.1) := by simp
      rw [hap] at k4
      rw [he] at k4
      exact k4
    · obtain ⟨⟨l, hl⟩, k2, k3, rs, cs, k4, _⟩ := Eng.establishLeader_leads (Eng.inv_counted hI hc) rfl he
      have hvc : c.vote.committed = false := by rw [hk.vote, hk.com]
      refine ⟨e1, takeYes_late hvc gs k2, hI1, hL1, Or.inr ⟨?_, ⟨l, hl, (hI1.pj.lead l hl).vote.trans k3⟩, k3, rs, cs, k4⟩⟩
      refine jq_mono ?_ ((C13_vote_count_exact hv hns1).1 ht)
      intro x hx
      simp only [List.mem_toFinset, List.mem_append, List.map_cons, List.mem_cons] at hx ⊢
      rcases hx with hx | hx | hx
      · exact Or.inl hx
      · exact Or.inr (Or.inl hx)
      · cases hx

/-- **C52**, release builds: a node that has just begun an election, in whatever state its life has brought it to, takes the
granted answers of voters, in any order and however often they come, without an abort, and leads exactly if they are a quorum of every
config. Then its vote is saved as that of a leader, and a blank entry is appended after the last entry of its log. -/
theorem C52_elected {cfg : Cfg} {old : List Resp} {n : Runtime.Node} {t : Nat} {v : Vote} {last : Option LogId} {m : Membership}
    (gs : List (Nat × NodeId × Option LogId)) (h : SafeLife cfg old n) (hc : n.eng.candidate = some (Candidate.new t v last m))
    (hv : ValidSets m.configs []) (hg : ∀ g ∈ gs, m.isVoter g.2.1 = true) :
    ∃ e', takeYes v gs n.eng = .ok e' ∧
      (e'.leader.isSome = true ↔ Spec.JointQuorum (m.configs.map List.toFinset) (gs.map (·.2.1)).toFinset) ∧
      ∀ l, e'.leader = some l → l.vote = ⟨v.leaderId, true⟩ ∧ e'.st.vote.data = ⟨v.leaderId, true⟩ ∧
        ∃ rs cs, e'.out = n.eng.out ++ .rebuild rs :: .saveVote ⟨v.leaderId, true⟩ ::
          .append ⟨v.leaderId, true⟩ [⟨⟨v.leaderId, nextIndex n.eng.st.lastLogId⟩, .blank⟩] :: cs := by
  obtain ⟨⟨g0, a0, s0, c0, P, S, hi⟩, _⟩ := h.life.inv
  obtain ⟨e', k1, _, _, k4⟩ := takeYes_wins (ns := []) gs hi.flow.inv h.ln hc hv rfl rfl hg
  refine ⟨e', k1, ?_⟩
  rcases k4 with ⟨q1, q2, _⟩ | ⟨q1, ⟨l, q2, q3⟩, q4, q5⟩
  · exact ⟨⟨fun hx => (by rw [q2] at hx; cases hx), fun hx => absurd hx q1⟩, fun l hl => (by rw [q2] at hl; cases hl)⟩
  · refine ⟨⟨fun _ => q1, fun _ => by rw [q2]; rfl⟩, fun l' hl' => ?_⟩
    rw [q2] at hl'; cases hl'
    exact ⟨q3, q4, q5⟩

/-! ## C52, the voter -/

/-- **C52**, the voter, release builds: a node that has no leader, or whose lease on its leader is over, that has seen no vote as great, and
whose log is not ahead of the candidate's says yes; it does so only when the vote is stored (`Cond.ioFlushed`, see C04). -/
theorem C52_voter_says_yes {tx : Nat} {v : Vote} {last : Option LogId} (hl : e.st.vote.data.committed = false ∨ e.st.vote.isExpired now 0 = true)
    (hlt : e.st.vote.data < v) (hn : v.leaderId.node ≠ e.cfg.id) (hlog : e.st.lastLogId ≤ last) :
    ∃ e', e.input false now (.voteReq tx v last) = .ok e' ∧ e'.st.vote.data = v ∧ e'.leader = none ∧ e'.candidate = none ∧
      e'.out = e.out ++ [.saveVote v, .respond (some (.ioFlushed ⟨v, none⟩)) tx (.vote v e.st.lastLogId true)] := by
  have h1 : (e.st.vote.data.committed && !e.st.vote.isExpired now 0) = false := by
    rcases hl with hl | hl <;> simp [hl]
  obtain ⟨e1, he1⟩ := Eng.tot_storeVote (now := now) (e := e) (if v.committed = true then e.cfg.leaderLease else 0) v
  have he1' := he1
  unfold Eng.storeVote at he1'
  rw [if_pos hlt, bind_ok] at he1'
  obtain ⟨st, hst, he1'⟩ := he1'
  rw [pure_ok] at he1'
  have hd : e1.st.vote.data = v := by rw [← he1']; exact congrArg Leased.data (acceptIo_vote hst)
  have hcf : e1.cfg = e.cfg := by rw [← he1']; rfl
  have ho : e1.out = e.out ++ [.saveVote v] := by rw [← he1']; rfl
  have hll : e1.st.lastLogId = e.st.lastLogId := by
    rw [← he1']
    show st.lastLogId = _
    rw [acceptIo_ok hst]; rfl
  have hng : e1.st.isLeading e1.cfg.id = false := by
    unfold RState.isLeading
    rw [hd, hcf]
    simp [hn]
  have hui : e1.updateInternal false now = .ok (Eng.updateServerState { e1 with leader := none, candidate := none }) := by
    unfold Eng.updateInternal
    rw [if_neg (by unfold RState.isLeader; rw [hng]; simp), if_neg (by rw [hng]; simp)]
    rfl
  have huv : e.updateVote false now v = .ok (true, Eng.updateServerState { e1 with leader := none, candidate := none }) := by
    unfold Eng.updateVote
    rw [if_pos (le_of_lt hlt)]
    simp only [bind_ok]
    exact ⟨e1, he1, _, hui, rfl⟩
  refine ⟨(Eng.updateServerState { e1 with leader := none, candidate := none }).push
      (.respond (some (.ioFlushed ⟨v, none⟩)) tx (.vote v e.st.lastLogId true)), ?_, ?_, ?_, ?_, ?_⟩
  · show e.coreVoteReq false now tx v last = _
    unfold Eng.coreVoteReq Eng.handleVoteReq
    rw [h1, if_neg (by simp), if_pos hlog, huv]
    show Except.ok _ = Except.ok _
    congr 2
    show Cmd.respond (some (.ioFlushed (IOId.new e1.st.vote.data))) tx (.vote e1.st.vote.data e1.st.lastLogId true) = _
    rw [hd, hll]; rfl
  · exact hd
  · rfl
  · rfl
  · show e1.out ++ _ = _
    rw [ho]; simp

/-! ## C35: the target of a transfer wins -/

/-- **C35**, the part about voters: a follower of leader `v` that is a voter and is told to take over asks for votes with the next vote.
Each other follower of `v` that was told of the transfer too, and whose log is not ahead, says yes to it, at any later moment: it has
given up its lease. With the yes of a quorum (its own counts) the target leads, and nobody aborts.
Missing, and false: a target that is no voter (`C35_false`). -/
theorem C35_target_wins_partial {cfg : Cfg} {old : List Resp} {n : Runtime.Node} {v : Vote} {tnow : Nat} (h : SafeLife cfg old n)
    (hv : n.eng.st.vote.data = v) (hnl : n.eng.leader = none) (hme : n.eng.st.ms.effective.mem.isVoter n.eng.cfg.id = true)
    (hco : n.eng.st.ms.effective.mem.contains n.eng.cfg.id = true) (hm : ValidSets n.eng.st.ms.effective.mem.configs []) :
    ∃ e1, n.eng.input false tnow (.handleTransfer v n.eng.cfg.id) = .ok e1 ∧
      e1.out = n.eng.out ++ [.saveVote ⟨⟨v.leaderId.term + 1, n.eng.cfg.id⟩, false⟩,
        .sendVote ⟨⟨v.leaderId.term + 1, n.eng.cfg.id⟩, false⟩ n.eng.st.lastLogId] ∧
      (∀ (p : Eng) (t1 t2 tx : Nat), p.st.vote.data = v → p.cfg.id ≠ n.eng.cfg.id → (∀ u, p.st.vote.lastUpdate = some u → u < t2) →
        p.st.lastLogId ≤ n.eng.st.lastLogId → ∃ p1 p2, p.input false t1 (.handleTransfer v n.eng.cfg.id) = .ok p1 ∧
          p1.input false t2 (.voteReq tx ⟨⟨v.leaderId.term + 1, n.eng.cfg.id⟩, false⟩ n.eng.st.lastLogId) = .ok p2 ∧
          p2.out = p.out ++ [.saveVote ⟨⟨v.leaderId.term + 1, n.eng.cfg.id⟩, false⟩,
            .respond (some (.ioFlushed ⟨⟨⟨v.leaderId.term + 1, n.eng.cfg.id⟩, false⟩, none⟩)) tx
              (.vote ⟨⟨v.leaderId.term + 1, n.eng.cfg.id⟩, false⟩ p.st.lastLogId true)]) ∧
      ∀ gs : List (Nat × NodeId × Option LogId), (∀ g ∈ gs, n.eng.st.ms.effective.mem.isVoter g.2.1 = true) →
        Spec.JointQuorum (n.eng.st.ms.effective.mem.configs.map List.toFinset) (gs.map (·.2.1)).toFinset →
        ∃ e2 l, takeYes ⟨⟨v.leaderId.term + 1, n.eng.cfg.id⟩, false⟩ gs e1 = .ok e2 ∧ e2.leader = some l ∧
          l.vote = ⟨⟨v.leaderId.term + 1, n.eng.cfg.id⟩, true⟩ := by
  obtain ⟨⟨g0, a0, s0, c0, P, S, hi⟩, _⟩ := h.life.inv
  have hI := hi.flow.inv
  have ho : InputOk n.eng (.handleTransfer v n.eng.cfg.id) := fun _ _ => hnl
  obtain ⟨e1, he1, hL1⟩ := Eng.input_total (now := tnow) hI h.ln ho fun _ _ => hme
  have hI1 := Eng.inv_input hI ho he1
  obtain ⟨e1', h1, h2, h3, h4, h5, h6, h7, h8⟩ :=
    Eng.elect_ok (e := { n.eng with st := { n.eng.st with vote := n.eng.st.vote.disable } }) (now := tnow) hco
  have hd : n.eng.st.vote.disable.data = v := by rw [← hv]; rfl
  have heq : e1' = e1 := by
    have : n.eng.input false tnow (.handleTransfer v n.eng.cfg.id) = .ok e1' := by
      show n.eng.coreHandleTransfer false tnow v n.eng.cfg.id = _
      unfold Eng.coreHandleTransfer
      rw [if_pos hv, if_pos rfl]
      exact h1
    rw [this] at he1
    exact Except.ok.inj he1
  subst heq
  simp only [hd] at h2 h8
  refine ⟨e1', he1, h8, ?_, ?_⟩
  · intro p t1 t2 tx k1 k2 k3 k4
    obtain ⟨p1, q1, q2⟩ := (C35_transfer_partial (e := p) (now := t1) (v := v) (target := n.eng.cfg.id)).2.1 k1 k2
    have hlt : p1.st.vote.data < ⟨⟨v.leaderId.term + 1, n.eng.cfg.id⟩, false⟩ := by
      rw [q2]
      show p.st.vote.data < _
      rw [k1]; exact Eng.vote_lt_new _
    obtain ⟨p2, r1, _, _, _, r2⟩ := C52_voter_says_yes (e := p1) (now := t2) (tx := tx) (last := n.eng.st.lastLogId) (by
        right
        rw [q2]
        show Leased.isExpired _ _ _ = true
        unfold Leased.isExpired
        cases hu : p.st.vote.lastUpdate with
        | none => simp [hu]
        | some u => simp [hu, k3 u hu]) hlt (by rw [q2]; exact Ne.symm k2) (by rw [q2]; exact k4)
    refine ⟨p1, p2, q1, r1, ?_⟩
    rw [r2, q2]
    rfl
  · intro gs hg hq
    obtain ⟨e', k1, _, _, k4⟩ := takeYes_wins (ns := []) gs hI1 hL1 h2 hm rfl rfl hg
    rcases k4 with ⟨q1, _⟩ | ⟨_, ⟨l, q2, q3⟩, _⟩
    · exact absurd hq q1
    · exact ⟨e', l, k1, q2, q3⟩

theorem takes_safe : SafeLife Demo.cfg [] takes := safe_of_allSafe (.fresh 0 _) (by decide +kernel) (by decide +kernel)

theorem m3_valid : ValidSets m3.configs [] := by constructor <;> decide

/-- node 1 of `takes` is told to take over: the yes of nodes 1 and 3 is enough -/
example : takes.eng.st.vote.data = v2 ∧ takes.eng.leader.isNone = true ∧ takes.eng.cfg.id = 1 ∧ takes.eng.st.ms.effective.mem = m3 ∧
    m3.isVoter 1 = true ∧ m3.contains 1 = true ∧ m3.isVoter 3 = true ∧
    (isQuorum m3.configs [1, 3] = true) := by decide +kernel

/-- node 3, a follower of the same leader with a shorter log, meets the hypotheses of a peer -/
def peer3 : Eng := (runTo false (Node.fresh { Demo.cfg with id := 3 } 0)
  ([(leadA, .msg 1 (.appendReq 7 v2 none [⟨lid 1 2 0, .membership m3⟩] (some (lid 1 2 0))))] ++ settle)).eng

example : peer3.st.vote.data = v2 ∧ peer3.cfg.id = 3 ∧ peer3.st.vote.lastUpdate = some 1 ∧ peer3.st.lastLogId < takes.eng.st.lastLogId := by
  decide +kernel

example : ∃ e1 e2 l, takes.eng.input false 20 (.handleTransfer v2 1) = .ok e1 ∧
    takeYes ⟨⟨2, 1⟩, false⟩ [(21, 1, none), (22, 3, some (lid 1 2 0)), (23, 2, none)] e1 = .ok e2 ∧ e2.leader = some l ∧ l.vote = ⟨⟨2, 1⟩, true⟩ := by
  obtain ⟨hv, hl, hid, hm⟩ : takes.eng.st.vote.data = v2 ∧ takes.eng.leader.isNone = true ∧ takes.eng.cfg.id = 1 ∧
    takes.eng.st.ms.effective.mem = m3 := by decide +kernel
  obtain ⟨e1, h1, _, _, h4⟩ := C35_target_wins_partial (tnow := 20) takes_safe hv (by simpa using hl) (by rw [hm, hid]; decide) (by rw [hm, hid]; decide)
    (by rw [hm]; exact m3_valid)
  obtain ⟨e2, l, k1, k2, k3⟩ := h4 [(21, 1, none), (22, 3, some (lid 1 2 0)), (23, 2, none)] (by rw [hm]; decide) (by
    rw [hm]
    intro c hc
    simp only [m3, List.map_cons, List.map_nil, List.mem_cons, List.not_mem_nil, or_false] at hc
    subst hc
    show _ < _
    decide)
  rw [hid] at h1 k1 k3
  exact ⟨e1, e2, l, h1, k1, k2, k3⟩

/-- `C52_elected` for the same node: with the yes of itself alone it does not lead -/
def asks : Node := runTo false takes [([], Ev.msg 30 (.handleTransfer v2 1))]

theorem asks_safe : SafeLife Demo.cfg [] asks := safe_of_allSafe takes_safe (by decide +kernel) (by decide +kernel)

example : asks.eng.candidate.map (fun c => (c.startingTime, c.vote, c.lastLogId, c.mem, c.progress.granted)) =
    some (30, ⟨⟨2, 1⟩, false⟩, some (lid 1 2 1), m3, false) := by decide +kernel

/-- node 3 says yes to it: it has waited, and its log is not ahead -/
example : peer3.st.vote.isExpired 2000 0 = true ∧ peer3.st.vote.data < ⟨⟨2, 1⟩, false⟩ ∧ peer3.cfg.id = 3 ∧
    peer3.st.lastLogId ≤ some (lid 1 2 1) := by decide +kernel

end Openraft.Props
