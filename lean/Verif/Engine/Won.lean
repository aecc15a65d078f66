import Verif.Engine.Lead
import Verif.Engine.VoteFlow
import Verif.Engine.Sync

/-!
# Who leads after an input led before, or was the candidate that won

Used for linearizable reads in a cluster of real nodes: a leader's committed position covers
everything committed in its term, because the term begins with the election it wins.
-/

namespace Openraft.Engine
namespace Eng
variable {dbg : Bool} {now : Nat}

/-- an offered vote is taken or not -/
theorem updateVote_cases {e e1 : Eng} {v : Vote} {ok : Bool} (h : e.updateVote dbg now v = .ok (ok, e1)) :
    (e1 = e ∧ ok = false) ∨ (e.st.vote.data ≤ v ∧ e1.st.vote.data = v) := by
  cases ok with
  | true =>
    refine Or.inr ⟨?_, updateVote_vote h⟩
    unfold updateVote at h
    split at h
    · next hle => exact hle
    · rw [pure_ok] at h; cases h
  | false =>
    unfold updateVote at h
    split at h
    · simp only [bind_ok, pure_ok] at h
      obtain ⟨_, _, _, _, h⟩ := h
      cases h
    · rw [pure_ok] at h; cases h; exact Or.inl ⟨rfl, rfl⟩

theorem elect_vote {e e' : Eng} (h : e.elect dbg now = .ok e') : e'.st.vote.data.committed = false := by
  unfold elect at h
  simp only [bind_ok, unwrap_ok, pure_ok] at h
  obtain ⟨⟨ok, e2⟩, h1, u, hu, h⟩ := h
  cases ok with
  | false => simp at hu
  | true =>
    subst h
    show e2.st.vote.data.committed = false
    rw [updateVote_vote h1]; rfl

/-- the vote stays, or the new one is not a vote by which this node leads -/
def KeepsLead (e e' : Eng) : Prop :=
  e'.st.vote.data = e.st.vote.data ∨ e'.st.vote.data.committed = false ∨ e'.st.vote.data.leaderId.node ≠ e.cfg.id

theorem keepsLead_updateVote {e e1 : Eng} {v : Vote} {ok : Bool} (hv : VoteOk e v) (h : e.updateVote dbg now v = .ok (ok, e1)) :
    KeepsLead e e1 := by
  rcases updateVote_cases h with ⟨rfl, _⟩ | ⟨h1, h2⟩
  · exact Or.inl rfl
  · by_cases hn : v.leaderId.node = e.cfg.id
    · exact Or.inl (h2.trans (le_antisymm (hv hn) h1))
    · exact Or.inr (Or.inr (by rw [h2]; exact hn))

theorem keepsLead_plain {e e' : Eng} {i : Input} (hr : e.input dbg now i = .ok e') (h : Emits NoSave e e') : KeepsLead e e' :=
  Or.inl ((vf_input _ _ _ hr).noSave h)

theorem KeepsLead.snoc {e e1 e' : Eng} (h : KeepsLead e e1) (hv : e'.st.vote.data = e1.st.vote.data) : KeepsLead e e' := by
  unfold KeepsLead; rw [hv]; exact h

theorem keepsLead_tick {e e' : Eng} {el hb : Bool} {iv : Nat} (hr : e.coreTick dbg now el hb iv = .ok e') : KeepsLead e e' := by
  unfold coreTick at hr
  simp only [bind_ok] at hr
  obtain ⟨e1, h1, e2, h2, hr⟩ := hr
  have k1 : KeepsLead e e1 := by
    unfold tickElection at h1
    split at h1
    · rw [pure_ok] at h1; subst h1; exact Or.inl rfl
    · split at h1
      · rw [pure_ok] at h1; subst h1; exact Or.inl rfl
      · split at h1
        · rw [pure_ok] at h1; subst h1; exact Or.inl rfl
        · generalize (e.cfg.electionTimeout + if e.seenGreater = true then e.cfg.smallerLogTimeout else 0) = tm at h1
          dsimp only at h1
          split at h1
          · exact Or.inr (Or.inl (elect_vote h1))
          · rw [pure_ok] at h1; subst h1; exact Or.inl rfl
  have k2 := k1.snoc ((vf_tickHeartbeat _ _ _ _ h2).noSave (emits_tickHeartbeat _ _ _ _ h2))
  split at hr
  · exact k2.snoc ((vf_leaderStepDown _ _ hr).noSave (emits_leaderStepDown _ _ hr))
  · rw [pure_ok] at hr; subst hr; exact k2

theorem keepsLead_init {e e' : Eng} {tx : Nat} {m : Membership} (hr : e.input dbg now (.init tx m) = .ok e') : KeepsLead e e' := by
  simp only [input, coreInit, bind_ok, pure_ok] at hr
  obtain ⟨⟨r, e1⟩, h1, hr⟩ := hr
  subst hr
  unfold initCluster at h1
  split at h1
  · rw [pure_ok] at h1; cases h1; exact Or.inl rfl
  · split at h1
    · rw [pure_ok] at h1; cases h1; exact Or.inl rfl
    · simp only [bind_ok, pure_ok] at h1
      obtain ⟨v, hv, e2, he2, e3, he3, h1⟩ := h1
      cases h1
      exact Or.inr (Or.inl (elect_vote (e' := e1) he3))

/-- an input that is not an answer to a vote request gives the node no vote to lead by -/
theorem keepsLead_input {g0 : Gh} {e e' : Eng} {i : Input} (h : EInv g0 e) (ho : InputOk e i)
    (hi : ∀ t v l g s, i ≠ .voteResp t v l g s) (hnl : i.fromLeader = false) (hr : e.input dbg now i = .ok e') : KeepsLead e e' := by
  cases i with
  | appendReq tx v prev es lc => cases hnl
  | snapReq tx v m => cases hnl
  | voteResp t v l g s => exact absurd rfl (hi _ _ _ _ _)
  | voteReq tx v last =>
    simp only [input, coreVoteReq, bind_ok, pure_ok] at hr
    obtain ⟨⟨r, e1⟩, h1, hr⟩ := hr
    subst hr
    unfold handleVoteReq at h1
    split at h1
    · rw [pure_ok] at h1; cases h1; exact Or.inl rfl
    · split at h1
      · simp only [bind_ok, pure_ok] at h1
        obtain ⟨⟨b, e2⟩, h2, h1⟩ := h1
        cases h1
        exact keepsLead_updateVote (e1 := e2) ho h2
      · rw [pure_ok] at h1; cases h1; exact Or.inl rfl
  | init tx m => exact keepsLead_init hr
  | handleTransfer v target =>
    simp only [input, coreHandleTransfer] at hr
    split at hr
    · split at hr
      · exact Or.inr (Or.inl (elect_vote hr))
      · rw [pure_ok] at hr; subst hr; exact Or.inl rfl
    · rw [pure_ok] at hr; subst hr; exact Or.inl rfl
  | electCmd =>
    simp only [input, coreElect] at hr
    split at hr
    · exact Or.inr (Or.inl (elect_vote hr))
    · rw [pure_ok] at hr; subst hr; exact Or.inl rfl
  | higherVote v sender =>
    simp only [input] at hr
    split at hr
    · simp only [bind_ok, pure_ok] at hr
      obtain ⟨⟨b, e2⟩, h2, hr⟩ := hr
      subst hr
      exact keepsLead_updateVote (e1 := e2) ho h2
    · rw [pure_ok] at hr; subst hr; exact Or.inl rfl
  | tick el hb iv => exact keepsLead_tick hr
  | write p =>
    refine keepsLead_plain hr ((?_ : EmitsR NoSave id e (e.input dbg now _)) _ hr)
    simp only [input]
    exact EmitsR.bindE Prod.snd (emits_writeEntry _ _) fun p => EmitsR.pure (Emits.refl _)
  | change c r =>
    refine keepsLead_plain hr ((?_ : EmitsR NoSave id e (e.input dbg now _)) _ hr)
    simp only [input]
    refine EmitsR.bindE Prod.snd ?_ fun p => EmitsR.pure (Emits.refl _)
    unfold changeMembership
    split
    · exact EmitsR.pure (Emits.refl _)
    · exact emits_writeEntry _ _
  | heartbeatCmd => exact keepsLead_plain hr (emits_coreHeartbeat _ _ hr)
  | snapshotCmd => exact keepsLead_plain hr ((EmitsR.pure (emits_triggerSnapshot _) : EmitsR NoSave id e (e.input dbg now .snapshotCmd)) _ hr)
  | purgeCmd i => exact keepsLead_plain hr (emits_triggerPurge _ _ _ hr)
  | transferCmd t => exact keepsLead_plain hr (emits_triggerTransfer _ _ _ hr)
  | localIO io =>
    refine keepsLead_plain hr ((?_ : EmitsR NoSave id e (e.input dbg now _)) _ hr)
    simp only [input, coreLocalIO]
    refine EmitsR.bind fun p => ?_
    split
    · split
      · split
        · exact EmitsR.from' (e1 := e.withProg p) (emits_same rfl rfl) (emits_rhUpdateLocal _ _ _)
        · exact EmitsR.pure (emits_same rfl rfl)
      · exact EmitsR.pure (emits_same rfl rfl)
    · exact EmitsR.pure (emits_same rfl rfl)
  | replProgress s target r =>
    refine keepsLead_plain hr ((?_ : EmitsR NoSave id e (e.input dbg now _)) _ hr)
    simp only [input, coreReplProgress]
    split
    · exact EmitsR.bind fun l => emits_rhUpdateProgress _ _ _ _
    · exact EmitsR.pure (Emits.refl _)
  | hbProgress s target t =>
    refine keepsLead_plain hr ((?_ : EmitsR NoSave id e (e.input dbg now _)) _ hr)
    simp only [input, coreHbProgress]
    split
    · exact EmitsR.bind fun l => emits_rhUpdateClock _ _ _ _
    · exact EmitsR.pure (Emits.refl _)
  | built m =>
    refine keepsLead_plain hr ((?_ : EmitsR NoSave id e (e.input dbg now _)) _ hr)
    simp only [input, coreBuilt]
    exact EmitsR.bindE id (emits_finishBuilding _ _) fun e1 => EmitsR.bind fun io => EmitsR.pure (emits_same rfl rfl)
  | installed io m =>
    refine keepsLead_plain hr ((?_ : EmitsR NoSave id e (e.input dbg now _)) _ hr)
    simp only [input, coreInstalled]
    exact EmitsR.bind fun p => EmitsR.bind fun s1 => EmitsR.bind fun s2 => EmitsR.pure (emits_same rfl rfl)
  | applied last =>
    refine keepsLead_plain hr ((?_ : EmitsR NoSave id e (e.input dbg now _)) _ hr)
    simp only [input, coreApplied]
    exact EmitsR.bind fun s => EmitsR.pure (emits_same rfl rfl)
  | initiate =>
    refine keepsLead_plain hr ((?_ : EmitsR NoSave id e (e.input dbg now _)) _ hr)
    simp only [input, coreInitiate]
    refine EmitsR.bind fun o => ?_
    split
    · exact EmitsR.pure (Emits.refl _)
    · exact emits_rhInitiate _ _

/-- who leads after an input led before by the same vote, or was the candidate of that vote -/
theorem won_input {g0 : Gh} {e e' : Eng} {i : Input} {l' : Leader} (h : EInv g0 e) (ho : InputOk e i)
    (hr : e.input dbg now i = .ok e') (hl : e'.leader = some l') :
    (e.leader.isSome = true ∧ e'.st.vote.data = e.st.vote.data) ∨
      (e.candidate.isSome = true ∧ e'.st.vote.data.leaderId = e.st.vote.data.leaderId) := by
  have hi' := inv_input h ho hr
  have hp := hi'.pj.lead l' hl
  have hcf : e'.cfg = e.cfg := (grow_input _ _ _ hr).1
  have hkl : KeepsLead e e' → (e.leader.isSome = true ∧ e'.st.vote.data = e.st.vote.data) := by
    intro hk
    rcases hk with hk | hk | hk
    · refine ⟨?_, hk⟩
      rcases (lead_input h ho hr hl).2 with h1 | h1
      · exact h1
      · rw [hk] at h1; exact absurd h1 (lt_irrefl _)
    · rw [hp.com] at hk; cases hk
    · exact absurd (by rw [hp.node, hcf]) hk
  by_cases hv : ∃ t v l g s, i = .voteResp t v l g s
  · obtain ⟨t, v, la, gr, s, rfl⟩ := hv
    simp only [input] at hr
    split at hr
    · unfold handleVoteResp at hr
      split at hr
      · rw [pure_ok] at hr; subst hr; exact Or.inl (hkl (Or.inl rfl))
      · next c hc =>
        split at hr
        · simp only [bind_ok] at hr
          obtain ⟨c1, hc1, hr⟩ := hr
          have hcv : c1.vote = c.vote := by
            unfold grantBy at hc1
            simp only [bind_ok, pure_ok] at hc1
            obtain ⟨_, _, hc1⟩ := hc1
            rw [← hc1]
          split at hr
          · unfold establishLeader at hr
            simp only [bind_ok, unwrap_ok] at hr
            obtain ⟨c2, hc2, o, ho2, hr⟩ := hr
            cases hc2
            cases o with
            | none => simp only [pure_ok] at hr; subst hr; exact Or.inl (hkl (Or.inl rfl))
            | some l =>
              simp only [bind_ok] at hr
              obtain ⟨⟨ok, e2⟩, h2, _, _, st, hst, o3, h3, l3, hl3, hr⟩ := hr
              have hin := establish_into ho2
              have hlv : l.vote = c1.vote.toCommitted := by
                unfold Candidate.intoLeader at hin
                rw [bind_ok] at hin
                obtain ⟨_, _, hin⟩ := hin
                rw [(newLeader_ok hin).1]; rfl
              have hv' : e'.st.vote.data = e2.st.vote.data := by
                refine (VF.noSave (vf_lhAppend _ _ _ _ hr) (emits_lhAppend _ _ _ _ hr)).trans ?_
                exact congrArg Leased.data (acceptIo_vote hst)
              rcases updateVote_cases h2 with ⟨h4, _⟩ | ⟨_, h4⟩
              · refine Or.inl (hkl (Or.inl ?_))
                rw [hv', h4]
                exact (vf_rhRebuildStreams { e with candidate := none, leader := some l } l).noSave (emits_rhRebuildStreams _ _)
              · refine Or.inr ⟨by rw [hc]; rfl, ?_⟩
                rw [hv', h4, hlv]
                show c1.vote.leaderId = _
                rw [hcv, (h.pj.cand c hc).vote]
          · rw [pure_ok] at hr; subst hr; exact Or.inl (hkl (Or.inl rfl))
        · simp only [bind_ok, pure_ok] at hr
          obtain ⟨⟨b, e2⟩, h2, hr⟩ := hr
          subst hr
          refine Or.inl (hkl ?_)
          split at h2
          · exact keepsLead_updateVote (e := { e with seenGreater := true }) (e1 := e2) ho h2
          · exact keepsLead_updateVote (e1 := e2) ho h2
    · rw [pure_ok] at hr; subst hr; exact Or.inl (hkl (Or.inl rfl))
  · left
    cases hfl : i.fromLeader with
    | false => exact hkl (keepsLead_input h ho (fun t v l g s hx => hv ⟨t, v, l, g, s, hx⟩) hfl hr)
    | true =>
      cases i with
      | appendReq tx v prev es lc =>
        rcases lead_appendReq h ho hr with h1 | ⟨_, _, h1⟩
        · rw [h1] at hl; cases hl
        · exact hkl (Or.inl h1)
      | snapReq tx v m =>
        rcases lead_snapReq h ho hr with h1 | ⟨_, _, h1⟩
        · rw [h1] at hl; cases hl
        · exact hkl (Or.inl h1)
      | _ => cases hfl

end Eng
end Openraft.Engine
