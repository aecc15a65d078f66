import Verif.Engine.Streams
import Verif.Engine.Emits

/-!
# When replication streams are rebuilt

An input adds at most one `RebuildReplicationStreams` command, and then the node is a leader after it.
-/

set_option autoImplicit false

namespace Openraft.Engine
open Openraft.Repl (Panic dassert Inflight)
open Openraft.Cluster (Payload)
open Openraft.VecProgress (ids)

/-- a command other than `RebuildReplicationStreams` -/
def Cmd.noRb : Cmd → Prop
  | .rebuild _ => False
  | _ => True

instance : LetsCore Cmd.noRb := ⟨fun c _ h => by cases c <;> first | trivial | exact absurd rfl (h _)⟩
instance : LetsVote Cmd.noRb := ⟨fun _ => trivial⟩
instance : LetsAsk Cmd.noRb := ⟨fun _ _ => trivial⟩
instance : LetsTrunc Cmd.noRb := ⟨fun _ => trivial⟩
instance : LetsPurge Cmd.noRb := ⟨fun _ => trivial⟩
instance : LetsInstall Cmd.noRb := ⟨fun _ _ => trivial⟩
instance : LetsAnswer Cmd.noRb := ⟨fun _ _ _ => trivial⟩

theorem streams_noRb {r : List NodeId} {cs : List Cmd} (h : ∀ c ∈ cs, c.noRb) : streams r cs = r := by
  induction cs generalizing r with
  | nil => rfl
  | cons c cs ih =>
    show streams (c.streams r) cs = r
    rw [ih fun x hx => h x (List.mem_cons_of_mem _ hx)]
    have := h c (by simp)
    cases c <;> first | rfl | cases this

/-- the commands added by an input have at most one rebuild, and then the node leads -/
def OneRb (e e' : Eng) : Prop :=
  Emits Cmd.noRb e e' ∨
  ∃ pre ts post, e'.out = e.out ++ (pre ++ Cmd.rebuild ts :: post) ∧ (∀ c ∈ pre, c.noRb) ∧ (∀ c ∈ post, c.noRb) ∧ e'.leader.isSome = true

theorem OneRb.after {a b c : Eng} (h : Emits Cmd.noRb a b) (k : OneRb b c) : OneRb a c := by
  rcases k with k | ⟨pre, ts, post, k1, k2, k3, k4⟩
  · exact Or.inl (h.trans k)
  · obtain ⟨cs, h1, h2⟩ := h
    refine Or.inr ⟨cs ++ pre, ts, post, by rw [k1, h1]; simp, ?_, k3, k4⟩
    intro x hx
    rcases List.mem_append.1 hx with hx | hx
    · exact h2 x hx
    · exact k2 x hx

theorem OneRb.before {a b c : Eng} (h : OneRb a b) (k : Emits Cmd.noRb b c) (hl : b.leader.isSome = true → c.leader.isSome = true) : OneRb a c := by
  rcases h with h | ⟨pre, ts, post, k1, k2, k3, k4⟩
  · exact Or.inl (h.trans k)
  · obtain ⟨cs, h1, h2⟩ := k
    refine Or.inr ⟨pre, ts, post ++ cs, by rw [h1, k1]; simp, k2, ?_, hl k4⟩
    intro x hx
    rcases List.mem_append.1 hx with hx | hx
    · exact k3 x hx
    · exact h2 x hx

namespace Eng
variable {dbg : Bool} {now : Nat} {e e' : Eng} {l : Leader}

theorem one_rebuild : OneRb e (e.rhRebuildStreams l) :=
  Or.inr ⟨[], _, [], rfl, by simp, by simp, rfl⟩

theorem rhInitiate_lead (h : e.rhInitiate dbg l = .ok e') : e'.leader.isSome = true := by
  unfold rhInitiate at h
  rw [bind_ok] at h
  obtain ⟨_, _, h⟩ := h
  rw [pure_ok] at h; subst h; rfl

theorem one_rhAppendMembership {i : LogId} {m : Membership} (h : e.rhAppendMembership dbg l i m = .ok e') : OneRb e e' := by
  unfold rhAppendMembership at h
  simp only [bind_ok] at h
  obtain ⟨_, _, _, _, ms, _, l2, _, h⟩ := h
  refine OneRb.after (b := { e with st := { e.st with ms := ms } }) (emits_same rfl rfl) ?_
  exact OneRb.before one_rebuild (emits_rhInitiate _ _ _ h) fun _ => rhInitiate_lead h

theorem lhAppend_lead {p : Payload} (h : e.lhAppend dbg l [p] = .ok e') : e'.leader.isSome = true := by
  unfold lhAppend at h
  rw [if_neg (by simp)] at h
  simp only [bind_ok] at h
  obtain ⟨_, _, _, _, _, _, _, _, _, _, _, _, h⟩ := h
  exact rhInitiate_lead h

theorem one_lhAppend {p : Payload} (h : e.lhAppend dbg l [p] = .ok e') : OneRb e e' := by
  have hle := lhAppend_lead h
  unfold lhAppend at h
  rw [if_neg (by simp)] at h
  simp only [bind_ok] at h
  obtain ⟨_, _, _, _, _, _, st, _, e2, h2, l2, _, h⟩ := h
  refine OneRb.before (b := e2) ?_ (emits_rhInitiate _ _ _ h) fun _ => hle
  unfold lhMembership at h2
  have hpush : ∀ (x : Eng) (v : Vote) (es : List Ent) (o : Eng), x.out = e.out → x.cfg = e.cfg → OneRb (x.push (.append v es)) o → OneRb e o :=
    fun x v es o h1 h2 h3 => OneRb.after (emits_upd (.append v es) (emits_same h2 h1)) h3
  refine hpush { e with st := st, leader := some { l with lastLogId := (assign l.vote.leaderId (nextIndex l.lastLogId) [p]).getLast?.map (·.id) } }
    l.vote (assign l.vote.leaderId (nextIndex l.lastLogId) [p]) e2 rfl rfl ?_
  split at h2
  · exact one_rhAppendMembership h2
  · rw [pure_ok] at h2; subst h2; exact Or.inl (Emits.refl _)

/-- a blank entry changes no membership -/
theorem nr_lhAppend_blank (h : e.lhAppend dbg l [.blank] = .ok e') : Emits Cmd.noRb e e' := by
  unfold lhAppend at h
  rw [if_neg (by simp)] at h
  simp only [assign_single, bind_ok] at h
  obtain ⟨_, _, _, _, _, _, st, _, e2, h2, l2, _, h⟩ := h
  refine Emits.trans ?_ (emits_rhInitiate _ _ _ h)
  unfold lhMembership at h2
  have hn : [(⟨⟨l.vote.leaderId, nextIndex l.lastLogId⟩, .blank⟩ : Ent)].filterMap (·.stored?) = [] := rfl
  rw [hn] at h2
  simp only [List.getLast?_nil, pure_ok] at h2
  subst h2
  exact emits_upd _ (emits_same rfl rfl)

theorem nr_updateInternal {P : Cmd → Prop} [LetsRow P] {g0 : Gh} (hI : EInv g0 e) : EmitsR P id e (e.updateInternal dbg now) := by
  unfold updateInternal
  split
  · next hil =>
    unfold becomeLeader
    cases hl : e.leader with
    | none => rw [hI.pj.nolead hl] at hil; cases hil
    | some l =>
      have hk := hI.pj.lead l hl
      simp only
      rw [if_pos (by rw [hk.vote])]
      exact EmitsR.pure (emits_same rfl rfl)
  · split
    · exact EmitsR.pure (Emits.refl _)
    · exact emits_becomeFollowing _

theorem nr_updateVote {P : Cmd → Prop} [LetsRow P] [LetsVote P] {g0 : Gh} (hI : EInv g0 e) {v : Vote} (hv : VoteOk e v) :
    EmitsR P Prod.snd e (e.updateVote dbg now v) := by
  intro p hr
  unfold updateVote at hr
  split at hr
  · next hle =>
    simp only [bind_ok, pure_ok] at hr
    obtain ⟨e1, he1, e2, he2, rfl⟩ := hr
    refine (emits_storeVote _ _ _ _ he1).trans ?_
    by_cases hlt : e.st.vote.data < v
    · have hne : v.leaderId.node ≠ e.cfg.id := fun hx => absurd (hv hx) (not_le.2 hlt)
      have hd := storeVote_vote hle he1
      have hcf := (storeVote_same he1).2.2.2
      have hng : e1.st.isLeading e1.cfg.id = false := by
        unfold RState.isLeading
        rw [hd, hcf]
        have : (v.leaderId.node == e.cfg.id) = false := by simpa using hne
        rw [this]; simp
      have hnl : e1.st.isLeader e1.cfg.id = false := by unfold RState.isLeader; rw [hng]; rfl
      unfold updateInternal at he2
      rw [if_neg (by rw [hnl]; simp), if_neg (by rw [hng]; simp)] at he2
      exact emits_becomeFollowing _ _ he2
    · obtain ⟨hf, _, _⟩ := storeVote_eq hlt he1
      exact nr_updateInternal (hf.inv hI) _ he2
  · rw [pure_ok] at hr; subst hr; exact Emits.refl _

/-- a vote of another node, if it is stored -/
theorem nr_updateVote_out {P : Cmd → Prop} [LetsRow P] [LetsVote P] {g0 : Gh} (hI : EInv g0 e) {v : Vote} (hn : e.st.vote.data ≤ v → v.leaderId.node ≠ e.cfg.id) :
    EmitsR P Prod.snd e (e.updateVote dbg now v) := by
  by_cases hle : e.st.vote.data ≤ v
  · exact nr_updateVote hI fun hx => absurd hx (hn hle)
  · unfold updateVote
    rw [if_neg hle]; exact EmitsR.pure (Emits.refl _)

/-- a vote that is not committed makes no leader -/
theorem nr_updateVote_new {P : Cmd → Prop} [LetsRow P] [LetsVote P] {v : Vote} (hc : v.committed = false) : EmitsR P Prod.snd e (e.updateVote dbg now v) := by
  intro p hr
  unfold updateVote at hr
  split at hr
  · next hle =>
    simp only [bind_ok, pure_ok] at hr
    obtain ⟨e1, he1, e2, he2, rfl⟩ := hr
    refine (emits_storeVote _ _ _ _ he1).trans ?_
    have hd := storeVote_vote hle he1
    have hnl : e1.st.isLeader e1.cfg.id = false := by unfold RState.isLeader; rw [hd, hc]; simp
    unfold updateInternal at he2
    rw [if_neg (by rw [hnl]; simp)] at he2
    split at he2
    · rw [pure_ok] at he2; subst he2; exact Emits.refl _
    · exact emits_becomeFollowing _ _ he2
  · rw [pure_ok] at hr; subst hr; exact Emits.refl _

theorem nr_elect {P : Cmd → Prop} [LetsRow P] [LetsVote P] [LetsAsk P] (e : Eng) : EmitsR P id e (e.elect dbg now) := by
  unfold elect
  refine EmitsR.from' (emits_same (e1 := { e with candidate := some (Candidate.new now (Vote.new (e.st.vote.data.leaderId.term + 1) e.cfg.id) e.st.lastLogId e.st.ms.effective.mem) }) rfl rfl) ?_
  refine EmitsR.bindE Prod.snd (nr_updateVote_new rfl) fun p => EmitsR.bind fun _ => EmitsR.pure ?_
  exact (emits_push _ _).trans (emits_updateServerState _)

theorem nr_initCluster {P : Cmd → Prop} [LetsRow P] [LetsVote P] [LetsAsk P] (e : Eng) (m : Membership) : EmitsR P Prod.snd e (e.initCluster dbg now m) := by
  unfold initCluster
  split
  · exact EmitsR.pure (Emits.refl _)
  · split
    · exact EmitsR.pure (Emits.refl _)
    · refine EmitsR.bind fun v => ?_
      refine EmitsR.from' (emits_same (e1 := { e with st := { e.st with vote := e.st.vote.update now 0 ⟨⟨0, 0⟩, true⟩ } }) rfl rfl) ?_
      exact EmitsR.bindE id (emits_fhDoAppend _ _ _) fun e2 => EmitsR.bindE id (nr_elect _) fun e3 => EmitsR.pure (Emits.refl _)

theorem one_establishLeader (hr : e.establishLeader dbg now = .ok e') : OneRb e e' := by
  unfold establishLeader at hr
  simp only [bind_ok] at hr
  obtain ⟨c, _, o, _, hr⟩ := hr
  cases o with
  | none => simp only [pure_ok] at hr; subst hr; exact Or.inl (emits_same rfl rfl)
  | some l =>
    simp only [bind_ok] at hr
    obtain ⟨⟨ok, e2⟩, h2, _, _, st, _, lo, _, l3, _, hr⟩ := hr
    have h3 : Emits Cmd.noRb e2 e' :=
      (emits_same (e := e2) (e1 := { e2 with st := st }) rfl rfl).trans (nr_lhAppend_blank hr)
    refine OneRb.after (b := { { e with candidate := none } with leader := some l }) (emits_same rfl rfl) ?_
    refine OneRb.before (b := rhRebuildStreams { { e with candidate := none } with leader := some l } l) one_rebuild (Emits.trans ?_ h3) fun _ => lhAppend_lead hr
    revert h2
    obtain ⟨e1, he1⟩ : ∃ e1, e1 = rhRebuildStreams { { e with candidate := none } with leader := some l } l := ⟨_, rfl⟩
    intro h2
    have h2 : e1.updateVote dbg now l.vote = .ok (ok, e2) := by rw [he1]; exact h2
    show Emits Cmd.noRb (rhRebuildStreams { { e with candidate := none } with leader := some l } l) e2
    rw [← he1]
    have hle1 : ∃ l1, e1.leader = some l1 ∧ l1.vote = l.vote := by rw [he1]; exact ⟨_, rfl, rfl⟩
    unfold updateVote at h2
    split at h2
    · next hle =>
      simp only [bind_ok, pure_ok] at h2
      obtain ⟨e4, he4, e5, he5, h2⟩ := h2
      cases h2
      refine (emits_storeVote _ _ _ _ he4).trans ?_
      have hd := storeVote_vote hle he4
      have hl4 := (storeVote_same he4).2.2.1
      obtain ⟨l1, k1, k2⟩ := hle1
      unfold updateInternal at he5
      split at he5
      · unfold becomeLeader at he5
        rw [hl4, k1] at he5
        simp only at he5
        rw [if_pos (by rw [hd, k2]), pure_ok] at he5
        subst he5; exact emits_same rfl rfl
      · split at he5
        · rw [pure_ok] at he5; subst he5; exact Emits.refl _
        · exact emits_becomeFollowing _ _ he5
    · rw [pure_ok] at h2; cases h2; exact Emits.refl _

theorem nr_tickElection {P : Cmd → Prop} [LetsRow P] [LetsVote P] [LetsAsk P] (e : Eng) (en : Bool) : EmitsR P id e (e.tickElection dbg now en) := by
  unfold tickElection
  split
  · exact EmitsR.pure (Emits.refl _)
  · split
    · exact EmitsR.pure (Emits.refl _)
    · split
      · exact EmitsR.pure (Emits.refl _)
      · have hgo : ∀ b : Bool, EmitsR P id e (if b = true then elect dbg now { e with seenGreater := false } else pure e) := by
          intro b
          split
          · exact EmitsR.from' (e1 := { e with seenGreater := false }) (emits_same rfl rfl) (nr_elect _)
          · exact EmitsR.pure (Emits.refl _)
        exact hgo _

theorem nr_coreTick {P : Cmd → Prop} [LetsRow P] [LetsVote P] [LetsAsk P] {g0 : Gh} (hI : EInv g0 e) (el hb : Bool) (iv : Nat) : EmitsR P id e (e.coreTick dbg now el hb iv) := by
  intro e' hr
  unfold coreTick at hr
  simp only [bind_ok] at hr
  obtain ⟨e1, he1, e2, he2, hr⟩ := hr
  refine ((nr_tickElection e el _ he1).trans (emits_tickHeartbeat e1 hb iv _ he2)).trans ?_
  have hI2 := (frame_tickHeartbeat he2).inv (inv_tickElection hI he1)
  split at hr
  · unfold leaderStepDown at hr
    split at hr
    · exact nr_updateInternal hI2 _ hr
    · rw [pure_ok] at hr; subst hr; exact Emits.refl _
  · rw [pure_ok] at hr; subst hr; exact Emits.refl _

theorem nr_handleAppend {P : Cmd → Prop} [LetsRow P] [LetsVote P] [LetsTrunc P] [LetsAnswer P] {g0 : Gh} (hI : EInv g0 e) {tx : Nat} {v : Vote} {prev : Option LogId} {es : List Ent} {lc : Option LogId}
    (ho : e.st.vote.data ≤ v → AppendOk e v prev es lc) : EmitsR P id e (e.handleAppend dbg now tx v prev es lc) := by
  have hap : EmitsR P Prod.snd e (e.appendEntries dbg now v prev es) := by
    unfold appendEntries
    refine EmitsR.bindE Prod.snd (nr_updateVote_out hI fun hle => (ho hle).1) fun p => ?_
    obtain ⟨ok, e1⟩ := p
    dsimp only
    split
    · refine EmitsR.bind fun lv => EmitsR.bindE Prod.snd (emits_fhEnsure _ _) fun p => ?_
      obtain ⟨ok2, e2⟩ := p
      dsimp only
      split
      · exact EmitsR.bindE id (emits_fhAppendEntries _ _ _ _) fun e3 => EmitsR.pure (Emits.refl _)
      · exact EmitsR.pure (Emits.refl _)
    · exact EmitsR.pure (Emits.refl _)
  unfold handleAppend
  refine EmitsR.bindE Prod.snd hap fun p => ?_
  obtain ⟨r, e1⟩ := p
  dsimp only
  split
  · refine EmitsR.bind fun acc => EmitsR.bind fun _ => ?_
    exact EmitsR.from' (emits_push _ _) (emits_fhCommit _ _)
  · exact EmitsR.pure (emits_push _ _)

theorem nr_handleInstall {P : Cmd → Prop} [LetsRow P] [LetsVote P] [LetsTrunc P] [LetsAnswer P] [LetsPurge P] [LetsInstall P] {g0 : Gh} (hI : EInv g0 e) {tx : Nat} {v : Vote} {m : SnapMeta}
    (ho : InputOk e (.snapReq tx v m)) : EmitsR P id e (e.handleInstall dbg now tx v m) := by
  unfold handleInstall
  refine EmitsR.bindE Prod.snd (nr_updateVote_out hI fun hle => (ho hle).1) fun p => ?_
  obtain ⟨ok, e1⟩ := p
  dsimp only
  split
  · refine EmitsR.bind fun lv => EmitsR.bindE Prod.snd (emits_fhInstall _ _ _) fun p => ?_
    exact EmitsR.pure (emits_push _ _)
  · exact EmitsR.pure (emits_push _ _)

theorem one_writeEntry {p : Payload} {o : Option Nat} (hr : e.writeEntry dbg p = .ok (o, e')) : OneRb e e' := by
  unfold writeEntry at hr
  rw [bind_ok] at hr
  obtain ⟨lo, _, hr⟩ := hr
  cases lo with
  | none => simp only [pure_ok] at hr; cases hr; exact Or.inl (Emits.refl _)
  | some l =>
    simp only at hr
    split at hr
    · rw [pure_ok] at hr; cases hr; exact Or.inl (Emits.refl _)
    · simp only [bind_ok, pure_ok] at hr
      obtain ⟨e1, h1, _, _, hr⟩ := hr
      cases hr
      exact one_lhAppend h1

theorem one_handleVoteResp {g0 : Gh} (hI : EInv g0 e) {target : NodeId} {v : Vote} {last : Option LogId} {granted : Bool}
    (hv : VoteOk e v) (hr : e.handleVoteResp dbg now target v last granted = .ok e') : OneRb e e' := by
  unfold handleVoteResp at hr
  cases hc : e.candidate with
  | none => rw [hc] at hr; rw [pure_ok] at hr; subst hr; exact Or.inl (Emits.refl _)
  | some c =>
    rw [hc] at hr
    simp only at hr
    split at hr
    · rw [bind_ok] at hr
      obtain ⟨c1, _, hr⟩ := hr
      split at hr
      · exact OneRb.after (b := { e with candidate := some c1 }) (emits_same rfl rfl) (one_establishLeader hr)
      · rw [pure_ok] at hr; subst hr; exact Or.inl (emits_same rfl rfl)
    · rw [bind_ok] at hr
      obtain ⟨p, hp, hr⟩ := hr
      rw [pure_ok] at hr; subst hr
      split at hp
      · have hf : Frame e { e with seenGreater := true } :=
          ⟨rfl, rfl, rfl, rfl, fun _ => rfl, rfl, LSame.refl _, [], by simp, by simp⟩
        have hp : updateVote dbg now { e with seenGreater := true } v = .ok p := by rw [hc]; exact hp
        exact Or.inl (Emits.trans (emits_same rfl rfl) (nr_updateVote (hf.inv hI) hv _ hp))
      · exact Or.inl (nr_updateVote hI hv _ hp)

/-- **An input adds at most one rebuild, and then the node leads.** -/
theorem one_input {g0 : Gh} {i : Input} (hI : EInv g0 e) (ho : InputOk e i) (hr : e.input dbg now i = .ok e') : OneRb e e' := by
  have go : ∀ x : Res Eng, EmitsR Cmd.noRb id e x → x = .ok e' → OneRb e e' := fun x hx he => Or.inl (hx e' he)
  cases i with
  | appendReq tx v prev es lc => exact go _ (nr_handleAppend hI ho) hr
  | voteReq tx v last =>
    refine go _ ?_ hr
    simp only [input, coreVoteReq]
    refine EmitsR.bindE Prod.snd ?_ fun p => EmitsR.pure (emits_push _ _)
    unfold handleVoteReq
    split
    · exact EmitsR.pure (Emits.refl _)
    · split
      · exact EmitsR.bindE Prod.snd (nr_updateVote hI ho) fun p => EmitsR.pure (Emits.refl _)
      · exact EmitsR.pure (Emits.refl _)
  | snapReq tx v m => exact go _ (nr_handleInstall hI ho) hr
  | init tx m =>
    refine go _ ?_ hr
    simp only [input, coreInit]
    exact EmitsR.bindE Prod.snd (nr_initCluster _ _) fun p => EmitsR.pure (emits_push _ _)
  | write p =>
    simp only [input, bind_ok, pure_ok] at hr
    obtain ⟨⟨o, e1⟩, h1, hr⟩ := hr
    subst hr; exact one_writeEntry h1
  | change c r =>
    simp only [input, bind_ok, pure_ok] at hr
    obtain ⟨⟨o, e1⟩, h1, hr⟩ := hr
    subst hr
    unfold changeMembership at h1
    split at h1
    · rw [pure_ok] at h1; cases h1; exact Or.inl (Emits.refl _)
    · exact one_writeEntry h1
  | handleTransfer v target =>
    refine go _ ?_ hr
    simp only [input, coreHandleTransfer]
    split
    · split
      · exact EmitsR.from' (e1 := { e with st := { e.st with vote := e.st.vote.disable } }) (emits_same rfl rfl) (nr_elect _)
      · exact EmitsR.pure (emits_same rfl rfl)
    · exact EmitsR.pure (Emits.refl _)
  | electCmd =>
    refine go _ ?_ hr
    simp only [input, coreElect]
    split
    · exact nr_elect _
    · exact EmitsR.pure (Emits.refl _)
  | heartbeatCmd => exact go _ (emits_coreHeartbeat _) hr
  | snapshotCmd => exact go _ (EmitsR.pure (emits_triggerSnapshot _)) hr
  | purgeCmd i => exact go _ (emits_triggerPurge _ _) hr
  | transferCmd t => exact go _ (emits_triggerTransfer _ _) hr
  | voteResp target v last granted sender =>
    simp only [input] at hr
    split at hr
    · exact one_handleVoteResp hI ho hr
    · rw [pure_ok] at hr; subst hr; exact Or.inl (Emits.refl _)
  | higherVote v sender =>
    refine go _ ?_ hr
    simp only [input]
    split
    · exact EmitsR.bindE Prod.snd (nr_updateVote hI ho) fun p => EmitsR.pure (Emits.refl _)
    · exact EmitsR.pure (Emits.refl _)
  | tick el hb iv => exact go _ (nr_coreTick hI el hb iv) hr
  | localIO io =>
    refine go _ ?_ hr
    simp only [input, coreLocalIO]
    refine EmitsR.bind fun p => ?_
    split
    · split
      · split
        · exact EmitsR.from' (e1 := e.withProg p) (emits_same rfl rfl) (emits_rhUpdateLocal _ _ _)
        · exact EmitsR.pure (emits_same rfl rfl)
      · exact EmitsR.pure (emits_same rfl rfl)
    · exact EmitsR.pure (emits_same rfl rfl)
  | replProgress s target r =>
    refine go _ ?_ hr
    simp only [input, coreReplProgress]
    split
    · exact EmitsR.bind fun l => emits_rhUpdateProgress _ _ _ _
    · exact EmitsR.pure (Emits.refl _)
  | hbProgress s target t =>
    refine go _ ?_ hr
    simp only [input, coreHbProgress]
    split
    · exact EmitsR.bind fun l => emits_rhUpdateClock _ _ _ _
    · exact EmitsR.pure (Emits.refl _)
  | built m =>
    refine go _ ?_ hr
    simp only [input, coreBuilt]
    exact EmitsR.bindE id (emits_finishBuilding _ _) fun e1 => EmitsR.bind fun io => EmitsR.pure (emits_same rfl rfl)
  | installed io m =>
    refine go _ ?_ hr
    simp only [input, coreInstalled]
    exact EmitsR.bind fun p => EmitsR.bind fun s1 => EmitsR.bind fun s2 => EmitsR.pure (emits_same rfl rfl)
  | applied last =>
    refine go _ ?_ hr
    simp only [input, coreApplied]
    exact EmitsR.bind fun s => EmitsR.pure (emits_same rfl rfl)
  | initiate =>
    refine go _ ?_ hr
    simp only [input, coreInitiate]
    refine EmitsR.bind fun lo => ?_
    cases lo with
    | none => exact EmitsR.pure (Emits.refl _)
    | some l => exact emits_rhInitiate _ _

theorem one_startup {g0 : Gh} (h : StartOk g0 e) (hr : e.startup dbg now = .ok e') : OneRb e e' := by
  unfold startup at hr
  split at hr
  · next hil =>
    unfold updateInternal at hr
    rw [if_pos hil] at hr
    unfold becomeLeader at hr
    rw [h.leader] at hr
    simp only at hr
    unfold becomeNewLeader at hr
    simp only [bind_ok] at hr
    obtain ⟨l, _, st, _, l2, _, hr⟩ := hr
    have key : ∀ e0 : Eng, OneRb e e0 → e0.leader.isSome = true → (if l.lastLogId < l.noopLogId then lhAppend dbg e0 l2 [.blank] else rhInitiate dbg e0 l2) = .ok e' → OneRb e e' := by
      intro e0 h0 hs hr
      split at hr
      · exact OneRb.before h0 (nr_lhAppend_blank hr) fun _ => lhAppend_lead hr
      · exact OneRb.before h0 (emits_rhInitiate _ _ _ hr) fun _ => rhInitiate_lead hr
    refine key _ ?_ rfl hr
    refine OneRb.after ?_ one_rebuild
    exact (emits_upd (.updateIO none (IOId.newLog l.vote l.lastLogId)) (emits_same rfl rfl)).trans (emits_updateServerState _)
  · rw [pure_ok] at hr; subst hr; exact Or.inl (emits_same rfl rfl)

end Eng

/-- the targets of the rebuild that an input adds are those of the leader -/
theorem OneRb.targets {r : List NodeId} {e e' : Eng} (h : OneRb e e') (hs : StrInv r e') :
    ∃ cs, e'.out = e.out ++ cs ∧ ∀ ts, Cmd.rebuild ts ∈ cs → ∃ l, e'.leader = some l ∧
      ∀ t, t ∈ ts.map (·.1) ↔ t ∈ ids l.progress.vp.vector ∧ t ≠ e'.cfg.id := by
  rcases h with ⟨cs, h1, h2⟩ | ⟨pre, ts, post, h1, h2, h3, h4⟩
  · exact ⟨cs, h1, fun ts ht => absurd (h2 _ ht) (fun hh => hh)⟩
  · refine ⟨_, h1, fun ts' ht => ?_⟩
    obtain ⟨l, hl⟩ := Option.isSome_iff_exists.1 h4
    refine ⟨l, hl, ?_⟩
    have : ts' = ts := by
      rcases List.mem_append.1 ht with ht | ht
      · exact absurd (h2 _ ht) (fun hh => hh)
      · rcases List.mem_cons.1 ht with ht | ht
        · cases ht; rfl
        · exact absurd (h3 _ ht) (fun hh => hh)
    subst this
    intro t
    rw [← hs.lead l hl t, h1, streams_append, streams_append]
    show _ ↔ t ∈ streams (streams (streams (streams r e.out) pre) [Cmd.rebuild ts']) post
    rw [streams_noRb h3]; rfl

end Openraft.Engine
