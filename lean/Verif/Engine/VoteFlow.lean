import Verif.Engine.Emits
import Verif.Engine.IoKeep
import Verif.Engine.InvVote

/-!
# Votes in the command stream

The commands an engine emits carry its vote: a `SaveVote` command carries a vote greater than the one before it, the last of
them carries the vote in memory, and an answer carries the vote that the last `SaveVote` before it stores. This needs no
assumption on the inputs or on the state.
-/

set_option autoImplicit false

namespace Openraft.Engine
open Openraft.Repl (Panic dassert Inflight)
open Openraft.Cluster (Payload)

/-- the vote an answer carries -/
def voteOf : Resp → Option Vote
  | .vote v _ _ => some v
  | .append .success v _ => some v
  | .append (.higherVote v) _ _ => some v
  | .append .conflict _ _ => none
  | .snapshot v => some v
  | .init _ => none

/-- a command that neither stores a vote nor answers with one -/
def Cmd.voteless : Cmd → Bool
  | .saveVote _ => false
  | .respond _ _ r => (voteOf r).isNone
  | _ => true

/-- commands executed with vote `v` stored; `w` is stored in the end -/
def VFlow : Vote → List Cmd → Vote → Prop
  | v, [], w => w = v
  | v, .saveVote u :: cs, w => v < u ∧ VFlow u cs w
  | v, .respond _ _ r :: cs, w => (∀ a ∈ voteOf r, a = v) ∧ VFlow v cs w
  | v, _ :: cs, w => VFlow v cs w

theorem VFlow.quiet {v w : Vote} {c : Cmd} {cs : List Cmd} (hc : c.voteless = true) (h : VFlow v cs w) : VFlow v (c :: cs) w := by
  cases c with
  | saveVote u => cases hc
  | respond a b r =>
    refine ⟨fun a ha => ?_, h⟩
    rw [Cmd.voteless, Option.isNone_iff_eq_none] at hc
    rw [hc] at ha; cases ha
  | _ => exact h

theorem VFlow.quiets {v : Vote} {cs : List Cmd} (hc : ∀ c ∈ cs, c.voteless = true) : VFlow v cs v := by
  induction cs with
  | nil => exact rfl
  | cons c cs ih => exact (ih fun x hx => hc x (by simp [hx])).quiet (hc c (by simp))

theorem VFlow.append {a b c : Vote} {xs ys : List Cmd} (h : VFlow a xs b) (k : VFlow b ys c) : VFlow a (xs ++ ys) c := by
  induction xs generalizing a with
  | nil => rw [show b = a from h] at k; exact k
  | cons x xs ih =>
    cases x with
    | saveVote u => exact ⟨h.1, ih h.2⟩
    | respond _ _ r => exact ⟨h.1, ih h.2⟩
    | _ => exact ih h

theorem VFlow.split {a c : Vote} {xs ys : List Cmd} (h : VFlow a (xs ++ ys) c) : ∃ b, VFlow a xs b ∧ VFlow b ys c := by
  induction xs generalizing a with
  | nil => exact ⟨a, rfl, h⟩
  | cons x xs ih =>
    cases x with
    | saveVote u => obtain ⟨b, h1, h2⟩ := ih h.2; exact ⟨b, ⟨h.1, h1⟩, h2⟩
    | respond _ _ r => obtain ⟨b, h1, h2⟩ := ih h.2; exact ⟨b, ⟨h.1, h1⟩, h2⟩
    | _ => exact ih h

theorem VFlow.le {a b : Vote} {xs : List Cmd} (h : VFlow a xs b) : a ≤ b := by
  induction xs generalizing a with
  | nil => exact le_of_eq (show b = a from h).symm
  | cons x xs ih =>
    cases x with
    | saveVote u => exact le_trans (le_of_lt h.1) (ih h.2)
    | respond _ _ r => exact ih h.2
    | _ => exact ih h

/-- the commands that `e'` has after those of `e` lead from the vote of `e` to the vote of `e'` -/
def VF (e e' : Eng) : Prop := ∃ cs, e'.out = e.out ++ cs ∧ VFlow e.st.vote.data cs e'.st.vote.data

theorem VF.refl (e : Eng) : VF e e := ⟨[], by simp, rfl⟩
theorem VF.trans {a b c : Eng} (h : VF a b) (k : VF b c) : VF a c := by
  obtain ⟨x, h1, h2⟩ := h
  obtain ⟨y, k1, k2⟩ := k
  exact ⟨x ++ y, by rw [k1, h1, List.append_assoc], h2.append k2⟩

/-- `VF` for a result, `π` picks the engine -/
def VFR {α : Type} (π : α → Eng) (e : Eng) (r : Res α) : Prop := ∀ a, r = .ok a → VF e (π a)

namespace VFR
variable {α β : Type} {π : α → Eng} {e : Eng}

theorem pure {a : α} (h : VF e (π a)) : VFR π e (Pure.pure a) := by
  intro b hb; rw [pure_ok] at hb; subst hb; exact h

theorem bind {x : Res β} {f : β → Res α} (h : ∀ b, VFR π e (f b)) : VFR π e (x >>= f) := by
  intro a ha; rw [bind_ok] at ha
  obtain ⟨b, _, hb⟩ := ha; exact h b a hb

theorem bindI {x : Res β} {f : β → Res α} (h : ∀ b, x = .ok b → VFR π e (f b)) : VFR π e (x >>= f) := by
  intro a ha; rw [bind_ok] at ha
  obtain ⟨b, hx, hb⟩ := ha; exact h b hx a hb

theorem bindE (π' : β → Eng) {x : Res β} {f : β → Res α} (hx : VFR π' e x) (h : ∀ b, VFR π (π' b) (f b)) :
    VFR π e (x >>= f) := by
  intro a ha; rw [bind_ok] at ha
  obtain ⟨b, hx', hb⟩ := ha; exact (hx b hx').trans (h b a hb)

theorem bindEI (π' : β → Eng) {x : Res β} {f : β → Res α} (hx : VFR π' e x) (h : ∀ b, x = .ok b → VFR π (π' b) (f b)) :
    VFR π e (x >>= f) := by
  intro a ha; rw [bind_ok] at ha
  obtain ⟨b, hx', hb⟩ := ha; exact (hx b hx').trans (h b hx' a hb)

theorem from' {e1 : Eng} {r : Res α} (h : VF e e1) (k : VFR π e1 r) : VFR π e r :=
  fun a ha => h.trans (k a ha)

end VFR

theorem acceptIo_vote {dbg : Bool} {s s' : RState} {x : IOId} (h : s.acceptIo dbg x = .ok s') : s'.vote = s.vote := by
  rw [acceptIo_ok h]

theorem touch_data {dbg : Bool} {l l' : Leased} {now lease : Nat} (h : l.touch dbg now lease = .ok l') : l'.data = l.data := by
  unfold Leased.touch at h
  rw [bind_ok] at h
  obtain ⟨_, _, h⟩ := h
  rw [pure_ok] at h; subst h; rfl

theorem updateCommitted_vote {dbg : Bool} {s s' : RState} {c : Option LogId} {ch : Bool} (h : s.updateCommitted dbg c = .ok (ch, s')) :
    s'.vote = s.vote := by
  unfold RState.updateCommitted at h
  split at h
  · rw [bind_ok] at h
    obtain ⟨m, _, h⟩ := h
    rw [pure_ok] at h; cases h; rfl
  · rw [pure_ok] at h; cases h; rfl

namespace Eng
variable {dbg : Bool} {now : Nat}

theorem vf_push (e : Eng) (c : Cmd) (h : c.voteless = true := by rfl) : VF e (e.push c) :=
  ⟨[c], rfl, VFlow.quiets (by simpa using h)⟩

theorem vf_upd {e e1 : Eng} (c : Cmd) (h : VF e e1) (hc : c.voteless = true := by rfl) : VF e (e1.push c) :=
  h.trans (vf_push _ _ hc)

theorem vf_same {e e1 : Eng} (h1 : e1.st.vote.data = e.st.vote.data) (h2 : e1.out = e.out) : VF e e1 :=
  ⟨[], by simp [h2], h1⟩

theorem vf_logPurge (e : Eng) : VF e e.logPurge := by
  unfold logPurge
  split
  · exact VF.refl _
  · split
    · exact VF.refl _
    · exact vf_upd _ (vf_same rfl rfl)

theorem vf_updatePurgeUpto (e : Eng) (x : LogId) : VFR id e (e.updatePurgeUpto dbg x) := by
  unfold updatePurgeUpto
  exact VFR.bind fun _ => VFR.pure (vf_same rfl rfl)

theorem vf_schedulePurge (e : Eng) : VFR id e (e.schedulePurge dbg) := by
  unfold schedulePurge
  refine VFR.bind fun o => ?_
  split
  · exact vf_updatePurgeUpto _ _
  · exact VFR.pure (VF.refl _)

theorem vf_triggerSnapshot (e : Eng) : VF e e.triggerSnapshot := by
  unfold triggerSnapshot
  split
  · exact VF.refl _
  · exact vf_upd _ (vf_same rfl rfl)

theorem vf_updateSnapshot  (e : Eng) (m : SnapMeta) : VF e (e.updateSnapshot m).2 := by
  unfold updateSnapshot
  split
  · exact VF.refl _
  · exact vf_same rfl rfl

theorem vf_maybeSnapshot (e : Eng) : VF e e.maybeSnapshot := by
  unfold maybeSnapshot
  split
  · exact vf_triggerSnapshot _
  · exact VF.refl _

theorem vf_rhRebuildStreams (e : Eng) (l : Leader) : VF e (e.rhRebuildStreams l) := by
  unfold rhRebuildStreams
  exact vf_upd _ (vf_same rfl rfl)

theorem rhInitLoop_quiet {me : NodeId} {v : Repl.LogView} {max : Nat} {ns : List NodeId} {ent : NodeId → Repl.Entry}
    {out : List Cmd} {r : (NodeId → Repl.Entry) × List Cmd} (h0 : ∀ c ∈ out, c.voteless = true)
    (h : rhInitLoop dbg me v max ns ent out = .ok r) : ∀ c ∈ r.2, c.voteless = true := by
  induction ns generalizing ent out with
  | nil => rw [rhInitLoop, pure_ok] at h; subst h; exact h0
  | cons n ns ih =>
    rw [rhInitLoop] at h
    split at h
    · exact ih h0 h
    · rw [bind_ok] at h
      obtain ⟨⟨sent, en⟩, _, h⟩ := h
      dsimp only at h
      split at h
      · rw [bind_ok] at h
        obtain ⟨req, _, h⟩ := h
        refine ih ?_ h
        intro c hc
        rcases List.mem_append.1 hc with hc | hc
        · exact h0 c hc
        · rw [List.mem_singleton] at hc; subst hc; rfl
      · exact ih h0 h

theorem vf_rhInitiate (e : Eng) (l : Leader) : VFR id e (e.rhInitiate dbg l) := by
  unfold rhInitiate
  intro e' he
  rw [bind_ok] at he
  obtain ⟨⟨ent, cmds⟩, hp, he⟩ := he
  rw [pure_ok] at he; subst he
  exact ⟨cmds, rfl, VFlow.quiets (rhInitLoop_quiet (by simp) hp)⟩

theorem vf_rhAppendMembership (e : Eng) (l : Leader) (i : LogId) (m : Membership) :
    VFR id e (e.rhAppendMembership dbg l i m) := by
  unfold rhAppendMembership
  refine VFR.bind fun _ => VFR.bind fun _ => VFR.bind fun ms => VFR.bind fun l2 => ?_
  refine VFR.from' ?_ (vf_rhInitiate _ _)
  exact (vf_same (e1 := { e with st := { e.st with ms := ms } }) rfl rfl).trans (vf_rhRebuildStreams _ _)

theorem vf_rhTryCommit (e : Eng) (g : Option LogId) : VFR id e (e.rhTryCommit dbg g) := by
  unfold rhTryCommit
  split
  · exact VFR.pure (VF.refl _)
  · split
    · refine VFR.bindI fun p hp => ?_
      obtain ⟨ch, st⟩ := p
      have hv := congrArg Leased.data (updateCommitted_vote hp)
      dsimp only
      split
      · refine VFR.pure (VF.trans ?_ (vf_maybeSnapshot _))
        refine vf_upd (e1 := Eng.push (Eng.push { e with st := st } _) _) _ ?_
        refine vf_upd (e1 := Eng.push { e with st := st } _) _ ?_
        exact vf_upd (e1 := { e with st := st }) _ (vf_same hv rfl)
      · exact VFR.pure (VF.refl _)
    · exact VFR.pure (VF.refl _)

theorem vf_rhUpdateMatching (e : Eng) (l : Leader) (n : NodeId) (m : Option LogId) :
    VFR id e (e.rhUpdateMatching dbg l n m) := by
  unfold rhUpdateMatching
  refine VFR.bind fun _ => VFR.bind fun _ => VFR.bind fun en => VFR.bind fun vp => ?_
  exact VFR.from' (vf_same rfl rfl) (vf_rhTryCommit _ _)

theorem vf_rhUpdateConflicting (e : Eng) (l : Leader) (n : NodeId) (c : LogId) :
    VFR id e (e.rhUpdateConflicting dbg l n c) := by
  unfold rhUpdateConflicting
  exact VFR.bind fun _ => VFR.bind fun _ => VFR.pure (vf_same rfl rfl)

theorem vf_rhTryPurge (e : Eng) (l : Leader) : VF e (e.rhTryPurge l) := by
  unfold rhTryPurge
  split
  · exact VF.refl _
  · split
    · exact VF.refl _
    · split
      · exact VF.refl _
      · exact vf_logPurge _

theorem vf_rhFailed (e : Eng) (l : Leader) (n : NodeId) : VFR id e (e.rhFailed l n) := by
  unfold rhFailed
  exact VFR.bind fun _ => VFR.pure (vf_same rfl rfl)

theorem vf_rhUpdateProgress (e : Eng) (l : Leader) (n : NodeId) (r : ReplResult) :
    VFR id e (e.rhUpdateProgress dbg l n r) := by
  unfold rhUpdateProgress
  have hgo : ∀ x : Res Eng, VFR id e x → VFR id e (x >>= fun e1 => (unwrap e1.leader >>= fun l1 => (pure (rhTryPurge e1 l1) : Res Eng))) :=
    fun x hx => VFR.bindE id hx fun b => VFR.bind fun l1 => VFR.pure (vf_rhTryPurge _ _)
  cases r with
  | matching m => exact hgo _ (vf_rhUpdateMatching _ _ _ _)
  | conflict c => exact hgo _ (vf_rhUpdateConflicting _ _ _ _)
  | failed => exact hgo _ (vf_rhFailed _ _ _)

theorem vf_rhUpdateClock (e : Eng) (l : Leader) (n : NodeId) (t : Nat) : VFR id e (e.rhUpdateClock l n t) := by
  unfold rhUpdateClock
  exact VFR.bind fun _ => VFR.pure (vf_same rfl rfl)

theorem vf_rhUpdateLocal (e : Eng) (l : Leader) (u : Option LogId) : VFR id e (e.rhUpdateLocal dbg l u) := by
  unfold rhUpdateLocal
  split
  · exact VFR.pure (VF.refl _)
  · split
    · split
      · exact VFR.pure (VF.refl _)
      · exact vf_rhUpdateMatching _ _ _ _
    · exact VFR.pure (VF.refl _)

theorem vf_lhMembership (e : Eng) (l : Leader) (m : Option StoredMem) : VFR id e (e.lhMembership dbg l m) := by
  unfold lhMembership
  split
  · exact vf_rhAppendMembership _ _ _ _
  · exact VFR.pure (VF.refl _)

theorem vf_lhAppend (e : Eng) (l : Leader) (ps : List Payload) : VFR id e (e.lhAppend dbg l ps) := by
  unfold lhAppend
  split
  · exact VFR.pure (VF.refl _)
  · refine VFR.bind fun _ => VFR.bind fun ids => VFR.bind fun _ => VFR.bindI fun st hst => ?_
    have hv := congrArg Leased.data (acceptIo_vote hst)
    refine VFR.from' (e1 := Eng.push { e with st := st, leader := some { l with
      lastLogId := (assign l.vote.leaderId (nextIndex l.lastLogId) ps).getLast?.map (·.id) } }
      (.append l.vote (assign l.vote.leaderId (nextIndex l.lastLogId) ps)))
      (vf_upd _ (vf_same hv rfl)) (VFR.bindE id (vf_lhMembership _ _ _) fun e2 => ?_)
    exact VFR.bind fun l2 => vf_rhInitiate _ _

theorem vf_lhTransfer (e : Eng) (l : Leader) (t : NodeId) : VF e (e.lhTransfer l t) :=
  vf_upd _ (vf_same rfl rfl)

theorem vf_updateServerState  (e : Eng) : VF e e.updateServerState := vf_same rfl rfl

theorem vf_becomeNewLeader (e : Eng) : VFR id e (e.becomeNewLeader dbg now) := by
  unfold becomeNewLeader
  refine VFR.bind fun l => VFR.bindI fun st hst => VFR.bind fun l2 => ?_
  have hv := congrArg Leased.data (acceptIo_vote hst)
  have h1 : VF e (rhRebuildStreams (updateServerState (Eng.push { e with st := st, leader := some l } (.updateIO none (IOId.newLog l.vote l.lastLogId)))) l) :=
    ((vf_upd (e1 := { e with st := st, leader := some l }) _ (vf_same hv rfl)).trans (vf_updateServerState _)).trans (vf_rhRebuildStreams _ _)
  split
  · exact VFR.from' h1 (vf_lhAppend _ _ _)
  · exact VFR.from' h1 (vf_rhInitiate _ _)

theorem vf_becomeLeader (e : Eng) : VFR id e (e.becomeLeader dbg now) := by
  unfold becomeLeader
  split
  · split
    · exact VFR.pure (vf_same rfl rfl)
    · exact vf_becomeNewLeader _
  · exact vf_becomeNewLeader _

theorem vf_becomeFollowing (e : Eng) : VFR id e (e.becomeFollowing dbg) := by
  unfold becomeFollowing
  exact VFR.bind fun _ => VFR.pure (vf_same rfl rfl)

theorem vf_updateInternal (e : Eng) : VFR id e (e.updateInternal dbg now) := by
  unfold updateInternal
  split
  · exact vf_becomeLeader _
  · split
    · exact VFR.pure (VF.refl _)
    · exact vf_becomeFollowing _

theorem vf_storeVote (e : Eng) (lease : Nat) (v : Vote) : VFR id e (e.storeVote dbg now lease v) := by
  unfold storeVote
  split
  · next hlt =>
    refine VFR.bindI fun st hst => VFR.pure ?_
    have hv : st.vote.data = v := congrArg Leased.data (acceptIo_vote hst)
    exact ⟨[.saveVote v], rfl, hlt, hv⟩
  · exact VFR.bindI fun vt hvt => VFR.pure (vf_same (touch_data hvt) rfl)

theorem vf_updateVote (e : Eng) (v : Vote) : VFR Prod.snd e (e.updateVote dbg now v) := by
  unfold updateVote
  split
  · refine VFR.bindE id (vf_storeVote _ _ _) fun e1 => VFR.bindE id (vf_updateInternal _) fun e2 => ?_
    exact VFR.pure (VF.refl _)
  · exact VFR.pure (VF.refl _)

/-- commands that store no vote -/
def NoSave (c : Cmd) : Prop := ∀ v, c ≠ .saveVote v
instance : Lets NoSave := ⟨fun c hc v h => by subst h; cases hc⟩
instance : LetsTrunc NoSave := ⟨fun _ _ h => by cases h⟩
instance : LetsPurge NoSave := ⟨fun _ _ h => by cases h⟩
instance : LetsInstall NoSave := ⟨fun _ _ _ h => by cases h⟩

theorem _root_.Openraft.Engine.VFlow.noSave {a b : Vote} {cs : List Cmd} (h : VFlow a cs b) (hc : ∀ c ∈ cs, NoSave c) : b = a := by
  induction cs generalizing a with
  | nil => exact h
  | cons x xs ih =>
    have ht := fun c h => hc c (List.mem_cons_of_mem _ h)
    cases x with
    | saveVote u => exact absurd rfl (hc (.saveVote u) (by simp) u)
    | respond _ _ r => exact ih h.2 ht
    | _ => exact ih h ht

theorem _root_.Openraft.Engine.VF.noSave {e e' : Eng} (h : VF e e') (k : Emits NoSave e e') : e'.st.vote.data = e.st.vote.data := by
  obtain ⟨cs, h1, h2⟩ := h
  obtain ⟨ds, k1, k2⟩ := k
  rw [h1] at k1
  obtain rfl := List.append_cancel_left k1
  exact h2.noSave k2

theorem storeVote_vote {e e1 : Eng} {lease : Nat} {v : Vote} (hle : e.st.vote.data ≤ v) (h : storeVote dbg now lease e v = .ok e1) :
    e1.st.vote.data = v := by
  unfold storeVote at h
  split at h
  · rw [bind_ok] at h
    obtain ⟨st, hst, h⟩ := h
    rw [pure_ok] at h; subst h
    exact congrArg Leased.data (acceptIo_vote hst)
  · next hn =>
    rw [bind_ok] at h
    obtain ⟨vt, hvt, h⟩ := h
    rw [pure_ok] at h; subst h
    exact (touch_data hvt).trans (le_antisymm hle (not_lt.1 hn))

/-- a vote that is accepted is the vote of the node then -/
theorem updateVote_vote {e e1 : Eng} {v : Vote} (h : e.updateVote dbg now v = .ok (true, e1)) : e1.st.vote.data = v := by
  unfold updateVote at h
  split at h
  · next hle =>
    rw [bind_ok] at h
    obtain ⟨e2, h2, h⟩ := h
    rw [bind_ok] at h
    obtain ⟨e3, h3, h⟩ := h
    rw [pure_ok] at h; cases h
    exact ((vf_updateInternal _ _ h3).noSave (emits_updateInternal _ _ h3)).trans (storeVote_vote hle h2)
  · rw [pure_ok] at h; cases h

theorem vf_respond (e : Eng) (w : Option Cond) (tx : Nat) (r : Resp) (h : ∀ a ∈ voteOf r, a = e.st.vote.data) :
    VF e (e.push (.respond w tx r)) := ⟨[.respond w tx r], rfl, h, rfl⟩

theorem vf_fhTruncate (e : Eng) (i : Nat) : VFR id e (e.fhTruncate dbg i) := by
  unfold fhTruncate
  refine VFR.bind fun _ => ?_
  split
  · exact VFR.pure (VF.refl _)
  · refine VFR.bind fun ms => ?_
    dsimp only
    split
    · exact VFR.pure ((vf_upd _ (vf_same rfl rfl)).trans (vf_updateServerState _))
    · exact VFR.pure (vf_upd _ (vf_same rfl rfl))

theorem vf_fhAppendMembership (e : Eng) (es : List Ent) : VFR id e (e.fhAppendMembership dbg es) := by
  unfold fhAppendMembership
  split
  · exact VFR.pure (VF.refl _)
  · exact VFR.bind fun ms => VFR.pure (vf_same rfl rfl)

theorem vf_fhDoAppend (e : Eng) (v : Vote) (es : List Ent) : VFR id e (e.fhDoAppend dbg v es) := by
  unfold fhDoAppend
  refine VFR.bind fun _ => VFR.bind fun _ => VFR.bind fun _ => ?_
  refine VFR.from' (e1 := { e with st := { e.st with logIds := LogIdList.extend e.st.logIds (es.map (·.id)) } })
    (vf_same rfl rfl) (VFR.bindE id (vf_fhAppendMembership _ _) fun e1 => VFR.pure (vf_push _ _))

theorem vf_fhAppendEntries (e : Eng) (v : Vote) (prev : Option LogId) (es : List Ent) :
    VFR id e (e.fhAppendEntries dbg v prev es) := by
  unfold fhAppendEntries
  refine VFR.bind fun _ => VFR.bindI fun st hst => VFR.bind fun since => ?_
  have hv := congrArg Leased.data (acceptIo_vote hst)
  split
  · refine VFR.from' (e1 := { e with st := st }) (vf_same hv rfl)
      (VFR.bindE id (vf_fhTruncate _ _) fun e1 => vf_fhDoAppend _ _ _)
  · split
    · exact VFR.pure (vf_same hv rfl)
    · exact VFR.pure (vf_upd (e1 := { e with st := st }) _ (vf_same hv rfl))

theorem vf_fhEnsure (e : Eng) (prev : Option LogId) : VFR Prod.snd e (e.fhEnsure dbg prev) := by
  unfold fhEnsure
  split
  · exact VFR.pure (VF.refl _)
  · refine VFR.bind fun b => ?_
    split
    · exact VFR.pure (VF.refl _)
    · exact VFR.bindE id (vf_fhTruncate _ _) fun e1 => VFR.pure (VF.refl _)

theorem vf_fhCommit (e : Eng) (lc : Option LogId) : VFR id e (e.fhCommit dbg lc) := by
  unfold fhCommit
  refine VFR.bindI fun p hp => ?_
  obtain ⟨ch, st⟩ := p
  have hv := congrArg Leased.data (updateCommitted_vote hp)
  dsimp only
  split
  · refine VFR.bind fun i => VFR.pure (VF.trans ?_ (vf_maybeSnapshot _))
    refine vf_upd (e1 := Eng.push { e with st := st } _) _ ?_
    exact vf_upd (e1 := { e with st := st }) _ (vf_same hv rfl)
  · exact VFR.pure (VF.refl _)

theorem vf_fhInstallTruncate (e : Eng) (l : LogId) : VFR id e (e.fhInstallTruncate dbg l) := by
  unfold fhInstallTruncate
  split
  · split
    · exact vf_fhTruncate _ _
    · exact VFR.pure (VF.refl _)
  · exact VFR.pure (VF.refl _)

theorem vf_fhInstall (e : Eng) (v : Vote) (m : SnapMeta) : VFR Prod.snd e (e.fhInstall dbg v m) := by
  unfold fhInstall
  split
  · exact VFR.pure (VF.refl _)
  · refine VFR.bind fun last => ?_
    have hu := vf_updateSnapshot e m
    split
    · next e1 he => rw [he] at hu; exact VFR.pure hu
    · next e1 he =>
      rw [he] at hu
      refine VFR.from' hu (VFR.bindE id (vf_fhInstallTruncate _ _) fun e2 => ?_)
      refine VFR.bindI fun st hst => VFR.bind fun ms => VFR.pure ?_
      have hv : st.vote.data = e2.st.vote.data := congrArg Leased.data (acceptIo_vote hst)
      refine VF.trans ?_ (vf_logPurge _)
      exact (vf_upd (e := e2) (.sm (.install m (IOId.newLog v (some last))))
        (e1 := updateServerState { e2 with st := { st with committed := some last, ms := ms } }) (vf_same hv rfl)).trans (vf_same rfl rfl)

theorem vf_startup (e : Eng) : VFR id e (e.startup dbg now) := by
  unfold startup
  split
  · exact vf_updateInternal _
  · exact VFR.pure (vf_same rfl rfl)

theorem vf_elect (e : Eng) : VFR id e (e.elect dbg now) := by
  unfold elect
  refine VFR.from' (e1 := { e with candidate := some (Candidate.new now (Vote.new (e.st.vote.data.leaderId.term + 1) e.cfg.id) e.st.lastLogId e.st.ms.effective.mem) })
    (vf_same rfl rfl) (VFR.bindE Prod.snd (vf_updateVote _ _) fun p => ?_)
  obtain ⟨ok, e2⟩ := p
  refine VFR.bind fun _ => VFR.pure ?_
  exact (vf_push _ _).trans (vf_updateServerState _)

/-- the first command of an election stores the new vote -/
theorem elect_first {e e' : Eng} (h : e.elect dbg now = .ok e') : ∃ u cs, e'.out = e.out ++ .saveVote u :: cs ∧
    e.st.vote.data < u ∧ VFlow u cs e'.st.vote.data ∧ e.st.vote.data.leaderId.term < u.leaderId.term := by
  unfold elect at h
  rw [bind_ok] at h
  obtain ⟨⟨ok, e2⟩, h2, h⟩ := h
  dsimp only at h
  rw [bind_ok] at h
  obtain ⟨_, _, h⟩ := h
  rw [pure_ok] at h; subst h
  have hlt : e.st.vote.data < Vote.new (e.st.vote.data.leaderId.term + 1) e.cfg.id := vote_lt_new _
  unfold updateVote at h2
  rw [if_pos (le_of_lt hlt), bind_ok] at h2
  obtain ⟨e3, h3, h2⟩ := h2
  rw [bind_ok] at h2
  obtain ⟨e4, h4, h2⟩ := h2
  rw [pure_ok] at h2; cases h2
  unfold storeVote at h3
  rw [if_pos hlt, bind_ok] at h3
  obtain ⟨st, hst, h3⟩ := h3
  rw [pure_ok] at h3; subst h3
  have hv : st.vote.data = Vote.new (e.st.vote.data.leaderId.term + 1) e.cfg.id := congrArg Leased.data (acceptIo_vote hst)
  obtain ⟨cs, hc1, hc2⟩ := ((vf_updateInternal _ _ h4).trans (vf_push e2 (.sendVote (Vote.new (e.st.vote.data.leaderId.term + 1) e.cfg.id)
    e.st.lastLogId))).trans (vf_updateServerState _)
  refine ⟨_, cs, hc1.trans ?_, hlt, ?_, Nat.lt_succ_self _⟩
  · show (e.out ++ [_]) ++ cs = _
    rw [List.append_assoc]; rfl
  · have : VFlow st.vote.data cs _ := hc2
    rw [hv] at this; exact this

theorem fhDoAppend_out {e e' : Eng} {v : Vote} {es : List Ent} (h : fhDoAppend dbg e v es = .ok e') :
    e'.out = e.out ++ [.append v es] ∧ e'.st.vote = e.st.vote := by
  unfold fhDoAppend at h
  iterate 3
    rw [bind_ok] at h
    obtain ⟨_, _, h⟩ := h
  rw [bind_ok] at h
  obtain ⟨e1, h1, h⟩ := h
  rw [pure_ok] at h; subst h
  unfold fhAppendMembership at h1
  split at h1
  · rw [pure_ok] at h1; subst h1; exact ⟨rfl, rfl⟩
  · rw [bind_ok] at h1
    obtain ⟨ms, _, h1⟩ := h1
    rw [pure_ok] at h1; subst h1; exact ⟨rfl, rfl⟩

theorem vf_initCluster (e : Eng) (m : Membership) : VFR Prod.snd e (e.initCluster dbg now m) := by
  unfold initCluster
  split
  · exact VFR.pure (VF.refl _)
  · split
    · exact VFR.pure (VF.refl _)
    · next hi hv =>
      intro a ha
      rw [bind_ok] at ha
      obtain ⟨v, _, ha⟩ := ha
      rw [bind_ok] at ha
      obtain ⟨e2, h2, ha⟩ := ha
      rw [bind_ok] at ha
      obtain ⟨e3, h3, ha⟩ := ha
      rw [pure_ok] at ha; subst ha
      obtain ⟨hx1, hx2⟩ := fhDoAppend_out h2
      obtain ⟨u, ys, hy1, hy2, hy3, hy4⟩ := elect_first h3
      have hvv : e2.st.vote.data = ⟨⟨0, 0⟩, true⟩ := congrArg Leased.data hx2
      have hev : e.st.vote.data = ⟨⟨0, 0⟩, false⟩ := by
        have hi : e.st.isInitialized = false := by simpa using hi
        simp only [RState.isInitialized, Bool.or_eq_false_iff, decide_eq_false_iff_not, not_not] at hi
        exact hi.2
      refine ⟨.append v [⟨⟨⟨0, 0⟩, 0⟩, .membership m⟩] :: .saveVote u :: ys, ?_, ?_, hy3⟩
      · show e3.out = _
        rw [hy1, hx1]
        simp
      rw [hev]
      refine lt_trans ?_ (hvv ▸ hy2)
      decide

theorem vf_handleVoteReq (e : Eng) (v : Vote) (last : Option LogId) :
    VFR Prod.snd e (e.handleVoteReq dbg now v last) := by
  unfold handleVoteReq
  split
  · exact VFR.pure (VF.refl _)
  · split
    · refine VFR.bindE Prod.snd (vf_updateVote _ _) fun p => ?_
      exact VFR.pure (VF.refl _)
    · exact VFR.pure (VF.refl _)

theorem vf_establishLeader (e : Eng) : VFR id e (e.establishLeader dbg now) := by
  unfold establishLeader
  refine VFR.bind fun c => VFR.bind fun o => ?_
  split
  · exact VFR.pure (vf_same rfl rfl)
  · next l =>
    refine VFR.from' (e1 := rhRebuildStreams { e with candidate := none, leader := some l } l)
      ((vf_same rfl rfl).trans (vf_rhRebuildStreams _ _)) (VFR.bindE Prod.snd (vf_updateVote _ _) fun p => ?_)
    obtain ⟨ok, e2⟩ := p
    refine VFR.bind fun _ => VFR.bindI fun st hst => VFR.bind fun lo => VFR.bind fun l3 => ?_
    have hv : st.vote.data = e2.st.vote.data := congrArg Leased.data (acceptIo_vote hst)
    exact VFR.from' (e1 := { e2 with st := st }) (vf_same hv rfl) (vf_lhAppend _ _ _)

theorem vf_handleVoteResp (e : Eng) (t : NodeId) (v : Vote) (last : Option LogId) (g : Bool) :
    VFR id e (e.handleVoteResp dbg now t v last g) := by
  unfold handleVoteResp
  split
  · exact VFR.pure (VF.refl _)
  · split
    · refine VFR.bind fun c1 => ?_
      dsimp only
      split
      · exact VFR.from' (vf_same rfl rfl) (vf_establishLeader _)
      · exact VFR.pure (vf_same rfl rfl)
    · refine VFR.from' (e1 := if e.st.lastLogId < last then { e with seenGreater := true } else e) ?_
        (VFR.bindE Prod.snd (vf_updateVote _ _) fun p => VFR.pure (VF.refl _))
      split
      · exact vf_same rfl rfl
      · exact VF.refl _

theorem vf_appendEntries (e : Eng) (v : Vote) (prev : Option LogId) (es : List Ent) :
    VFR Prod.snd e (e.appendEntries dbg now v prev es) := by
  unfold appendEntries
  refine VFR.bindE Prod.snd (vf_updateVote _ _) fun p => ?_
  obtain ⟨ok, e1⟩ := p
  dsimp only
  split
  · refine VFR.bind fun lv => VFR.bindE Prod.snd (vf_fhEnsure _ _) fun p => ?_
    obtain ⟨ok2, e2⟩ := p
    dsimp only
    split
    · exact VFR.bindE id (vf_fhAppendEntries _ _ _ _) fun e3 => VFR.pure (VF.refl _)
    · exact VFR.pure (VF.refl _)
  · exact VFR.pure (VF.refl _)

theorem appendEntries_vote {e e1 : Eng} {v : Vote} {prev : Option LogId} {es : List Ent} {r : AppendResp}
    (h : e.appendEntries dbg now v prev es = .ok (r, e1)) (hr : r = .success) : e1.st.vote.data = v := by
  unfold appendEntries at h
  rw [bind_ok] at h
  obtain ⟨⟨ok, e2⟩, h2, h⟩ := h
  dsimp only at h
  split at h
  · next hok =>
    subst hok
    rw [bind_ok] at h
    obtain ⟨lv, _, h⟩ := h
    rw [bind_ok] at h
    obtain ⟨⟨ok2, e3⟩, h3, h⟩ := h
    dsimp only at h
    split at h
    · rw [bind_ok] at h
      obtain ⟨e4, h4, h⟩ := h
      rw [pure_ok] at h; cases h
      refine ((vf_fhAppendEntries _ _ _ _ _ h4).noSave (emits_fhAppendEntries _ _ _ _ _ h4)).trans ?_
      have := (vf_fhEnsure _ _ _ h3).noSave (emits_fhEnsure _ _ _ h3)
      exact this.trans (updateVote_vote h2)
    · rw [pure_ok] at h; cases h; cases hr
  · rw [pure_ok] at h; cases h; cases hr

theorem appendEntries_higher {e e1 : Eng} {v w : Vote} {prev : Option LogId} {es : List Ent}
    (h : e.appendEntries dbg now v prev es = .ok (.higherVote w, e1)) : w = e1.st.vote.data := by
  unfold appendEntries at h
  rw [bind_ok] at h
  obtain ⟨⟨ok, e2⟩, h2, h⟩ := h
  dsimp only at h
  split at h
  · rw [bind_ok] at h
    obtain ⟨lv, _, h⟩ := h
    rw [bind_ok] at h
    obtain ⟨⟨ok2, e3⟩, h3, h⟩ := h
    dsimp only at h
    split at h
    · rw [bind_ok] at h
      obtain ⟨e4, h4, h⟩ := h
      rw [pure_ok] at h; cases h
    · rw [pure_ok] at h; cases h
  · rw [pure_ok] at h; cases h; rfl

theorem handleVoteReq_vote {e : Eng} {v : Vote} {last : Option LogId} {p : Resp × Eng}
    (h : e.handleVoteReq dbg now v last = .ok p) : ∀ a ∈ voteOf p.1, a = p.2.st.vote.data := by
  unfold handleVoteReq at h
  split at h
  · rw [pure_ok] at h; subst h; intro a ha; simpa [voteOf] using ha.symm
  · split at h
    · rw [bind_ok] at h
      obtain ⟨⟨ok, e1⟩, _, h⟩ := h
      rw [pure_ok] at h; subst h; intro a ha; simpa [voteOf] using ha.symm
    · rw [pure_ok] at h; subst h; intro a ha; simpa [voteOf] using ha.symm

theorem vf_handleAppend (e : Eng) (tx : Nat) (v : Vote) (prev : Option LogId) (es : List Ent) (lc : Option LogId) :
    VFR id e (e.handleAppend dbg now tx v prev es lc) := by
  unfold handleAppend
  refine VFR.bindEI Prod.snd (vf_appendEntries _ _ _ _) fun p hp => ?_
  obtain ⟨r, e1⟩ := p
  dsimp only
  split
  · next hr =>
    subst hr
    refine VFR.bind fun acc => VFR.bind fun _ => ?_
    refine VFR.from' (vf_respond _ _ _ _ fun a ha => ?_) (vf_fhCommit _ _)
    have : a = v := by simpa [voteOf] using ha.symm
    exact this.trans (appendEntries_vote hp rfl).symm
  · next hr =>
    refine VFR.pure (vf_respond _ _ _ _ fun a ha => ?_)
    cases r with
    | success => exact absurd rfl hr
    | conflict => cases ha
    | higherVote w =>
      have : a = w := by simpa [voteOf] using ha.symm
      exact this.trans (appendEntries_higher hp)

theorem vf_handleInstall (e : Eng) (tx : Nat) (v : Vote) (m : SnapMeta) :
    VFR id e (e.handleInstall dbg now tx v m) := by
  unfold handleInstall
  refine VFR.bindE Prod.snd (vf_updateVote _ _) fun p => ?_
  obtain ⟨ok, e1⟩ := p
  dsimp only
  split
  · refine VFR.bind fun lv => VFR.bindE Prod.snd (vf_fhInstall _ _ _) fun p => ?_
    exact VFR.pure (vf_respond _ _ _ _ fun a ha => by simpa [voteOf] using ha.symm)
  · exact VFR.pure (vf_respond _ _ _ _ fun a ha => by simpa [voteOf] using ha.symm)

theorem vf_leaderStepDown (e : Eng) : VFR id e (e.leaderStepDown dbg now) := by
  unfold leaderStepDown
  split
  · exact vf_updateInternal _
  · exact VFR.pure (VF.refl _)

theorem vf_tryPurge (e : Eng) : VF e e.tryPurge := by
  unfold tryPurge
  split
  · exact vf_rhTryPurge _ _
  · exact vf_logPurge _

theorem vf_finishBuilding (e : Eng) (m : SnapMeta) : VFR id e (e.finishBuilding dbg m) := by
  unfold finishBuilding
  dsimp only
  have hu := vf_updateSnapshot { e with st := { e.st with io := { e.st.io with building := false } } } m
  have h0 : VF e { e with st := { e.st with io := { e.st.io with building := false } } } := vf_same rfl rfl
  split
  · next e1 he => rw [he] at hu; exact VFR.pure (h0.trans hu)
  · next e1 he =>
    rw [he] at hu
    exact VFR.from' (h0.trans hu) (VFR.bindE id (vf_schedulePurge _) fun e2 => VFR.pure (vf_tryPurge _))

theorem vf_triggerPurge (e : Eng) (i : Nat) : VFR id e (e.triggerPurge dbg i) := by
  unfold triggerPurge
  split
  · exact VFR.pure (VF.refl _)
  · split
    · exact VFR.pure (VF.refl _)
    · exact VFR.bind fun x => VFR.bindE id (vf_updatePurgeUpto _ _) fun e1 => VFR.pure (vf_tryPurge _)

theorem vf_triggerTransfer (e : Eng) (t : NodeId) : VFR id e (e.triggerTransfer dbg t) := by
  unfold triggerTransfer
  refine VFR.bind fun o => ?_
  split
  · exact VFR.pure (VF.refl _)
  · exact VFR.pure (vf_lhTransfer _ _ _)

theorem vf_writeEntry (e : Eng) (p : Payload) : VFR Prod.snd e (e.writeEntry dbg p) := by
  unfold writeEntry
  refine VFR.bind fun o => ?_
  split
  · exact VFR.pure (VF.refl _)
  · split
    · exact VFR.pure (VF.refl _)
    · exact VFR.bindE id (vf_lhAppend _ _ _) fun e1 => VFR.bind fun l => VFR.pure (VF.refl _)

theorem vf_changeMembership (e : Eng) (c : ChangeMembers) (r : Bool) : VFR Prod.snd e (e.changeMembership dbg c r) := by
  unfold changeMembership
  split
  · exact VFR.pure (VF.refl _)
  · exact vf_writeEntry _ _

theorem vf_coreHeartbeat (e : Eng) : VFR id e (e.coreHeartbeat dbg) := by
  unfold coreHeartbeat
  refine VFR.bind fun o => ?_
  split
  · exact VFR.pure (VF.refl _)
  · split
    · exact VFR.pure (VF.refl _)
    · exact VFR.pure (vf_push _ _)

theorem vf_tickElection (e : Eng) (en : Bool) : VFR id e (e.tickElection dbg now en) := by
  unfold tickElection
  split
  · exact VFR.pure (VF.refl _)
  · split
    · exact VFR.pure (VF.refl _)
    · split
      · exact VFR.pure (VF.refl _)
      · have hgo : ∀ b : Bool, VFR id e (if b = true then elect dbg now { e with seenGreater := false } else pure e) := by
          intro b
          split
          · exact VFR.from' (vf_same rfl rfl) (vf_elect _)
          · exact VFR.pure (VF.refl _)
        exact hgo _

theorem vf_tickHeartbeat (e : Eng) (en : Bool) (iv : Nat) : VFR id e (e.tickHeartbeat dbg now en iv) := by
  unfold tickHeartbeat
  split
  · exact VFR.pure (VF.refl _)
  · split
    · dsimp only
      split
      · exact VFR.bindE id (vf_coreHeartbeat _) fun e1 => VFR.pure (vf_same rfl rfl)
      · exact VFR.bindE id (VFR.pure (VF.refl _)) fun e1 => VFR.pure (vf_same rfl rfl)
    · exact VFR.pure (VF.refl _)

/-- every input -/
theorem vf_input (e : Eng) (i : Input) : VFR id e (e.input dbg now i) := by
  cases i with
  | appendReq tx v prev es lc => exact vf_handleAppend _ _ _ _ _ _
  | voteReq tx v last =>
    simp only [input, coreVoteReq]
    exact VFR.bindEI Prod.snd (vf_handleVoteReq _ _ _) fun p hp => VFR.pure (vf_respond _ _ _ _ (handleVoteReq_vote hp))
  | snapReq tx v m => exact vf_handleInstall _ _ _ _
  | init tx m =>
    simp only [input, coreInit]
    exact VFR.bindE Prod.snd (vf_initCluster _ _) fun p => VFR.pure (vf_push _ _)
  | write p =>
    simp only [input]
    exact VFR.bindE Prod.snd (vf_writeEntry _ _) fun p => VFR.pure (VF.refl _)
  | change c r =>
    simp only [input]
    exact VFR.bindE Prod.snd (vf_changeMembership _ _ _) fun p => VFR.pure (VF.refl _)
  | handleTransfer v target =>
    simp only [input, coreHandleTransfer]
    split
    · split
      · exact VFR.from' (vf_same rfl rfl) (vf_elect _)
      · exact VFR.pure (vf_same rfl rfl)
    · exact VFR.pure (VF.refl _)
  | electCmd =>
    simp only [input, coreElect]
    split
    · exact vf_elect _
    · exact VFR.pure (VF.refl _)
  | heartbeatCmd => exact vf_coreHeartbeat _
  | snapshotCmd => exact VFR.pure (vf_triggerSnapshot _)
  | purgeCmd i => exact vf_triggerPurge _ _
  | transferCmd t => exact vf_triggerTransfer _ _
  | voteResp target v last granted sender =>
    simp only [input]
    split
    · exact vf_handleVoteResp _ _ _ _ _
    · exact VFR.pure (VF.refl _)
  | higherVote v sender =>
    simp only [input]
    split
    · exact VFR.bindE Prod.snd (vf_updateVote _ _) fun p => VFR.pure (VF.refl _)
    · exact VFR.pure (VF.refl _)
  | tick el hb iv =>
    simp only [input, coreTick]
    refine VFR.bindE id (vf_tickElection _ _) fun e1 => VFR.bindE id (vf_tickHeartbeat _ _ _) fun e2 => ?_
    split
    · exact vf_leaderStepDown _
    · exact VFR.pure (VF.refl _)
  | localIO io =>
    simp only [input, coreLocalIO]
    refine VFR.bind fun p => ?_
    split
    · split
      · split
        · exact VFR.from' (e1 := e.withProg p) (vf_same rfl rfl) (vf_rhUpdateLocal _ _ _)
        · exact VFR.pure (vf_same rfl rfl)
      · exact VFR.pure (vf_same rfl rfl)
    · exact VFR.pure (vf_same rfl rfl)
  | replProgress s target r =>
    simp only [input, coreReplProgress]
    split
    · exact VFR.bind fun l => vf_rhUpdateProgress _ _ _ _
    · exact VFR.pure (VF.refl _)
  | hbProgress s target t =>
    simp only [input, coreHbProgress]
    split
    · exact VFR.bind fun l => vf_rhUpdateClock _ _ _ _
    · exact VFR.pure (VF.refl _)
  | built m =>
    simp only [input, coreBuilt]
    exact VFR.bindE id (vf_finishBuilding _ _) fun e1 => VFR.bind fun s => VFR.pure (vf_same rfl rfl)
  | installed io m =>
    simp only [input, coreInstalled]
    exact VFR.bind fun p => VFR.bind fun s1 => VFR.bind fun s2 => VFR.pure (vf_same rfl rfl)
  | applied last =>
    simp only [input, coreApplied]
    exact VFR.bind fun s => VFR.pure (vf_same rfl rfl)
  | initiate =>
    simp only [input, coreInitiate]
    refine VFR.bind fun o => ?_
    split
    · exact VFR.pure (VF.refl _)
    · exact vf_rhInitiate _ _

end Eng
end Openraft.Engine
