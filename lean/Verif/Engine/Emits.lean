import Verif.Engine.Grow

/-!
# Which commands a handler adds

`Emits P e e'`: the commands that `e'` has after those of `e` satisfy `P`. A `base` command is one that
every handler may add; the others are named in the handlers that add them.
-/

set_option autoImplicit false

namespace Openraft.Engine
open Openraft.Repl (Panic dassert Inflight)
open Openraft.Cluster (Payload)

/-- commands other than those that store a vote, ask for votes, truncate or purge the log, install a snapshot, or answer -/
def Cmd.base : Cmd → Bool
  | .saveVote _ => false
  | .sendVote _ _ => false
  | .truncate _ => false
  | .purge _ => false
  | .sm (.install _ _) => false
  | .respond _ _ _ => false
  | _ => true

/-- the commands added satisfy `P` -/
def Emits (P : Cmd → Prop) (e e' : Eng) : Prop := ∃ cs, e'.out = e.out ++ cs ∧ ∀ c ∈ cs, P c

variable {P : Cmd → Prop}

theorem Emits.refl (e : Eng) : Emits P e e := ⟨[], by simp, by simp⟩
theorem Emits.trans {a b c : Eng} (h : Emits P a b) (k : Emits P b c) : Emits P a c := by
  obtain ⟨x, h1, h2⟩ := h
  obtain ⟨y, k1, k2⟩ := k
  refine ⟨x ++ y, by rw [k1, h1, List.append_assoc], fun c hc => ?_⟩
  rcases List.mem_append.1 hc with hc | hc
  · exact h2 c hc
  · exact k2 c hc


/-- `P` allows the base commands -/
class Lets (P : Cmd → Prop) : Prop where
  ok : ∀ c, c.base = true → P c
/-- `P` allows the base commands other than `RebuildReplicationStreams` -/
class LetsCore (P : Cmd → Prop) : Prop where
  ok : ∀ c, c.base = true → (∀ ts, c ≠ .rebuild ts) → P c
instance (P : Cmd → Prop) [Lets P] : LetsCore P := ⟨fun c h _ => Lets.ok c h⟩
/-- `P` allows the base commands other than `RebuildReplicationStreams` and `AppendInputEntries` -/
class LetsBare (P : Cmd → Prop) : Prop where
  ok : ∀ c, c.base = true → (∀ ts, c ≠ .rebuild ts) → (∀ v es, c ≠ .append v es) → P c
instance (P : Cmd → Prop) [LetsCore P] : LetsBare P := ⟨fun c h h' _ => LetsCore.ok c h h'⟩
/-- `P` allows the base commands other than `RebuildReplicationStreams` and `Replicate` -/
class LetsRow (P : Cmd → Prop) : Prop where
  ok : ∀ c, c.base = true → (∀ ts, c ≠ .rebuild ts) → (∀ t i, c ≠ .replicate t i) → P c
instance (P : Cmd → Prop) [LetsCore P] : LetsRow P := ⟨fun c h h' _ => LetsCore.ok c h h'⟩
/-- `P` allows the base commands other than `RebuildReplicationStreams`, `AppendInputEntries` and `Replicate` -/
class LetsCalm (P : Cmd → Prop) : Prop where
  ok : ∀ c, c.base = true → (∀ ts, c ≠ .rebuild ts) → (∀ v es, c ≠ .append v es) → (∀ t i, c ≠ .replicate t i) → P c
instance (P : Cmd → Prop) [LetsBare P] : LetsCalm P := ⟨fun c h h' h'' _ => LetsBare.ok c h h' h''⟩
instance (P : Cmd → Prop) [LetsRow P] : LetsCalm P := ⟨fun c h h' _ h'' => LetsRow.ok c h h' h''⟩
/-- `P` allows storing a vote -/
class LetsVote (P : Cmd → Prop) : Prop where
  ok : ∀ v, P (.saveVote v)
/-- `P` allows asking for votes -/
class LetsAsk (P : Cmd → Prop) : Prop where
  ok : ∀ v l, P (.sendVote v l)
/-- `P` allows a truncation -/
class LetsTrunc (P : Cmd → Prop) : Prop where
  ok : ∀ x, P (.truncate x)
/-- `P` allows a purge -/
class LetsPurge (P : Cmd → Prop) : Prop where
  ok : ∀ x, P (.purge x)
/-- `P` allows installing a snapshot -/
class LetsInstall (P : Cmd → Prop) : Prop where
  ok : ∀ m i, P (.sm (.install m i))
/-- `P` allows answers -/
class LetsAnswer (P : Cmd → Prop) : Prop where
  ok : ∀ w tx r, P (.respond w tx r)

/-- find the class that allows a command -/
macro "allow" : tactic => `(tactic| first
  | exact Lets.ok _ rfl | exact LetsCore.ok _ rfl (fun _ h => by cases h)
  | exact LetsBare.ok _ rfl (fun _ h => by cases h) (fun _ _ h => by cases h)
  | exact LetsRow.ok _ rfl (fun _ h => by cases h) (fun _ _ h => by cases h)
  | exact LetsCalm.ok _ rfl (fun _ h => by cases h) (fun _ _ h => by cases h) (fun _ _ h => by cases h) | exact LetsVote.ok _ | exact LetsAsk.ok _ _ | exact LetsTrunc.ok _ | exact LetsPurge.ok _
  | exact LetsInstall.ok _ _ | exact LetsAnswer.ok _ _ _)

/-- `Emits` for a result, `π` picks the engine -/
def EmitsR {α : Type} (P : Cmd → Prop) (π : α → Eng) (e : Eng) (r : Res α) : Prop := ∀ a, r = .ok a → Emits P e (π a)

namespace EmitsR
variable {α β : Type} {π : α → Eng} {e : Eng}

theorem pure {a : α} (h : Emits P e (π a)) : EmitsR P π e (Pure.pure a) := by
  intro b hb; rw [pure_ok] at hb; subst hb; exact h

theorem ok {a : α} (h : Emits P e (π a)) : EmitsR P π e (Except.ok a) := by
  intro b hb; cases hb; exact h

theorem bind {x : Res β} {f : β → Res α} (h : ∀ b, EmitsR P π e (f b)) : EmitsR P π e (x >>= f) := by
  intro a ha; rw [bind_ok] at ha
  obtain ⟨b, _, hb⟩ := ha; exact h b a hb

theorem bindE (π' : β → Eng) {x : Res β} {f : β → Res α} (hx : EmitsR P π' e x) (h : ∀ b, EmitsR P π (π' b) (f b)) :
    EmitsR P π e (x >>= f) := by
  intro a ha; rw [bind_ok] at ha
  obtain ⟨b, hx', hb⟩ := ha; exact (hx b hx').trans (h b a hb)

theorem from' {e1 : Eng} {r : Res α} (h : Emits P e e1) (k : EmitsR P π e1 r) : EmitsR P π e r :=
  fun a ha => h.trans (k a ha)

theorem rebase {e1 : Eng} {r : Res α} (h : EmitsR P π e1 r) (k : Emits P e e1) : EmitsR P π e r := from' k h

end EmitsR

/-- the inputs that may purge logs -/
def Input.mayPurge : Input → Bool
  | .snapReq _ _ _ => true
  | .purgeCmd _ => true
  | .replProgress _ _ _ => true
  | .built _ => true
  | _ => false

/-- requests of a leader -/
def Input.fromLeader : Input → Bool
  | .appendReq _ _ _ _ _ => true
  | .snapReq _ _ _ => true
  | _ => false

/-- requests that are answered with a `Respond` command -/
def Input.asks : Input → Bool
  | .appendReq _ _ _ _ _ | .voteReq _ _ _ | .snapReq _ _ _ | .init _ _ => true
  | _ => false

namespace Eng
variable {dbg : Bool} {now : Nat}

theorem emits_push (e : Eng) (c : Cmd) (h : P c := by allow) : Emits P e (e.push c) := ⟨[c], rfl, by simpa using h⟩

theorem emits_upd {e e1 : Eng} (c : Cmd) (h : Emits P e e1) (hc : P c := by allow) : Emits P e (e1.push c) :=
  h.trans (emits_push _ _ hc)

theorem emits_same {e e1 : Eng} (_ : e1.cfg = e.cfg) (h2 : e1.out = e.out) : Emits P e e1 :=
  ⟨[], by simp [h2], by simp⟩

theorem emits_logPurge [LetsCalm P] [LetsPurge P] (e : Eng) : Emits P e e.logPurge := by
  unfold logPurge
  split
  · exact Emits.refl _
  · split
    · exact Emits.refl _
    · exact emits_upd _ (emits_same rfl rfl)

theorem emits_updatePurgeUpto [LetsCalm P] (e : Eng) (x : LogId) : EmitsR P id e (e.updatePurgeUpto dbg x) := by
  unfold updatePurgeUpto
  exact EmitsR.bind fun _ => EmitsR.pure (emits_same rfl rfl)

theorem emits_schedulePurge [LetsCalm P] (e : Eng) : EmitsR P id e (e.schedulePurge dbg) := by
  unfold schedulePurge
  refine EmitsR.bind fun o => ?_
  split
  · exact emits_updatePurgeUpto _ _
  · exact EmitsR.pure (Emits.refl _)

theorem emits_triggerSnapshot [LetsCalm P] (e : Eng) : Emits P e e.triggerSnapshot := by
  unfold triggerSnapshot
  split
  · exact Emits.refl _
  · exact emits_upd _ (emits_same rfl rfl)

theorem emits_updateSnapshot  (e : Eng) (m : SnapMeta) : Emits P e (e.updateSnapshot m).2 := by
  unfold updateSnapshot
  split
  · exact Emits.refl _
  · exact emits_same rfl rfl

theorem emits_maybeSnapshot [LetsCalm P] (e : Eng) : Emits P e e.maybeSnapshot := by
  unfold maybeSnapshot
  split
  · exact emits_triggerSnapshot _
  · exact Emits.refl _

theorem emits_rhRebuildStreams [Lets P] (e : Eng) (l : Leader) : Emits P e (e.rhRebuildStreams l) := by
  unfold rhRebuildStreams
  exact emits_upd _ (emits_same rfl rfl)

theorem rhInitLoop_cmds [LetsBare P] {me : NodeId} {v : Repl.LogView} {max : Nat} {ns : List NodeId} {ent : NodeId → Repl.Entry}
    {out : List Cmd} {r : (NodeId → Repl.Entry) × List Cmd} (h0 : ∀ c ∈ out, P c)
    (h : rhInitLoop dbg me v max ns ent out = .ok r) : ∀ c ∈ r.2, P c := by
  induction ns generalizing ent out with
  | nil => rw [rhInitLoop, pure_ok] at h; subst h; exact h0
  | cons n ns ih =>
    rw [rhInitLoop] at h
    split at h
    · exact ih h0 h
    · rw [bind_ok] at h
      obtain ⟨⟨sent, en⟩, _, h⟩ := h
      dsimp only at h
      split at h
      · rw [bind_ok] at h
        obtain ⟨req, _, h⟩ := h
        refine ih ?_ h
        intro c hc
        rcases List.mem_append.1 hc with hc | hc
        · exact h0 c hc
        · rw [List.mem_singleton] at hc; subst hc; allow
      · exact ih h0 h

theorem emits_rhInitiate [LetsBare P] (e : Eng) (l : Leader) : EmitsR P id e (e.rhInitiate dbg l) := by
  unfold rhInitiate
  intro e' he
  rw [bind_ok] at he
  obtain ⟨⟨ent, cmds⟩, hp, he⟩ := he
  rw [pure_ok] at he; subst he
  exact ⟨cmds, rfl, rhInitLoop_cmds (by simp) hp⟩

theorem emits_rhAppendMembership [Lets P] (e : Eng) (l : Leader) (i : LogId) (m : Membership) :
    EmitsR P id e (e.rhAppendMembership dbg l i m) := by
  unfold rhAppendMembership
  refine EmitsR.bind fun _ => EmitsR.bind fun _ => EmitsR.bind fun ms => EmitsR.bind fun l2 => ?_
  refine EmitsR.from' ?_ (emits_rhInitiate _ _)
  exact (emits_same (e1 := { e with st := { e.st with ms := ms } }) rfl rfl).trans (emits_rhRebuildStreams _ _)

theorem emits_rhTryCommit [LetsCalm P] (e : Eng) (g : Option LogId) : EmitsR P id e (e.rhTryCommit dbg g) := by
  unfold rhTryCommit
  split
  · exact EmitsR.pure (Emits.refl _)
  · split
    · refine EmitsR.bind fun p => ?_
      obtain ⟨ch, st⟩ := p
      dsimp only
      split
      · exact EmitsR.pure ((emits_upd _ (emits_upd _ (emits_upd _ (emits_same rfl rfl)))).trans (emits_maybeSnapshot _))
      · exact EmitsR.pure (Emits.refl _)
    · exact EmitsR.pure (Emits.refl _)

theorem emits_rhUpdateMatching [LetsCalm P] (e : Eng) (l : Leader) (n : NodeId) (m : Option LogId) :
    EmitsR P id e (e.rhUpdateMatching dbg l n m) := by
  unfold rhUpdateMatching
  refine EmitsR.bind fun _ => EmitsR.bind fun _ => EmitsR.bind fun en => EmitsR.bind fun vp => ?_
  exact EmitsR.from' (emits_same rfl rfl) (emits_rhTryCommit _ _)

theorem emits_rhUpdateConflicting [LetsCalm P] (e : Eng) (l : Leader) (n : NodeId) (c : LogId) :
    EmitsR P id e (e.rhUpdateConflicting dbg l n c) := by
  unfold rhUpdateConflicting
  exact EmitsR.bind fun _ => EmitsR.bind fun _ => EmitsR.pure (emits_same rfl rfl)

theorem emits_rhTryPurge [LetsCalm P] [LetsPurge P] (e : Eng) (l : Leader) : Emits P e (e.rhTryPurge l) := by
  unfold rhTryPurge
  split
  · exact Emits.refl _
  · split
    · exact Emits.refl _
    · split
      · exact Emits.refl _
      · exact emits_logPurge _

theorem emits_rhFailed [LetsCalm P] (e : Eng) (l : Leader) (n : NodeId) : EmitsR P id e (e.rhFailed l n) := by
  unfold rhFailed
  exact EmitsR.bind fun _ => EmitsR.pure (emits_same rfl rfl)

theorem emits_rhUpdateProgress [LetsCalm P] [LetsPurge P] (e : Eng) (l : Leader) (n : NodeId) (r : ReplResult) :
    EmitsR P id e (e.rhUpdateProgress dbg l n r) := by
  unfold rhUpdateProgress
  have hgo : ∀ x : Res Eng, EmitsR P id e x → EmitsR P id e (x >>= fun e1 => (unwrap e1.leader >>= fun l1 => (pure (rhTryPurge e1 l1) : Res Eng))) :=
    fun x hx => EmitsR.bindE id hx fun b => EmitsR.bind fun l1 => EmitsR.pure (emits_rhTryPurge _ _)
  cases r with
  | matching m => exact hgo _ (emits_rhUpdateMatching _ _ _ _)
  | conflict c => exact hgo _ (emits_rhUpdateConflicting _ _ _ _)
  | failed => exact hgo _ (emits_rhFailed _ _ _)

theorem emits_rhUpdateClock [LetsCalm P] (e : Eng) (l : Leader) (n : NodeId) (t : Nat) : EmitsR P id e (e.rhUpdateClock l n t) := by
  unfold rhUpdateClock
  exact EmitsR.bind fun _ => EmitsR.pure (emits_same rfl rfl)

theorem emits_rhUpdateLocal [LetsCalm P] (e : Eng) (l : Leader) (u : Option LogId) : EmitsR P id e (e.rhUpdateLocal dbg l u) := by
  unfold rhUpdateLocal
  split
  · exact EmitsR.pure (Emits.refl _)
  · split
    · split
      · exact EmitsR.pure (Emits.refl _)
      · exact emits_rhUpdateMatching _ _ _ _
    · exact EmitsR.pure (Emits.refl _)

theorem emits_lhMembership [Lets P] (e : Eng) (l : Leader) (m : Option StoredMem) : EmitsR P id e (e.lhMembership dbg l m) := by
  unfold lhMembership
  split
  · exact emits_rhAppendMembership _ _ _ _
  · exact EmitsR.pure (Emits.refl _)

theorem emits_lhAppend [Lets P] (e : Eng) (l : Leader) (ps : List Payload) : EmitsR P id e (e.lhAppend dbg l ps) := by
  unfold lhAppend
  split
  · exact EmitsR.pure (Emits.refl _)
  · refine EmitsR.bind fun _ => EmitsR.bind fun ids => EmitsR.bind fun _ => EmitsR.bind fun st => ?_
    refine EmitsR.from' (emits_upd _ (emits_same rfl rfl)) (EmitsR.bindE id (emits_lhMembership _ _ _) fun e2 => ?_)
    exact EmitsR.bind fun l2 => emits_rhInitiate _ _

theorem emits_lhTransfer [LetsCalm P] (e : Eng) (l : Leader) (t : NodeId) : Emits P e (e.lhTransfer l t) :=
  emits_upd _ (emits_same rfl rfl)

theorem emits_updateServerState  (e : Eng) : Emits P e e.updateServerState := emits_same rfl rfl

theorem emits_becomeNewLeader [Lets P] (e : Eng) : EmitsR P id e (e.becomeNewLeader dbg now) := by
  unfold becomeNewLeader
  refine EmitsR.bind fun l => EmitsR.bind fun st => EmitsR.bind fun l2 => ?_
  have h1 : Emits P e (rhRebuildStreams (updateServerState (Eng.push { e with st := st, leader := some l } (.updateIO none (IOId.newLog l.vote l.lastLogId)))) l) :=
    ((emits_upd _ (emits_same rfl rfl)).trans (emits_updateServerState _)).trans (emits_rhRebuildStreams _ _)
  split
  · exact EmitsR.from' h1 (emits_lhAppend _ _ _)
  · exact EmitsR.from' h1 (emits_rhInitiate _ _)

theorem emits_becomeLeader [Lets P] (e : Eng) : EmitsR P id e (e.becomeLeader dbg now) := by
  unfold becomeLeader
  split
  · split
    · exact EmitsR.pure (emits_same rfl rfl)
    · exact emits_becomeNewLeader _
  · exact emits_becomeNewLeader _

theorem emits_becomeFollowing [LetsCalm P] (e : Eng) : EmitsR P id e (e.becomeFollowing dbg) := by
  unfold becomeFollowing
  exact EmitsR.bind fun _ => EmitsR.pure (emits_same rfl rfl)

theorem emits_updateInternal [Lets P] (e : Eng) : EmitsR P id e (e.updateInternal dbg now) := by
  unfold updateInternal
  split
  · exact emits_becomeLeader _
  · split
    · exact EmitsR.pure (Emits.refl _)
    · exact emits_becomeFollowing _

theorem emits_storeVote [LetsCalm P] [LetsVote P] (e : Eng) (lease : Nat) (v : Vote) : EmitsR P id e (e.storeVote dbg now lease v) := by
  unfold storeVote
  split
  · exact EmitsR.bind fun st => EmitsR.pure (emits_upd _ (emits_same rfl rfl))
  · exact EmitsR.bind fun vt => EmitsR.pure (emits_same rfl rfl)

theorem emits_updateVote [Lets P] [LetsVote P] (e : Eng) (v : Vote) : EmitsR P Prod.snd e (e.updateVote dbg now v) := by
  unfold updateVote
  split
  · refine EmitsR.bindE id (emits_storeVote _ _ _) fun e1 => EmitsR.bindE id (emits_updateInternal _) fun e2 => ?_
    exact EmitsR.pure (Emits.refl _)
  · exact EmitsR.pure (Emits.refl _)

theorem emits_fhTruncate [LetsCalm P] [LetsTrunc P] (e : Eng) (i : Nat) : EmitsR P id e (e.fhTruncate dbg i) := by
  unfold fhTruncate
  refine EmitsR.bind fun _ => ?_
  split
  · exact EmitsR.pure (Emits.refl _)
  · refine EmitsR.bind fun ms => ?_
    dsimp only
    split
    · exact EmitsR.pure ((emits_upd _ (emits_same rfl rfl)).trans (emits_updateServerState _))
    · exact EmitsR.pure (emits_upd _ (emits_same rfl rfl))

theorem emits_fhAppendMembership [LetsCalm P] (e : Eng) (es : List Ent) : EmitsR P id e (e.fhAppendMembership dbg es) := by
  unfold fhAppendMembership
  split
  · exact EmitsR.pure (Emits.refl _)
  · exact EmitsR.bind fun ms => EmitsR.pure (emits_same rfl rfl)

theorem emits_fhDoAppend [LetsRow P] (e : Eng) (v : Vote) (es : List Ent) : EmitsR P id e (e.fhDoAppend dbg v es) := by
  unfold fhDoAppend
  refine EmitsR.bind fun _ => EmitsR.bind fun _ => EmitsR.bind fun _ => ?_
  refine EmitsR.from' (e1 := { e with st := { e.st with logIds := LogIdList.extend e.st.logIds (es.map (·.id)) } })
    (emits_same rfl rfl) (EmitsR.bindE id (emits_fhAppendMembership _ _) fun e1 => EmitsR.pure (emits_push _ _))

theorem emits_fhAppendEntries [LetsRow P] [LetsTrunc P] (e : Eng) (v : Vote) (prev : Option LogId) (es : List Ent) :
    EmitsR P id e (e.fhAppendEntries dbg v prev es) := by
  unfold fhAppendEntries
  refine EmitsR.bind fun _ => EmitsR.bind fun st => EmitsR.bind fun since => ?_
  split
  · refine EmitsR.from' (e1 := { e with st := st }) (emits_same rfl rfl)
      (EmitsR.bindE id (emits_fhTruncate _ _) fun e1 => emits_fhDoAppend _ _ _)
  · split
    · exact EmitsR.pure (emits_same rfl rfl)
    · exact EmitsR.pure (emits_upd _ (emits_same rfl rfl))

theorem emits_fhEnsure [LetsCalm P] [LetsTrunc P] (e : Eng) (prev : Option LogId) : EmitsR P Prod.snd e (e.fhEnsure dbg prev) := by
  unfold fhEnsure
  split
  · exact EmitsR.pure (Emits.refl _)
  · refine EmitsR.bind fun b => ?_
    split
    · exact EmitsR.pure (Emits.refl _)
    · exact EmitsR.bindE id (emits_fhTruncate _ _) fun e1 => EmitsR.pure (Emits.refl _)

theorem emits_fhCommit [LetsCalm P] (e : Eng) (lc : Option LogId) : EmitsR P id e (e.fhCommit dbg lc) := by
  unfold fhCommit
  refine EmitsR.bind fun p => ?_
  obtain ⟨ch, st⟩ := p
  dsimp only
  split
  · refine EmitsR.bind fun i => ?_
    exact EmitsR.pure ((emits_upd _ (emits_upd _ (emits_same rfl rfl))).trans (emits_maybeSnapshot _))
  · exact EmitsR.pure (Emits.refl _)

theorem emits_fhInstallTruncate [LetsCalm P] [LetsTrunc P] (e : Eng) (l : LogId) : EmitsR P id e (e.fhInstallTruncate dbg l) := by
  unfold fhInstallTruncate
  split
  · split
    · exact emits_fhTruncate _ _
    · exact EmitsR.pure (Emits.refl _)
  · exact EmitsR.pure (Emits.refl _)

theorem emits_fhInstall [LetsCalm P] [LetsTrunc P] [LetsPurge P] [LetsInstall P] (e : Eng) (v : Vote) (m : SnapMeta) : EmitsR P Prod.snd e (e.fhInstall dbg v m) := by
  unfold fhInstall
  split
  · exact EmitsR.pure (Emits.refl _)
  · refine EmitsR.bind fun last => ?_
    have hu := emits_updateSnapshot (P := P) e m
    split
    · next e1 he => rw [he] at hu; exact EmitsR.pure hu
    · next e1 he =>
      rw [he] at hu
      refine EmitsR.from' hu (EmitsR.bindE id (emits_fhInstallTruncate _ _) fun e2 => ?_)
      refine EmitsR.bind fun st => EmitsR.bind fun ms => EmitsR.pure ?_
      refine Emits.trans ?_ (emits_logPurge _)
      exact (emits_upd (e := e2) (.sm (.install m (IOId.newLog v (some last))))
        (e1 := updateServerState { e2 with st := { st with committed := some last, ms := ms } }) (emits_same rfl rfl)).trans (emits_same rfl rfl)

theorem emits_startup [Lets P] (e : Eng) : EmitsR P id e (e.startup dbg now) := by
  unfold startup
  split
  · exact emits_updateInternal _
  · exact EmitsR.pure (emits_same rfl rfl)

theorem emits_elect [Lets P] [LetsVote P] [LetsAsk P] (e : Eng) : EmitsR P id e (e.elect dbg now) := by
  unfold elect
  refine EmitsR.from' (e1 := { e with candidate := some (Candidate.new now (Vote.new (e.st.vote.data.leaderId.term + 1) e.cfg.id) e.st.lastLogId e.st.ms.effective.mem) })
    (emits_same rfl rfl) (EmitsR.bindE Prod.snd (emits_updateVote _ _) fun p => ?_)
  obtain ⟨ok, e2⟩ := p
  refine EmitsR.bind fun _ => EmitsR.pure ?_
  exact (emits_push _ _).trans (emits_updateServerState _)

theorem emits_initCluster [Lets P] [LetsVote P] [LetsAsk P] (e : Eng) (m : Membership) : EmitsR P Prod.snd e (e.initCluster dbg now m) := by
  unfold initCluster
  split
  · exact EmitsR.pure (Emits.refl _)
  · split
    · exact EmitsR.pure (Emits.refl _)
    · refine EmitsR.bind fun v => ?_
      refine EmitsR.from' (e1 := { e with st := { e.st with vote := e.st.vote.update now 0 ⟨⟨0, 0⟩, true⟩ } })
        (emits_same rfl rfl) (EmitsR.bindE id (emits_fhDoAppend _ _ _) fun e2 => EmitsR.bindE id (emits_elect _) fun e3 => ?_)
      exact EmitsR.pure (Emits.refl _)

theorem emits_handleVoteReq [Lets P] [LetsVote P] (e : Eng) (v : Vote) (last : Option LogId) :
    EmitsR P Prod.snd e (e.handleVoteReq dbg now v last) := by
  unfold handleVoteReq
  split
  · exact EmitsR.pure (Emits.refl _)
  · split
    · refine EmitsR.bindE Prod.snd (emits_updateVote _ _) fun p => ?_
      exact EmitsR.pure (Emits.refl _)
    · exact EmitsR.pure (Emits.refl _)

theorem emits_establishLeader [Lets P] [LetsVote P] (e : Eng) : EmitsR P id e (e.establishLeader dbg now) := by
  unfold establishLeader
  refine EmitsR.bind fun c => EmitsR.bind fun o => ?_
  split
  · exact EmitsR.pure (emits_same rfl rfl)
  · next l =>
    refine EmitsR.from' (e1 := rhRebuildStreams { e with candidate := none, leader := some l } l)
      ((emits_same rfl rfl).trans (emits_rhRebuildStreams _ _)) (EmitsR.bindE Prod.snd (emits_updateVote _ _) fun p => ?_)
    obtain ⟨ok, e2⟩ := p
    refine EmitsR.bind fun _ => EmitsR.bind fun st => EmitsR.bind fun lo => EmitsR.bind fun l3 => ?_
    exact EmitsR.from' (emits_same rfl rfl) (emits_lhAppend _ _ _)

theorem emits_handleVoteResp [Lets P] [LetsVote P] (e : Eng) (t : NodeId) (v : Vote) (last : Option LogId) (g : Bool) :
    EmitsR P id e (e.handleVoteResp dbg now t v last g) := by
  unfold handleVoteResp
  split
  · exact EmitsR.pure (Emits.refl _)
  · split
    · refine EmitsR.bind fun c1 => ?_
      dsimp only
      split
      · exact EmitsR.from' (emits_same rfl rfl) (emits_establishLeader _)
      · exact EmitsR.pure (emits_same rfl rfl)
    · refine EmitsR.from' (e1 := if e.st.lastLogId < last then { e with seenGreater := true } else e) ?_
        (EmitsR.bindE Prod.snd (emits_updateVote _ _) fun p => EmitsR.pure (Emits.refl _))
      split
      · exact emits_same rfl rfl
      · exact Emits.refl _

theorem emits_appendEntries [Lets P] [LetsVote P] [LetsTrunc P] (e : Eng) (v : Vote) (prev : Option LogId) (es : List Ent) :
    EmitsR P Prod.snd e (e.appendEntries dbg now v prev es) := by
  unfold appendEntries
  refine EmitsR.bindE Prod.snd (emits_updateVote _ _) fun p => ?_
  obtain ⟨ok, e1⟩ := p
  dsimp only
  split
  · refine EmitsR.bind fun lv => EmitsR.bindE Prod.snd (emits_fhEnsure _ _) fun p => ?_
    obtain ⟨ok2, e2⟩ := p
    dsimp only
    split
    · exact EmitsR.bindE id (emits_fhAppendEntries _ _ _ _) fun e3 => EmitsR.pure (Emits.refl _)
    · exact EmitsR.pure (Emits.refl _)
  · exact EmitsR.pure (Emits.refl _)

theorem emits_handleAppend [Lets P] [LetsAnswer P] [LetsVote P] [LetsTrunc P] (e : Eng) (tx : Nat) (v : Vote) (prev : Option LogId) (es : List Ent) (lc : Option LogId) :
    EmitsR P id e (e.handleAppend dbg now tx v prev es lc) := by
  unfold handleAppend
  refine EmitsR.bindE Prod.snd (emits_appendEntries _ _ _ _) fun p => ?_
  obtain ⟨r, e1⟩ := p
  dsimp only
  split
  · refine EmitsR.bind fun acc => EmitsR.bind fun _ => ?_
    exact EmitsR.from' (emits_push _ _) (emits_fhCommit _ _)
  · exact EmitsR.pure (emits_push _ _)

theorem emits_handleInstall [Lets P] [LetsAnswer P] [LetsVote P] [LetsTrunc P] [LetsPurge P] [LetsInstall P] (e : Eng) (tx : Nat) (v : Vote) (m : SnapMeta) :
    EmitsR P id e (e.handleInstall dbg now tx v m) := by
  unfold handleInstall
  refine EmitsR.bindE Prod.snd (emits_updateVote _ _) fun p => ?_
  obtain ⟨ok, e1⟩ := p
  dsimp only
  split
  · refine EmitsR.bind fun lv => EmitsR.bindE Prod.snd (emits_fhInstall _ _ _) fun p => ?_
    exact EmitsR.pure (emits_push _ _)
  · exact EmitsR.pure (emits_push _ _)

theorem emits_leaderStepDown [Lets P] (e : Eng) : EmitsR P id e (e.leaderStepDown dbg now) := by
  unfold leaderStepDown
  split
  · exact emits_updateInternal _
  · exact EmitsR.pure (Emits.refl _)

theorem emits_tryPurge [LetsCalm P] [LetsPurge P] (e : Eng) : Emits P e e.tryPurge := by
  unfold tryPurge
  split
  · exact emits_rhTryPurge _ _
  · exact emits_logPurge _

theorem emits_finishBuilding [LetsCalm P] [LetsPurge P] (e : Eng) (m : SnapMeta) : EmitsR P id e (e.finishBuilding dbg m) := by
  unfold finishBuilding
  dsimp only
  have hu := emits_updateSnapshot (P := P) { e with st := { e.st with io := { e.st.io with building := false } } } m
  have h0 : Emits P e { e with st := { e.st with io := { e.st.io with building := false } } } := emits_same rfl rfl
  split
  · next e1 he => rw [he] at hu; exact EmitsR.pure (h0.trans hu)
  · next e1 he =>
    rw [he] at hu
    exact EmitsR.from' (h0.trans hu) (EmitsR.bindE id (emits_schedulePurge _) fun e2 => EmitsR.pure (emits_tryPurge _))

theorem emits_triggerPurge [LetsCalm P] [LetsPurge P] (e : Eng) (i : Nat) : EmitsR P id e (e.triggerPurge dbg i) := by
  unfold triggerPurge
  split
  · exact EmitsR.pure (Emits.refl _)
  · split
    · exact EmitsR.pure (Emits.refl _)
    · exact EmitsR.bind fun x => EmitsR.bindE id (emits_updatePurgeUpto _ _) fun e1 => EmitsR.pure (emits_tryPurge _)

theorem emits_triggerTransfer [LetsCalm P] (e : Eng) (t : NodeId) : EmitsR P id e (e.triggerTransfer dbg t) := by
  unfold triggerTransfer
  refine EmitsR.bind fun o => ?_
  split
  · exact EmitsR.pure (Emits.refl _)
  · exact EmitsR.pure (emits_lhTransfer _ _ _)

theorem emits_writeEntry [Lets P] (e : Eng) (p : Payload) : EmitsR P Prod.snd e (e.writeEntry dbg p) := by
  unfold writeEntry
  refine EmitsR.bind fun o => ?_
  split
  · exact EmitsR.pure (Emits.refl _)
  · split
    · exact EmitsR.pure (Emits.refl _)
    · exact EmitsR.bindE id (emits_lhAppend _ _ _) fun e1 => EmitsR.bind fun l => EmitsR.pure (Emits.refl _)

theorem emits_coreHeartbeat [LetsCalm P] (e : Eng) : EmitsR P id e (e.coreHeartbeat dbg) := by
  unfold coreHeartbeat
  refine EmitsR.bind fun o => ?_
  split
  · exact EmitsR.pure (Emits.refl _)
  · split
    · exact EmitsR.pure (Emits.refl _)
    · exact EmitsR.pure (emits_push _ _)

theorem emits_tickElection [Lets P] [LetsVote P] [LetsAsk P] (e : Eng) (en : Bool) : EmitsR P id e (e.tickElection dbg now en) := by
  unfold tickElection
  split
  · exact EmitsR.pure (Emits.refl _)
  · split
    · exact EmitsR.pure (Emits.refl _)
    · split
      · exact EmitsR.pure (Emits.refl _)
      · have hgo : ∀ b : Bool, EmitsR P id e (if b = true then elect dbg now { e with seenGreater := false } else pure e) := by
          intro b
          split
          · exact EmitsR.from' (emits_same rfl rfl) (emits_elect _)
          · exact EmitsR.pure (Emits.refl _)
        exact hgo _

theorem emits_tickHeartbeat [LetsCalm P] (e : Eng) (en : Bool) (iv : Nat) : EmitsR P id e (e.tickHeartbeat dbg now en iv) := by
  unfold tickHeartbeat
  split
  · exact EmitsR.pure (Emits.refl _)
  · split
    · dsimp only
      split
      · exact EmitsR.bindE id (emits_coreHeartbeat _) fun e1 => EmitsR.pure (emits_same rfl rfl)
      · exact EmitsR.bindE id (EmitsR.pure (Emits.refl _)) fun e1 => EmitsR.pure (emits_same rfl rfl)
    · exact EmitsR.pure (Emits.refl _)

/-- inputs but requests of a leader -/
theorem emits_input_no [Lets P] [LetsVote P] [LetsAsk P] (e : Eng) (i : Input) (ha : i.asks = true → LetsAnswer P)
    (hi : i.mayPurge = false) (hl : i.fromLeader = false) : EmitsR P id e (e.input dbg now i) := by
  cases i with
  | appendReq tx v prev es lc => cases hl
  | voteReq tx v last =>
    have := ha rfl
    simp only [input, coreVoteReq]
    exact EmitsR.bindE Prod.snd (emits_handleVoteReq _ _ _) fun p => EmitsR.pure (emits_push _ _)
  | snapReq tx v m => cases hi
  | init tx m =>
    have := ha rfl
    simp only [input, coreInit]
    exact EmitsR.bindE Prod.snd (emits_initCluster _ _) fun p => EmitsR.pure (emits_push _ _)
  | write p =>
    simp only [input]
    exact EmitsR.bindE Prod.snd (emits_writeEntry _ _) fun p => EmitsR.pure (Emits.refl _)
  | change c r =>
    simp only [input]
    refine EmitsR.bindE Prod.snd ?_ fun p => EmitsR.pure (Emits.refl _)
    unfold changeMembership
    split
    · exact EmitsR.pure (Emits.refl _)
    · exact emits_writeEntry _ _
  | handleTransfer v target =>
    simp only [input, coreHandleTransfer]
    split
    · split
      · exact EmitsR.from' (emits_same rfl rfl) (emits_elect _)
      · exact EmitsR.pure (emits_same rfl rfl)
    · exact EmitsR.pure (Emits.refl _)
  | electCmd =>
    simp only [input, coreElect]
    split
    · exact emits_elect _
    · exact EmitsR.pure (Emits.refl _)
  | heartbeatCmd => exact emits_coreHeartbeat _
  | snapshotCmd => exact EmitsR.pure (emits_triggerSnapshot _)
  | purgeCmd i => cases hi
  | transferCmd t => exact emits_triggerTransfer _ _
  | voteResp target v last granted sender =>
    simp only [input]
    split
    · exact emits_handleVoteResp _ _ _ _ _
    · exact EmitsR.pure (Emits.refl _)
  | higherVote v sender =>
    simp only [input]
    split
    · exact EmitsR.bindE Prod.snd (emits_updateVote _ _) fun p => EmitsR.pure (Emits.refl _)
    · exact EmitsR.pure (Emits.refl _)
  | tick el hb iv =>
    simp only [input, coreTick]
    refine EmitsR.bindE id (emits_tickElection _ _) fun e1 => EmitsR.bindE id (emits_tickHeartbeat _ _ _) fun e2 => ?_
    split
    · exact emits_leaderStepDown _
    · exact EmitsR.pure (Emits.refl _)
  | localIO io =>
    simp only [input, coreLocalIO]
    refine EmitsR.bind fun p => ?_
    split
    · split
      · split
        · exact EmitsR.from' (e1 := e.withProg p) (emits_same rfl rfl) (emits_rhUpdateLocal _ _ _)
        · exact EmitsR.pure (emits_same rfl rfl)
      · exact EmitsR.pure (emits_same rfl rfl)
    · exact EmitsR.pure (emits_same rfl rfl)
  | replProgress s target r => cases hi
  | hbProgress s target t =>
    simp only [input, coreHbProgress]
    split
    · exact EmitsR.bind fun l => emits_rhUpdateClock _ _ _ _
    · exact EmitsR.pure (Emits.refl _)
  | built m => cases hi
  | installed io m =>
    simp only [input, coreInstalled]
    exact EmitsR.bind fun p => EmitsR.bind fun s1 => EmitsR.bind fun s2 => EmitsR.pure (emits_same rfl rfl)
  | applied last =>
    simp only [input, coreApplied]
    exact EmitsR.bind fun s => EmitsR.pure (emits_same rfl rfl)
  | initiate =>
    simp only [input, coreInitiate]
    refine EmitsR.bind fun o => ?_
    split
    · exact EmitsR.pure (Emits.refl _)
    · exact emits_rhInitiate _ _

theorem emits_input [Lets P] [LetsAnswer P] [LetsVote P] [LetsAsk P] [LetsTrunc P] (e : Eng) (i : Input) (hi : i.mayPurge = false) :
    EmitsR P id e (e.input dbg now i) := by
  cases i with
  | appendReq tx v prev es lc => exact emits_handleAppend _ _ _ _ _ _
  | snapReq tx v m => cases hi
  | _ => exact emits_input_no _ _ (fun _ => inferInstance) hi rfl

end Eng
end Openraft.Engine
