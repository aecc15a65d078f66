import Verif.Engine.Grow

/-!
# A saved committed position is handed to the state machine

Every handler that emits `SaveCommitted` emits the `Apply` up to the same position right after it.
-/

set_option autoImplicit false

namespace Openraft.Engine
open Openraft.Repl (Panic dassert Inflight)
open Openraft.Cluster (Payload)

/-- each `saveCommitted c` is directly followed by an `apply` up to `c` -/
def Paired (cs : List Cmd) : Prop :=
  ∀ (i : Nat) (c : LogId), cs[i]? = some (.saveCommitted c) → ∃ p, cs[i + 1]? = some (.apply p c)

/-- not a `saveCommitted` -/
def Cmd.noSave : Cmd → Bool
  | .saveCommitted _ => false
  | _ => true

theorem Paired.nil : Paired [] := fun i c h => by simp at h

theorem Paired.append {a b : List Cmd} (ha : Paired a) (hb : Paired b) : Paired (a ++ b) := by
  intro i c h
  rw [List.getElem?_append] at h
  split at h
  · next hi =>
    obtain ⟨p, hp⟩ := ha i c h
    refine ⟨p, ?_⟩
    rw [List.getElem?_append, if_pos (by by_contra hn; rw [List.getElem?_eq_none (by omega)] at hp; cases hp)]
    exact hp
  · next hi =>
    obtain ⟨p, hp⟩ := hb _ c h
    refine ⟨p, ?_⟩
    rw [List.getElem?_append, if_neg (by omega), show i + 1 - a.length = i - a.length + 1 by omega]
    exact hp

theorem Paired.quiet {cs : List Cmd} (h : ∀ c ∈ cs, c.noSave = true) : Paired cs := by
  intro i c hc
  have := h _ (List.mem_of_getElem? hc)
  cases this

theorem Paired.pair (p : Option LogId) (c : LogId) : Paired [.saveCommitted c, .apply p c] := by
  intro i d h
  match i with
  | 0 => simp at h; subst h; exact ⟨p, rfl⟩
  | 1 => simp at h
  | i + 2 => simp at h

/-- the commands added are paired -/
def Pairs (e e' : Eng) : Prop := ∃ cs, e'.out = e.out ++ cs ∧ Paired cs

theorem Pairs.refl (e : Eng) : Pairs e e := ⟨[], by simp, .nil⟩
theorem Pairs.trans {a b c : Eng} (h : Pairs a b) (k : Pairs b c) : Pairs a c := by
  obtain ⟨x, h1, h2⟩ := h
  obtain ⟨y, k1, k2⟩ := k
  exact ⟨x ++ y, by rw [k1, h1, List.append_assoc], h2.append k2⟩

/-- `Pairs` for a result, `π` picks the engine -/
def PairsR {α : Type} (π : α → Eng) (e : Eng) (r : Res α) : Prop := ∀ a, r = .ok a → Pairs e (π a)

namespace PairsR
variable {α β : Type} {π : α → Eng} {e : Eng}

theorem pure {a : α} (h : Pairs e (π a)) : PairsR π e (Pure.pure a) := by
  intro b hb; rw [pure_ok] at hb; subst hb; exact h

theorem ok {a : α} (h : Pairs e (π a)) : PairsR π e (Except.ok a) := by
  intro b hb; cases hb; exact h

theorem bind {x : Res β} {f : β → Res α} (h : ∀ b, PairsR π e (f b)) : PairsR π e (x >>= f) := by
  intro a ha; rw [bind_ok] at ha
  obtain ⟨b, _, hb⟩ := ha; exact h b a hb

theorem bindE (π' : β → Eng) {x : Res β} {f : β → Res α} (hx : PairsR π' e x) (h : ∀ b, PairsR π (π' b) (f b)) :
    PairsR π e (x >>= f) := by
  intro a ha; rw [bind_ok] at ha
  obtain ⟨b, hx', hb⟩ := ha; exact (hx b hx').trans (h b a hb)

theorem from' {e1 : Eng} {r : Res α} (h : Pairs e e1) (k : PairsR π e1 r) : PairsR π e r :=
  fun a ha => h.trans (k a ha)

theorem rebase {e1 : Eng} {r : Res α} (h : PairsR π e1 r) (k : Pairs e e1) : PairsR π e r := from' k h

end PairsR

namespace Eng
variable {dbg : Bool} {now : Nat}

theorem pairs_push (e : Eng) (c : Cmd) (hc : c.noSave = true := by rfl) : Pairs e (e.push c) :=
  ⟨[c], rfl, Paired.quiet (by simpa using hc)⟩

theorem pairs_upd {e e1 : Eng} (c : Cmd) (h : Pairs e e1) (hc : c.noSave = true := by rfl) : Pairs e (e1.push c) :=
  h.trans (pairs_push _ _ hc)

theorem pairs_upd2 {e e1 : Eng} (p : Option LogId) (c : LogId) (h : Pairs e e1) :
    Pairs e ((e1.push (.saveCommitted c)).push (.apply p c)) :=
  h.trans ⟨[.saveCommitted c, .apply p c], by simp [push], Paired.pair p c⟩

theorem pairs_same {e e1 : Eng} (_h1 : e1.cfg = e.cfg) (h2 : e1.out = e.out) : Pairs e e1 :=
  ⟨[], by rw [h2]; simp, .nil⟩

theorem pairs_logPurge (e : Eng) : Pairs e e.logPurge := by
  unfold logPurge
  split
  · exact Pairs.refl _
  · split
    · exact Pairs.refl _
    · exact pairs_upd _ (pairs_same rfl rfl)

theorem pairs_updatePurgeUpto (e : Eng) (x : LogId) : PairsR id e (e.updatePurgeUpto dbg x) := by
  unfold updatePurgeUpto
  exact PairsR.bind fun _ => PairsR.pure (pairs_same rfl rfl)

theorem pairs_schedulePurge (e : Eng) : PairsR id e (e.schedulePurge dbg) := by
  unfold schedulePurge
  refine PairsR.bind fun o => ?_
  split
  · exact pairs_updatePurgeUpto _ _
  · exact PairsR.pure (Pairs.refl _)

theorem pairs_triggerSnapshot (e : Eng) : Pairs e e.triggerSnapshot := by
  unfold triggerSnapshot
  split
  · exact Pairs.refl _
  · exact pairs_upd _ (pairs_same rfl rfl)

theorem pairs_updateSnapshot (e : Eng) (m : SnapMeta) : Pairs e (e.updateSnapshot m).2 := by
  unfold updateSnapshot
  split
  · exact Pairs.refl _
  · exact pairs_same rfl rfl

theorem pairs_maybeSnapshot (e : Eng) : Pairs e e.maybeSnapshot := by
  unfold maybeSnapshot
  split
  · exact pairs_triggerSnapshot _
  · exact Pairs.refl _

theorem pairs_rhRebuildStreams (e : Eng) (l : Leader) : Pairs e (e.rhRebuildStreams l) := by
  unfold rhRebuildStreams
  exact pairs_upd _ (pairs_same rfl rfl)

theorem noSave_rhInitLoop {me : NodeId} {v : Repl.LogView} {max : Nat} {ns : List NodeId} {ent : NodeId → Repl.Entry}
    {out : List Cmd} {r : (NodeId → Repl.Entry) × List Cmd} (h0 : ∀ c ∈ out, c.noSave = true)
    (h : rhInitLoop dbg me v max ns ent out = .ok r) : ∀ c ∈ r.2, c.noSave = true := by
  induction ns generalizing ent out with
  | nil => rw [rhInitLoop, pure_ok] at h; subst h; exact h0
  | cons n ns ih =>
    rw [rhInitLoop] at h
    split at h
    · exact ih h0 h
    · rw [bind_ok] at h
      obtain ⟨⟨sent, en⟩, _, h⟩ := h
      dsimp only at h
      split at h
      · rw [bind_ok] at h
        obtain ⟨req, _, h⟩ := h
        refine ih ?_ h
        intro c hc
        rcases List.mem_append.1 hc with hc | hc
        · exact h0 c hc
        · rw [List.mem_singleton] at hc; subst hc; rfl
      · exact ih h0 h

theorem pairs_rhInitiate (e : Eng) (l : Leader) : PairsR id e (e.rhInitiate dbg l) := by
  unfold rhInitiate
  intro e' he
  rw [bind_ok] at he
  obtain ⟨⟨ent, cmds⟩, hp, he⟩ := he
  rw [pure_ok] at he; subst he
  exact ⟨cmds, rfl, Paired.quiet (noSave_rhInitLoop (by simp) hp)⟩

theorem pairs_rhAppendMembership (e : Eng) (l : Leader) (i : LogId) (m : Membership) :
    PairsR id e (e.rhAppendMembership dbg l i m) := by
  unfold rhAppendMembership
  refine PairsR.bind fun _ => PairsR.bind fun _ => PairsR.bind fun ms => PairsR.bind fun l2 => ?_
  refine PairsR.from' ?_ (pairs_rhInitiate _ _)
  exact (pairs_same (e1 := { e with st := { e.st with ms := ms } }) rfl rfl).trans (pairs_rhRebuildStreams _ _)

theorem pairs_rhTryCommit (e : Eng) (g : Option LogId) : PairsR id e (e.rhTryCommit dbg g) := by
  unfold rhTryCommit
  split
  · exact PairsR.pure (Pairs.refl _)
  · split
    · refine PairsR.bind fun p => ?_
      obtain ⟨ch, st⟩ := p
      dsimp only
      split
      · exact PairsR.pure ((pairs_upd2 _ _ (pairs_upd _ (pairs_same rfl rfl))).trans (pairs_maybeSnapshot _))
      · exact PairsR.pure (Pairs.refl _)
    · exact PairsR.pure (Pairs.refl _)

theorem pairs_rhUpdateMatching (e : Eng) (l : Leader) (n : NodeId) (m : Option LogId) :
    PairsR id e (e.rhUpdateMatching dbg l n m) := by
  unfold rhUpdateMatching
  refine PairsR.bind fun _ => PairsR.bind fun _ => PairsR.bind fun en => PairsR.bind fun vp => ?_
  exact PairsR.from' (pairs_same rfl rfl) (pairs_rhTryCommit _ _)

theorem pairs_rhUpdateConflicting (e : Eng) (l : Leader) (n : NodeId) (c : LogId) :
    PairsR id e (e.rhUpdateConflicting dbg l n c) := by
  unfold rhUpdateConflicting
  exact PairsR.bind fun _ => PairsR.bind fun _ => PairsR.pure (pairs_same rfl rfl)

theorem pairs_rhTryPurge (e : Eng) (l : Leader) : Pairs e (e.rhTryPurge l) := by
  unfold rhTryPurge
  split
  · exact Pairs.refl _
  · split
    · exact Pairs.refl _
    · split
      · exact Pairs.refl _
      · exact pairs_logPurge _

theorem pairs_rhFailed (e : Eng) (l : Leader) (n : NodeId) : PairsR id e (e.rhFailed l n) := by
  unfold rhFailed
  exact PairsR.bind fun _ => PairsR.pure (pairs_same rfl rfl)

theorem pairs_rhUpdateProgress (e : Eng) (l : Leader) (n : NodeId) (r : ReplResult) :
    PairsR id e (e.rhUpdateProgress dbg l n r) := by
  unfold rhUpdateProgress
  have hgo : ∀ x : Res Eng, PairsR id e x → PairsR id e (x >>= fun e1 => (unwrap e1.leader >>= fun l1 => (pure (rhTryPurge e1 l1) : Res Eng))) :=
    fun x hx => PairsR.bindE id hx fun b => PairsR.bind fun l1 => PairsR.pure (pairs_rhTryPurge _ _)
  cases r with
  | matching m => exact hgo _ (pairs_rhUpdateMatching _ _ _ _)
  | conflict c => exact hgo _ (pairs_rhUpdateConflicting _ _ _ _)
  | failed => exact hgo _ (pairs_rhFailed _ _ _)

theorem pairs_rhUpdateClock (e : Eng) (l : Leader) (n : NodeId) (t : Nat) : PairsR id e (e.rhUpdateClock l n t) := by
  unfold rhUpdateClock
  exact PairsR.bind fun _ => PairsR.pure (pairs_same rfl rfl)

theorem pairs_rhUpdateLocal (e : Eng) (l : Leader) (u : Option LogId) : PairsR id e (e.rhUpdateLocal dbg l u) := by
  unfold rhUpdateLocal
  split
  · exact PairsR.pure (Pairs.refl _)
  · split
    · split
      · exact PairsR.pure (Pairs.refl _)
      · exact pairs_rhUpdateMatching _ _ _ _
    · exact PairsR.pure (Pairs.refl _)

theorem pairs_lhMembership (e : Eng) (l : Leader) (m : Option StoredMem) : PairsR id e (e.lhMembership dbg l m) := by
  unfold lhMembership
  split
  · exact pairs_rhAppendMembership _ _ _ _
  · exact PairsR.pure (Pairs.refl _)

theorem pairs_lhAppend (e : Eng) (l : Leader) (ps : List Payload) : PairsR id e (e.lhAppend dbg l ps) := by
  unfold lhAppend
  split
  · exact PairsR.pure (Pairs.refl _)
  · refine PairsR.bind fun _ => PairsR.bind fun ids => PairsR.bind fun _ => PairsR.bind fun st => ?_
    refine PairsR.from' (pairs_upd _ (pairs_same rfl rfl)) (PairsR.bindE id (pairs_lhMembership _ _ _) fun e2 => ?_)
    exact PairsR.bind fun l2 => pairs_rhInitiate _ _

theorem pairs_lhTransfer (e : Eng) (l : Leader) (t : NodeId) : Pairs e (e.lhTransfer l t) :=
  pairs_upd _ (pairs_same rfl rfl)

theorem pairs_updateServerState (e : Eng) : Pairs e e.updateServerState := pairs_same rfl rfl

theorem pairs_becomeNewLeader (e : Eng) : PairsR id e (e.becomeNewLeader dbg now) := by
  unfold becomeNewLeader
  refine PairsR.bind fun l => PairsR.bind fun st => PairsR.bind fun l2 => ?_
  have h1 : Pairs e (rhRebuildStreams (updateServerState (Eng.push { e with st := st, leader := some l } (.updateIO none (IOId.newLog l.vote l.lastLogId)))) l) :=
    ((pairs_upd _ (pairs_same rfl rfl)).trans (pairs_updateServerState _)).trans (pairs_rhRebuildStreams _ _)
  split
  · exact PairsR.from' h1 (pairs_lhAppend _ _ _)
  · exact PairsR.from' h1 (pairs_rhInitiate _ _)

theorem pairs_becomeLeader (e : Eng) : PairsR id e (e.becomeLeader dbg now) := by
  unfold becomeLeader
  split
  · split
    · exact PairsR.pure (pairs_same rfl rfl)
    · exact pairs_becomeNewLeader _
  · exact pairs_becomeNewLeader _

theorem pairs_becomeFollowing (e : Eng) : PairsR id e (e.becomeFollowing dbg) := by
  unfold becomeFollowing
  exact PairsR.bind fun _ => PairsR.pure (pairs_same rfl rfl)

theorem pairs_updateInternal (e : Eng) : PairsR id e (e.updateInternal dbg now) := by
  unfold updateInternal
  split
  · exact pairs_becomeLeader _
  · split
    · exact PairsR.pure (Pairs.refl _)
    · exact pairs_becomeFollowing _

theorem pairs_storeVote (e : Eng) (lease : Nat) (v : Vote) : PairsR id e (e.storeVote dbg now lease v) := by
  unfold storeVote
  split
  · exact PairsR.bind fun st => PairsR.pure (pairs_upd _ (pairs_same rfl rfl))
  · exact PairsR.bind fun vt => PairsR.pure (pairs_same rfl rfl)

theorem pairs_updateVote (e : Eng) (v : Vote) : PairsR Prod.snd e (e.updateVote dbg now v) := by
  unfold updateVote
  split
  · refine PairsR.bindE id (pairs_storeVote _ _ _) fun e1 => PairsR.bindE id (pairs_updateInternal _) fun e2 => ?_
    exact PairsR.pure (Pairs.refl _)
  · exact PairsR.pure (Pairs.refl _)

theorem pairs_fhTruncate (e : Eng) (i : Nat) : PairsR id e (e.fhTruncate dbg i) := by
  unfold fhTruncate
  refine PairsR.bind fun _ => ?_
  split
  · exact PairsR.pure (Pairs.refl _)
  · refine PairsR.bind fun ms => ?_
    dsimp only
    split
    · exact PairsR.pure ((pairs_upd _ (pairs_same rfl rfl)).trans (pairs_updateServerState _))
    · exact PairsR.pure (pairs_upd _ (pairs_same rfl rfl))

theorem pairs_fhAppendMembership (e : Eng) (es : List Ent) : PairsR id e (e.fhAppendMembership dbg es) := by
  unfold fhAppendMembership
  split
  · exact PairsR.pure (Pairs.refl _)
  · exact PairsR.bind fun ms => PairsR.pure (pairs_same rfl rfl)

theorem pairs_fhDoAppend (e : Eng) (v : Vote) (es : List Ent) : PairsR id e (e.fhDoAppend dbg v es) := by
  unfold fhDoAppend
  refine PairsR.bind fun _ => PairsR.bind fun _ => PairsR.bind fun _ => ?_
  refine PairsR.from' (e1 := { e with st := { e.st with logIds := LogIdList.extend e.st.logIds (es.map (·.id)) } })
    (pairs_same rfl rfl) (PairsR.bindE id (pairs_fhAppendMembership _ _) fun e1 => PairsR.pure (pairs_push _ _))

theorem pairs_fhAppendEntries (e : Eng) (v : Vote) (prev : Option LogId) (es : List Ent) :
    PairsR id e (e.fhAppendEntries dbg v prev es) := by
  unfold fhAppendEntries
  refine PairsR.bind fun _ => PairsR.bind fun st => PairsR.bind fun since => ?_
  split
  · refine PairsR.from' (e1 := { e with st := st }) (pairs_same rfl rfl)
      (PairsR.bindE id (pairs_fhTruncate _ _) fun e1 => pairs_fhDoAppend _ _ _)
  · split
    · exact PairsR.pure (pairs_same rfl rfl)
    · exact PairsR.pure (pairs_upd _ (pairs_same rfl rfl))

theorem pairs_fhEnsure (e : Eng) (prev : Option LogId) : PairsR Prod.snd e (e.fhEnsure dbg prev) := by
  unfold fhEnsure
  split
  · exact PairsR.pure (Pairs.refl _)
  · refine PairsR.bind fun b => ?_
    split
    · exact PairsR.pure (Pairs.refl _)
    · exact PairsR.bindE id (pairs_fhTruncate _ _) fun e1 => PairsR.pure (Pairs.refl _)

theorem pairs_fhCommit (e : Eng) (lc : Option LogId) : PairsR id e (e.fhCommit dbg lc) := by
  unfold fhCommit
  refine PairsR.bind fun p => ?_
  obtain ⟨ch, st⟩ := p
  dsimp only
  split
  · refine PairsR.bind fun i => ?_
    exact PairsR.pure ((pairs_upd2 _ _ (pairs_same rfl rfl)).trans (pairs_maybeSnapshot _))
  · exact PairsR.pure (Pairs.refl _)

theorem pairs_fhInstallTruncate (e : Eng) (l : LogId) : PairsR id e (e.fhInstallTruncate dbg l) := by
  unfold fhInstallTruncate
  split
  · split
    · exact pairs_fhTruncate _ _
    · exact PairsR.pure (Pairs.refl _)
  · exact PairsR.pure (Pairs.refl _)

theorem pairs_fhInstall (e : Eng) (v : Vote) (m : SnapMeta) : PairsR Prod.snd e (e.fhInstall dbg v m) := by
  unfold fhInstall
  split
  · exact PairsR.pure (Pairs.refl _)
  · refine PairsR.bind fun last => ?_
    have hu := pairs_updateSnapshot e m
    split
    · next e1 he => rw [he] at hu; exact PairsR.pure hu
    · next e1 he =>
      rw [he] at hu
      refine PairsR.from' hu (PairsR.bindE id (pairs_fhInstallTruncate _ _) fun e2 => ?_)
      refine PairsR.bind fun st => PairsR.bind fun ms => PairsR.pure ?_
      refine Pairs.trans ?_ (pairs_logPurge _)
      exact (pairs_upd (e := e2) (.sm (.install m (IOId.newLog v (some last))))
        (e1 := updateServerState { e2 with st := { st with committed := some last, ms := ms } }) (pairs_same rfl rfl)).trans (pairs_same rfl rfl)

theorem pairs_startup (e : Eng) : PairsR id e (e.startup dbg now) := by
  unfold startup
  split
  · exact pairs_updateInternal _
  · exact PairsR.pure (pairs_same rfl rfl)

theorem pairs_elect (e : Eng) : PairsR id e (e.elect dbg now) := by
  unfold elect
  refine PairsR.from' (e1 := { e with candidate := some (Candidate.new now (Vote.new (e.st.vote.data.leaderId.term + 1) e.cfg.id) e.st.lastLogId e.st.ms.effective.mem) })
    (pairs_same rfl rfl) (PairsR.bindE Prod.snd (pairs_updateVote _ _) fun p => ?_)
  obtain ⟨ok, e2⟩ := p
  refine PairsR.bind fun _ => PairsR.pure ?_
  exact (pairs_push _ _).trans (pairs_updateServerState _)

theorem pairs_initCluster (e : Eng) (m : Membership) : PairsR Prod.snd e (e.initCluster dbg now m) := by
  unfold initCluster
  split
  · exact PairsR.pure (Pairs.refl _)
  · split
    · exact PairsR.pure (Pairs.refl _)
    · refine PairsR.bind fun v => ?_
      refine PairsR.from' (e1 := { e with st := { e.st with vote := e.st.vote.update now 0 ⟨⟨0, 0⟩, true⟩ } })
        (pairs_same rfl rfl) (PairsR.bindE id (pairs_fhDoAppend _ _ _) fun e2 => PairsR.bindE id (pairs_elect _) fun e3 => ?_)
      exact PairsR.pure (Pairs.refl _)

theorem pairs_handleVoteReq (e : Eng) (v : Vote) (last : Option LogId) :
    PairsR Prod.snd e (e.handleVoteReq dbg now v last) := by
  unfold handleVoteReq
  split
  · exact PairsR.pure (Pairs.refl _)
  · split
    · refine PairsR.bindE Prod.snd (pairs_updateVote _ _) fun p => ?_
      exact PairsR.pure (Pairs.refl _)
    · exact PairsR.pure (Pairs.refl _)

theorem pairs_establishLeader (e : Eng) : PairsR id e (e.establishLeader dbg now) := by
  unfold establishLeader
  refine PairsR.bind fun c => PairsR.bind fun o => ?_
  split
  · exact PairsR.pure (pairs_same rfl rfl)
  · next l =>
    refine PairsR.from' (e1 := rhRebuildStreams { e with candidate := none, leader := some l } l)
      ((pairs_same rfl rfl).trans (pairs_rhRebuildStreams _ _)) (PairsR.bindE Prod.snd (pairs_updateVote _ _) fun p => ?_)
    obtain ⟨ok, e2⟩ := p
    refine PairsR.bind fun _ => PairsR.bind fun st => PairsR.bind fun lo => PairsR.bind fun l3 => ?_
    exact PairsR.from' (pairs_same rfl rfl) (pairs_lhAppend _ _ _)

theorem pairs_handleVoteResp (e : Eng) (t : NodeId) (v : Vote) (last : Option LogId) (g : Bool) :
    PairsR id e (e.handleVoteResp dbg now t v last g) := by
  unfold handleVoteResp
  split
  · exact PairsR.pure (Pairs.refl _)
  · split
    · refine PairsR.bind fun c1 => ?_
      dsimp only
      split
      · exact PairsR.from' (pairs_same rfl rfl) (pairs_establishLeader _)
      · exact PairsR.pure (pairs_same rfl rfl)
    · refine PairsR.from' (e1 := if e.st.lastLogId < last then { e with seenGreater := true } else e) ?_
        (PairsR.bindE Prod.snd (pairs_updateVote _ _) fun p => PairsR.pure (Pairs.refl _))
      split
      · exact pairs_same rfl rfl
      · exact Pairs.refl _

theorem pairs_appendEntries (e : Eng) (v : Vote) (prev : Option LogId) (es : List Ent) :
    PairsR Prod.snd e (e.appendEntries dbg now v prev es) := by
  unfold appendEntries
  refine PairsR.bindE Prod.snd (pairs_updateVote _ _) fun p => ?_
  obtain ⟨ok, e1⟩ := p
  dsimp only
  split
  · refine PairsR.bind fun lv => PairsR.bindE Prod.snd (pairs_fhEnsure _ _) fun p => ?_
    obtain ⟨ok2, e2⟩ := p
    dsimp only
    split
    · exact PairsR.bindE id (pairs_fhAppendEntries _ _ _ _) fun e3 => PairsR.pure (Pairs.refl _)
    · exact PairsR.pure (Pairs.refl _)
  · exact PairsR.pure (Pairs.refl _)

theorem pairs_handleAppend (e : Eng) (tx : Nat) (v : Vote) (prev : Option LogId) (es : List Ent) (lc : Option LogId) :
    PairsR id e (e.handleAppend dbg now tx v prev es lc) := by
  unfold handleAppend
  refine PairsR.bindE Prod.snd (pairs_appendEntries _ _ _ _) fun p => ?_
  obtain ⟨r, e1⟩ := p
  dsimp only
  split
  · refine PairsR.bind fun acc => PairsR.bind fun _ => ?_
    exact PairsR.from' (pairs_push _ _) (pairs_fhCommit _ _)
  · exact PairsR.pure (pairs_push _ _)

theorem pairs_handleInstall (e : Eng) (tx : Nat) (v : Vote) (m : SnapMeta) :
    PairsR id e (e.handleInstall dbg now tx v m) := by
  unfold handleInstall
  refine PairsR.bindE Prod.snd (pairs_updateVote _ _) fun p => ?_
  obtain ⟨ok, e1⟩ := p
  dsimp only
  split
  · refine PairsR.bind fun lv => PairsR.bindE Prod.snd (pairs_fhInstall _ _ _) fun p => ?_
    exact PairsR.pure (pairs_push _ _)
  · exact PairsR.pure (pairs_push _ _)

theorem pairs_leaderStepDown (e : Eng) : PairsR id e (e.leaderStepDown dbg now) := by
  unfold leaderStepDown
  split
  · exact pairs_updateInternal _
  · exact PairsR.pure (Pairs.refl _)

theorem pairs_tryPurge (e : Eng) : Pairs e e.tryPurge := by
  unfold tryPurge
  split
  · exact pairs_rhTryPurge _ _
  · exact pairs_logPurge _

theorem pairs_finishBuilding (e : Eng) (m : SnapMeta) : PairsR id e (e.finishBuilding dbg m) := by
  unfold finishBuilding
  dsimp only
  have hu := pairs_updateSnapshot { e with st := { e.st with io := { e.st.io with building := false } } } m
  have h0 : Pairs e { e with st := { e.st with io := { e.st.io with building := false } } } := pairs_same rfl rfl
  split
  · next e1 he => rw [he] at hu; exact PairsR.pure (h0.trans hu)
  · next e1 he =>
    rw [he] at hu
    exact PairsR.from' (h0.trans hu) (PairsR.bindE id (pairs_schedulePurge _) fun e2 => PairsR.pure (pairs_tryPurge _))

theorem pairs_triggerPurge (e : Eng) (i : Nat) : PairsR id e (e.triggerPurge dbg i) := by
  unfold triggerPurge
  split
  · exact PairsR.pure (Pairs.refl _)
  · split
    · exact PairsR.pure (Pairs.refl _)
    · exact PairsR.bind fun x => PairsR.bindE id (pairs_updatePurgeUpto _ _) fun e1 => PairsR.pure (pairs_tryPurge _)

theorem pairs_triggerTransfer (e : Eng) (t : NodeId) : PairsR id e (e.triggerTransfer dbg t) := by
  unfold triggerTransfer
  refine PairsR.bind fun o => ?_
  split
  · exact PairsR.pure (Pairs.refl _)
  · exact PairsR.pure (pairs_lhTransfer _ _ _)

theorem pairs_writeEntry (e : Eng) (p : Payload) : PairsR Prod.snd e (e.writeEntry dbg p) := by
  unfold writeEntry
  refine PairsR.bind fun o => ?_
  split
  · exact PairsR.pure (Pairs.refl _)
  · split
    · exact PairsR.pure (Pairs.refl _)
    · exact PairsR.bindE id (pairs_lhAppend _ _ _) fun e1 => PairsR.bind fun l => PairsR.pure (Pairs.refl _)

theorem pairs_coreHeartbeat (e : Eng) : PairsR id e (e.coreHeartbeat dbg) := by
  unfold coreHeartbeat
  refine PairsR.bind fun o => ?_
  split
  · exact PairsR.pure (Pairs.refl _)
  · split
    · exact PairsR.pure (Pairs.refl _)
    · exact PairsR.pure (pairs_push _ _)

theorem pairs_tickElection (e : Eng) (en : Bool) : PairsR id e (e.tickElection dbg now en) := by
  unfold tickElection
  split
  · exact PairsR.pure (Pairs.refl _)
  · split
    · exact PairsR.pure (Pairs.refl _)
    · split
      · exact PairsR.pure (Pairs.refl _)
      · have hgo : ∀ b : Bool, PairsR id e (if b = true then elect dbg now { e with seenGreater := false } else pure e) := by
          intro b
          split
          · exact PairsR.from' (pairs_same rfl rfl) (pairs_elect _)
          · exact PairsR.pure (Pairs.refl _)
        exact hgo _

theorem pairs_tickHeartbeat (e : Eng) (en : Bool) (iv : Nat) : PairsR id e (e.tickHeartbeat dbg now en iv) := by
  unfold tickHeartbeat
  split
  · exact PairsR.pure (Pairs.refl _)
  · split
    · dsimp only
      split
      · exact PairsR.bindE id (pairs_coreHeartbeat _) fun e1 => PairsR.pure (pairs_same rfl rfl)
      · exact PairsR.bindE id (PairsR.pure (Pairs.refl _)) fun e1 => PairsR.pure (pairs_same rfl rfl)
    · exact PairsR.pure (Pairs.refl _)

theorem pairs_input (e : Eng) (i : Input) : PairsR id e (e.input dbg now i) := by
  cases i with
  | appendReq tx v prev es lc => exact pairs_handleAppend _ _ _ _ _ _
  | voteReq tx v last =>
    simp only [input, coreVoteReq]
    exact PairsR.bindE Prod.snd (pairs_handleVoteReq _ _ _) fun p => PairsR.pure (pairs_push _ _)
  | snapReq tx v m => exact pairs_handleInstall _ _ _ _
  | init tx m =>
    simp only [input, coreInit]
    exact PairsR.bindE Prod.snd (pairs_initCluster _ _) fun p => PairsR.pure (pairs_push _ _)
  | write p =>
    simp only [input]
    exact PairsR.bindE Prod.snd (pairs_writeEntry _ _) fun p => PairsR.pure (Pairs.refl _)
  | change c r =>
    simp only [input]
    refine PairsR.bindE Prod.snd ?_ fun p => PairsR.pure (Pairs.refl _)
    unfold changeMembership
    split
    · exact PairsR.pure (Pairs.refl _)
    · exact pairs_writeEntry _ _
  | handleTransfer v target =>
    simp only [input, coreHandleTransfer]
    split
    · split
      · exact PairsR.from' (pairs_same rfl rfl) (pairs_elect _)
      · exact PairsR.pure (pairs_same rfl rfl)
    · exact PairsR.pure (Pairs.refl _)
  | electCmd =>
    simp only [input, coreElect]
    split
    · exact pairs_elect _
    · exact PairsR.pure (Pairs.refl _)
  | heartbeatCmd => exact pairs_coreHeartbeat _
  | snapshotCmd => exact PairsR.pure (pairs_triggerSnapshot _)
  | purgeCmd i => exact pairs_triggerPurge _ _
  | transferCmd t => exact pairs_triggerTransfer _ _
  | voteResp target v last granted sender =>
    simp only [input]
    split
    · exact pairs_handleVoteResp _ _ _ _ _
    · exact PairsR.pure (Pairs.refl _)
  | higherVote v sender =>
    simp only [input]
    split
    · exact PairsR.bindE Prod.snd (pairs_updateVote _ _) fun p => PairsR.pure (Pairs.refl _)
    · exact PairsR.pure (Pairs.refl _)
  | tick el hb iv =>
    simp only [input, coreTick]
    refine PairsR.bindE id (pairs_tickElection _ _) fun e1 => PairsR.bindE id (pairs_tickHeartbeat _ _ _) fun e2 => ?_
    split
    · exact pairs_leaderStepDown _
    · exact PairsR.pure (Pairs.refl _)
  | localIO io =>
    simp only [input, coreLocalIO]
    refine PairsR.bind fun p => ?_
    split
    · split
      · split
        · exact PairsR.from' (e1 := e.withProg p) (pairs_same rfl rfl) (pairs_rhUpdateLocal _ _ _)
        · exact PairsR.pure (pairs_same rfl rfl)
      · exact PairsR.pure (pairs_same rfl rfl)
    · exact PairsR.pure (pairs_same rfl rfl)
  | replProgress s target r =>
    simp only [input, coreReplProgress]
    split
    · exact PairsR.bind fun l => pairs_rhUpdateProgress _ _ _ _
    · exact PairsR.pure (Pairs.refl _)
  | hbProgress s target t =>
    simp only [input, coreHbProgress]
    split
    · exact PairsR.bind fun l => pairs_rhUpdateClock _ _ _ _
    · exact PairsR.pure (Pairs.refl _)
  | built m =>
    simp only [input, coreBuilt]
    exact PairsR.bindE id (pairs_finishBuilding _ _) fun e1 => PairsR.bind fun io => PairsR.pure (pairs_same rfl rfl)
  | installed io m =>
    simp only [input, coreInstalled]
    exact PairsR.bind fun p => PairsR.bind fun s1 => PairsR.bind fun s2 => PairsR.pure (pairs_same rfl rfl)
  | applied last =>
    simp only [input, coreApplied]
    exact PairsR.bind fun s => PairsR.pure (pairs_same rfl rfl)
  | initiate =>
    simp only [input, coreInitiate]
    refine PairsR.bind fun o => ?_
    split
    · exact PairsR.pure (Pairs.refl _)
    · exact pairs_rhInitiate _ _

end Eng
end Openraft.Engine
