import Verif.Engine.InvStep
import Verif.Engine.Grow

/-!
# The order of the IO ids in the command stream

Commands that write to the storage carry an IO id. `lvl a c` is the greatest id accepted when `c` is
emitted after `a` was the greatest, and `COk g a c` says how the id of `c`, or the id an answer waits
for, relates to `a`. Every handler emits commands that are `COk` and leaves `accepted` at their level.
-/

set_option autoImplicit false

namespace Openraft.Engine
open Openraft.Repl (Panic dassert Inflight)
open Openraft.Cluster (Payload)

/-- a command that has no IO id and answers nobody -/
def Cmd.quiet : Cmd → Bool
  | .updateIO _ _ | .append _ _ | .saveVote _ | .respond _ _ _ => false
  | .sm (.install _ _) | .sm (.apply _ _) => false
  | _ => true

/-- the greatest IO id after a command -/
def lvl (a : IOId) : Cmd → IOId
  | .append v es => match es.getLast? with
    | some x => IOId.newLog v (some x.id)
    | none => a
  | .saveVote v => IOId.new v
  | .updateIO _ io => max a io
  | .sm (.install _ io) => max a io
  | _ => a

/-- the greatest IO id after some commands -/
def lvls (a : IOId) (cs : List Cmd) : IOId := cs.foldl lvl a

/-- the log has or had an id -/
def Held (g : Gh) (o : Option LogId) : Prop := ∀ x, o = some x →
  x ∈ g.ids ∨ some x ≤ g.store.purged ∧ x.index < nextIndex g.store.purged

/-- how a command relates to the abstract node `g` and the greatest IO id `a` before it:
* a written id is greater than all before, and the vote only changes with `saveVote`, except for the
  first entry of a cluster;
* `updateIO` and an append answer wait for all that was accepted before; the other answers to an append wait for nothing, the one
  to `initialize` waits for the log, the one to a snapshot for the vote or the snapshot;
* an append answer and `updateIO` confirm ids that the log has or had;
* a vote answer waits for the vote it carries;
* entries are handed to the state machine by the command `apply` only;
* every answer with a vote carries the vote last handed to the storage. -/
def COk (g : Gh) (a : IOId) : Cmd → Prop
  | .append v es => ∃ x, es.getLast? = some x ∧ a < IOId.newLog v (some x.id) ∧
      (a.vote = v.toCommitted ∨ a.vote = ⟨⟨0, 0⟩, false⟩ ∧ v.toCommitted = ⟨⟨0, 0⟩, true⟩)
  | .saveVote v => a.vote < v
  | .updateIO w io => io.vote = a.vote ∧ (w = some (.ioFlushed a) ∧ a ≤ io ∨ w = none ∧ a.last = none) ∧ Held g io.last
  | .sm (.install m io) => io = ⟨a.vote, m.lastLogId⟩
  | .sm (.apply _ _) => False
  | .respond w _ (.append .success v upto) => w = some (.ioFlushed a) ∧ a.vote = v ∧ g.vote = v ∧ Held g upto
  | .respond w _ (.append (.higherVote v) _ _) => g.vote = v ∧ w = none
  | .respond w _ (.append .conflict _ _) => w = none
  | .respond w _ (.vote v _ _) => w = some (.ioFlushed (IOId.new v)) ∧ g.vote = v
  | .respond w _ (.snapshot v) => g.vote = v ∧ ∀ k, w = some k → k = .ioFlushed (IOId.new v) ∨ ∃ l, k = .snapshot l
  | .respond w _ (.init _) => ∀ k, w = some k → ∃ l, k = .logFlushed l
  | _ => True

/-- all commands are `COk`, in order -/
def COks : Gh → IOId → List Cmd → Prop
  | _, _, [] => True
  | g, a, c :: cs => COk g a c ∧ COks (g.run c) (lvl a c) cs

theorem lvls_append (a : IOId) (cs ds : List Cmd) : lvls a (cs ++ ds) = lvls (lvls a cs) ds := by simp [lvls]
theorem lvls_snoc (a : IOId) (cs : List Cmd) (c : Cmd) : lvls a (cs ++ [c]) = lvl (lvls a cs) c := by simp [lvls]

theorem COks_append {g : Gh} {a : IOId} {cs ds : List Cmd} :
    COks g a (cs ++ ds) ↔ COks g a cs ∧ COks (g.runs cs) (lvls a cs) ds := by
  induction cs generalizing g a with
  | nil => simp [COks, Gh.runs, lvls]
  | cons c cs ih => simp [COks, Gh.runs, lvls, ih, and_assoc]

theorem quiet_lvl {c : Cmd} (h : c.quiet = true) (g : Gh) (a : IOId) : lvl a c = a ∧ COk g a c := by
  cases c with
  | sm c => cases c <;> simp_all [Cmd.quiet, lvl, COk]
  | _ => simp_all [Cmd.quiet, lvl, COk]

theorem quiet_lvls {cs : List Cmd} (h : ∀ c ∈ cs, c.quiet = true) (g : Gh) (a : IOId) : lvls a cs = a ∧ COks g a cs := by
  induction cs generalizing g a with
  | nil => exact ⟨rfl, trivial⟩
  | cons c cs ih =>
    have h1 := quiet_lvl (h c (by simp)) g a
    have h2 := ih (fun x hx => h x (by simp [hx])) (g.run c) a
    refine ⟨?_, h1.2, ?_⟩
    · show lvls (lvl a c) cs = a
      rw [h1.1]; exact h2.1
    · rw [h1.1]; exact h2.2

/-- from `e` to `e'` the commands added are `COk` and the accepted id is their level -/
def IoRel (g0 : Gh) (e e' : Eng) : Prop :=
  ∃ cs, e'.out = e.out ++ cs ∧ ∀ a, e.st.io.prog.accepted = some a →
    COks (g0.runs e.out) a cs ∧ e'.st.io.prog.accepted = some (lvls a cs)

/-- only quiet commands are added and the accepted id stays -/
def Quiet (e e' : Eng) : Prop :=
  (∃ cs, e'.out = e.out ++ cs ∧ ∀ c ∈ cs, c.quiet = true) ∧ e'.st.io.prog.accepted = e.st.io.prog.accepted

theorem IoRel.refl (g0 : Gh) (e : Eng) : IoRel g0 e e := ⟨[], by simp, fun a h => ⟨trivial, h⟩⟩

theorem IoRel.trans {g0 : Gh} {a b c : Eng} (h : IoRel g0 a b) (k : IoRel g0 b c) : IoRel g0 a c := by
  obtain ⟨cs, h1, h2⟩ := h
  obtain ⟨ds, k1, k2⟩ := k
  refine ⟨cs ++ ds, by rw [k1, h1, List.append_assoc], fun x hx => ?_⟩
  obtain ⟨h3, h4⟩ := h2 x hx
  obtain ⟨k3, k4⟩ := k2 _ h4
  rw [h1, Gh.runs_append] at k3
  exact ⟨COks_append.2 ⟨h3, k3⟩, by rw [lvls_append]; exact k4⟩

theorem Quiet.refl (e : Eng) : Quiet e e := ⟨⟨[], by simp, by simp⟩, rfl⟩
theorem Quiet.trans {a b c : Eng} (h : Quiet a b) (k : Quiet b c) : Quiet a c := by
  obtain ⟨⟨cs, h1, h2⟩, h3⟩ := h
  obtain ⟨⟨ds, k1, k2⟩, k3⟩ := k
  refine ⟨⟨cs ++ ds, by rw [k1, h1, List.append_assoc], fun x hx => ?_⟩, k3.trans h3⟩
  rcases List.mem_append.1 hx with hx | hx
  · exact h2 x hx
  · exact k2 x hx

theorem Quiet.io {e e' : Eng} (h : Quiet e e') (g0 : Gh) : IoRel g0 e e' := by
  obtain ⟨⟨cs, h1, h2⟩, h3⟩ := h
  refine ⟨cs, h1, fun a ha => ?_⟩
  obtain ⟨q1, q2⟩ := quiet_lvls h2 (g0.runs e.out) a
  exact ⟨q2, by rw [q1, h3]; exact ha⟩

/-- one command that keeps the level -/
theorem IoRel.push {g0 : Gh} {e : Eng} {c : Cmd}
    (h : ∀ a, e.st.io.prog.accepted = some a → COk (g0.runs e.out) a c ∧ lvl a c = a) : IoRel g0 e (e.push c) :=
  ⟨[c], rfl, fun a ha => ⟨⟨(h a ha).1, trivial⟩, by
    show _ = some (lvl a c); rw [(h a ha).2]; exact ha⟩⟩

/-- `Quiet` for a result, `π` picks the engine -/
def QuietR {α : Type} (π : α → Eng) (e : Eng) (r : Res α) : Prop := ∀ a, r = .ok a → Quiet e (π a)

namespace QuietR
variable {α β : Type} {π : α → Eng} {e : Eng}

theorem pure {a : α} (h : Quiet e (π a)) : QuietR π e (Pure.pure a) := by
  intro b hb; rw [pure_ok] at hb; subst hb; exact h

theorem bind {x : Res β} {f : β → Res α} (h : ∀ b, x = .ok b → QuietR π e (f b)) : QuietR π e (x >>= f) := by
  intro a ha; rw [bind_ok] at ha
  obtain ⟨b, hx, hb⟩ := ha; exact h b hx a hb

theorem bindE (π' : β → Eng) {x : Res β} {f : β → Res α} (hx : QuietR π' e x) (h : ∀ b, QuietR π (π' b) (f b)) :
    QuietR π e (x >>= f) := by
  intro a ha; rw [bind_ok] at ha
  obtain ⟨b, hx', hb⟩ := ha; exact (hx b hx').trans (h b a hb)

theorem from' {e1 : Eng} {r : Res α} (h : Quiet e e1) (k : QuietR π e1 r) : QuietR π e r :=
  fun a ha => h.trans (k a ha)

end QuietR

namespace Eng
variable {dbg : Bool} {now : Nat}

theorem quiet_push (e : Eng) (c : Cmd) (h : c.quiet = true := by rfl) : Quiet e (e.push c) :=
  ⟨⟨[c], rfl, by simpa using h⟩, rfl⟩

theorem quiet_upd {e e1 : Eng} (c : Cmd) (h : Quiet e e1) (hc : c.quiet = true := by rfl) : Quiet e (e1.push c) :=
  h.trans (quiet_push _ _ hc)

theorem quiet_same {e e1 : Eng} (h1 : e1.st.io.prog.accepted = e.st.io.prog.accepted) (h2 : e1.out = e.out) : Quiet e e1 :=
  ⟨⟨[], by simp [h2], by simp⟩, h1⟩

theorem updateCommitted_io {s s' : RState} {c : Option LogId} {ch : Bool} (h : s.updateCommitted dbg c = .ok (ch, s')) :
    s'.io = s.io := by
  unfold RState.updateCommitted at h
  split at h
  · rw [bind_ok] at h
    obtain ⟨m, _, h⟩ := h
    rw [pure_ok] at h; cases h; rfl
  · rw [pure_ok] at h; cases h; rfl

theorem quiet_logPurge (e : Eng) : Quiet e e.logPurge := by
  unfold logPurge
  split
  · exact Quiet.refl _
  · split
    · exact Quiet.refl _
    · exact quiet_upd _ (quiet_same rfl rfl)

theorem quiet_updatePurgeUpto (e : Eng) (x : LogId) : QuietR id e (e.updatePurgeUpto dbg x) := by
  unfold updatePurgeUpto
  exact QuietR.bind fun _ _ => QuietR.pure (quiet_same rfl rfl)

theorem quiet_schedulePurge (e : Eng) : QuietR id e (e.schedulePurge dbg) := by
  unfold schedulePurge
  refine QuietR.bind fun o h_o => ?_
  split
  · exact quiet_updatePurgeUpto _ _
  · exact QuietR.pure (Quiet.refl _)

theorem quiet_triggerSnapshot (e : Eng) : Quiet e e.triggerSnapshot := by
  unfold triggerSnapshot
  split
  · exact Quiet.refl _
  · exact quiet_upd _ (quiet_same rfl rfl)

theorem quiet_updateSnapshot (e : Eng) (m : SnapMeta) : Quiet e (e.updateSnapshot m).2 := by
  unfold updateSnapshot
  split
  · exact Quiet.refl _
  · exact quiet_same rfl rfl

theorem quiet_maybeSnapshot (e : Eng) : Quiet e e.maybeSnapshot := by
  unfold maybeSnapshot
  split
  · exact quiet_triggerSnapshot _
  · exact Quiet.refl _

theorem quiet_rhRebuildStreams (e : Eng) (l : Leader) : Quiet e (e.rhRebuildStreams l) := by
  unfold rhRebuildStreams
  exact quiet_upd _ (quiet_same rfl rfl)

theorem quiet_rhInitiate (e : Eng) (l : Leader) : QuietR id e (e.rhInitiate dbg l) := by
  intro e' h
  unfold rhInitiate at h
  rw [bind_ok] at h
  obtain ⟨⟨ent, cmds⟩, h1, h⟩ := h
  simp only [pure_ok] at h
  subst h
  have hi := initLoop_inert h1 (by simp)
  refine ⟨⟨cmds, rfl, fun c hc => ?_⟩, rfl⟩
  obtain ⟨n, req, rfl⟩ := hi c hc
  rfl

theorem quiet_rhAppendMembership (e : Eng) (l : Leader) (i : LogId) (m : Membership) :
    QuietR id e (e.rhAppendMembership dbg l i m) := by
  unfold rhAppendMembership
  refine QuietR.bind fun _ _ => QuietR.bind fun _ _ => QuietR.bind fun ms h_ms => QuietR.bind fun l2 h_l2 => ?_
  refine QuietR.from' ?_ (quiet_rhInitiate _ _)
  exact (quiet_same (e1 := { e with st := { e.st with ms := ms } }) rfl rfl).trans (quiet_rhRebuildStreams _ _)

theorem quiet_rhTryCommit (e : Eng) (g : Option LogId) : QuietR id e (e.rhTryCommit dbg g) := by
  unfold rhTryCommit
  split
  · exact QuietR.pure (Quiet.refl _)
  · split
    · refine QuietR.bind fun p h_p => ?_
      obtain ⟨ch, st⟩ := p
      dsimp only
      split
      · exact QuietR.pure ((quiet_upd (.apply _ _) (quiet_upd (.saveCommitted _) (quiet_upd (.replCommitted _)
          (quiet_same (e := e) (e1 := { e with st := st }) (by show st.io.prog.accepted = _; rw [updateCommitted_io h_p]) rfl)))).trans (quiet_maybeSnapshot _))
      · exact QuietR.pure (Quiet.refl _)
    · exact QuietR.pure (Quiet.refl _)

theorem quiet_rhUpdateMatching (e : Eng) (l : Leader) (n : NodeId) (m : Option LogId) :
    QuietR id e (e.rhUpdateMatching dbg l n m) := by
  unfold rhUpdateMatching
  refine QuietR.bind fun _ _ => QuietR.bind fun _ _ => QuietR.bind fun en h_en => QuietR.bind fun vp h_vp => ?_
  exact QuietR.from' (quiet_same rfl rfl) (quiet_rhTryCommit _ _)

theorem quiet_rhUpdateConflicting (e : Eng) (l : Leader) (n : NodeId) (c : LogId) :
    QuietR id e (e.rhUpdateConflicting dbg l n c) := by
  unfold rhUpdateConflicting
  exact QuietR.bind fun _ _ => QuietR.bind fun _ _ => QuietR.pure (quiet_same rfl rfl)

theorem quiet_rhTryPurge (e : Eng) (l : Leader) : Quiet e (e.rhTryPurge l) := by
  unfold rhTryPurge
  split
  · exact Quiet.refl _
  · split
    · exact Quiet.refl _
    · split
      · exact Quiet.refl _
      · exact quiet_logPurge _

theorem quiet_rhFailed (e : Eng) (l : Leader) (n : NodeId) : QuietR id e (e.rhFailed l n) := by
  unfold rhFailed
  exact QuietR.bind fun _ _ => QuietR.pure (quiet_same rfl rfl)

theorem quiet_rhUpdateProgress (e : Eng) (l : Leader) (n : NodeId) (r : ReplResult) :
    QuietR id e (e.rhUpdateProgress dbg l n r) := by
  unfold rhUpdateProgress
  have hgo : ∀ x : Res Eng, QuietR id e x → QuietR id e (x >>= fun e1 => (unwrap e1.leader >>= fun l1 => (pure (rhTryPurge e1 l1) : Res Eng))) :=
    fun x hx => QuietR.bindE id hx fun b => QuietR.bind fun l1 h_l1 => QuietR.pure (quiet_rhTryPurge _ _)
  cases r with
  | matching m => exact hgo _ (quiet_rhUpdateMatching _ _ _ _)
  | conflict c => exact hgo _ (quiet_rhUpdateConflicting _ _ _ _)
  | failed => exact hgo _ (quiet_rhFailed _ _ _)

theorem quiet_rhUpdateClock (e : Eng) (l : Leader) (n : NodeId) (t : Nat) : QuietR id e (e.rhUpdateClock l n t) := by
  unfold rhUpdateClock
  exact QuietR.bind fun _ _ => QuietR.pure (quiet_same rfl rfl)

theorem quiet_rhUpdateLocal (e : Eng) (l : Leader) (u : Option LogId) : QuietR id e (e.rhUpdateLocal dbg l u) := by
  unfold rhUpdateLocal
  split
  · exact QuietR.pure (Quiet.refl _)
  · split
    · split
      · exact QuietR.pure (Quiet.refl _)
      · exact quiet_rhUpdateMatching _ _ _ _
    · exact QuietR.pure (Quiet.refl _)

theorem quiet_lhMembership (e : Eng) (l : Leader) (m : Option StoredMem) : QuietR id e (e.lhMembership dbg l m) := by
  unfold lhMembership
  split
  · exact quiet_rhAppendMembership _ _ _ _
  · exact QuietR.pure (Quiet.refl _)

theorem quiet_lhTransfer (e : Eng) (l : Leader) (t : NodeId) : Quiet e (e.lhTransfer l t) :=
  quiet_upd _ (quiet_same rfl rfl)

theorem quiet_updateServerState (e : Eng) : Quiet e e.updateServerState := quiet_same rfl rfl

theorem quiet_becomeFollowing (e : Eng) : QuietR id e (e.becomeFollowing dbg) := by
  unfold becomeFollowing
  exact QuietR.bind fun _ _ => QuietR.pure (quiet_same rfl rfl)

theorem quiet_fhTruncate (e : Eng) (i : Nat) : QuietR id e (e.fhTruncate dbg i) := by
  unfold fhTruncate
  refine QuietR.bind fun _ _ => ?_
  split
  · exact QuietR.pure (Quiet.refl _)
  · refine QuietR.bind fun ms h_ms => ?_
    dsimp only
    split
    · exact QuietR.pure ((quiet_upd _ (quiet_same rfl rfl)).trans (quiet_updateServerState _))
    · exact QuietR.pure (quiet_upd _ (quiet_same rfl rfl))

theorem quiet_fhAppendMembership (e : Eng) (es : List Ent) : QuietR id e (e.fhAppendMembership dbg es) := by
  unfold fhAppendMembership
  split
  · exact QuietR.pure (Quiet.refl _)
  · exact QuietR.bind fun ms h_ms => QuietR.pure (quiet_same rfl rfl)

theorem quiet_fhEnsure (e : Eng) (prev : Option LogId) : QuietR Prod.snd e (e.fhEnsure dbg prev) := by
  unfold fhEnsure
  split
  · exact QuietR.pure (Quiet.refl _)
  · refine QuietR.bind fun b h_b => ?_
    split
    · exact QuietR.pure (Quiet.refl _)
    · exact QuietR.bindE id (quiet_fhTruncate _ _) fun e1 => QuietR.pure (Quiet.refl _)

theorem quiet_fhCommit (e : Eng) (lc : Option LogId) : QuietR id e (e.fhCommit dbg lc) := by
  unfold fhCommit
  refine QuietR.bind fun p h_p => ?_
  obtain ⟨ch, st⟩ := p
  dsimp only
  split
  · refine QuietR.bind fun i h_i => ?_
    exact QuietR.pure ((quiet_upd (.apply _ _) (quiet_upd (.saveCommitted _)
      (quiet_same (e := e) (e1 := { e with st := st }) (by show st.io.prog.accepted = _; rw [updateCommitted_io h_p]) rfl))).trans (quiet_maybeSnapshot _))
  · exact QuietR.pure (Quiet.refl _)

theorem quiet_fhInstallTruncate (e : Eng) (l : LogId) : QuietR id e (e.fhInstallTruncate dbg l) := by
  unfold fhInstallTruncate
  split
  · split
    · exact quiet_fhTruncate _ _
    · exact QuietR.pure (Quiet.refl _)
  · exact QuietR.pure (Quiet.refl _)

theorem quiet_tryPurge (e : Eng) : Quiet e e.tryPurge := by
  unfold tryPurge
  split
  · exact quiet_rhTryPurge _ _
  · exact quiet_logPurge _

theorem quiet_finishBuilding (e : Eng) (m : SnapMeta) : QuietR id e (e.finishBuilding dbg m) := by
  unfold finishBuilding
  dsimp only
  have hu := quiet_updateSnapshot { e with st := { e.st with io := { e.st.io with building := false } } } m
  have h0 : Quiet e { e with st := { e.st with io := { e.st.io with building := false } } } := quiet_same rfl rfl
  split
  · next e1 he => rw [he] at hu; exact QuietR.pure (h0.trans hu)
  · next e1 he =>
    rw [he] at hu
    exact QuietR.from' (h0.trans hu) (QuietR.bindE id (quiet_schedulePurge _) fun e2 => QuietR.pure (quiet_tryPurge _))

theorem quiet_triggerPurge (e : Eng) (i : Nat) : QuietR id e (e.triggerPurge dbg i) := by
  unfold triggerPurge
  split
  · exact QuietR.pure (Quiet.refl _)
  · split
    · exact QuietR.pure (Quiet.refl _)
    · exact QuietR.bind fun x h_x => QuietR.bindE id (quiet_updatePurgeUpto _ _) fun e1 => QuietR.pure (quiet_tryPurge _)

theorem quiet_triggerTransfer (e : Eng) (t : NodeId) : QuietR id e (e.triggerTransfer dbg t) := by
  unfold triggerTransfer
  refine QuietR.bind fun o h_o => ?_
  split
  · exact QuietR.pure (Quiet.refl _)
  · exact QuietR.pure (quiet_lhTransfer _ _ _)

theorem quiet_coreHeartbeat (e : Eng) : QuietR id e (e.coreHeartbeat dbg) := by
  unfold coreHeartbeat
  refine QuietR.bind fun o h_o => ?_
  split
  · exact QuietR.pure (Quiet.refl _)
  · split
    · exact QuietR.pure (Quiet.refl _)
    · exact QuietR.pure (quiet_push _ _)

theorem quiet_tickHeartbeat (e : Eng) (en : Bool) (iv : Nat) : QuietR id e (e.tickHeartbeat dbg now en iv) := by
  unfold tickHeartbeat
  split
  · exact QuietR.pure (Quiet.refl _)
  · split
    · dsimp only
      split
      · exact QuietR.bindE id (quiet_coreHeartbeat _) fun e1 => QuietR.pure (quiet_same rfl rfl)
      · exact QuietR.bindE id (QuietR.pure (Quiet.refl _)) fun e1 => QuietR.pure (quiet_same rfl rfl)
    · exact QuietR.pure (Quiet.refl _)

/-! ## Handlers with an IO id -/

/-- an id of the log, or one not above the committed position, is below the next id of the leader -/
theorem known_lt {g0 : Gh} {e : Eng} (h : LM g0 e) {x : LogId} (hl : e.st.vote.data.leaderId = x.leaderId)
    (hi : nextIndex e.st.lastLogId ≤ x.index) {o : Option LogId} (ho : KnownO e.st.lv o) : o < some x := by
  have key : ∀ y ∈ e.st.lv.L, y < x := by
    intro y hy
    have h1 : y.index < nextIndex e.st.lastLogId := h.log.le_last hy
    have h2 : y.leaderId ≤ e.st.vote.data.leaderId := h.log.bound y hy
    rw [hl] at h2
    rw [LogId.lt_def]
    rcases lt_or_eq_of_le h2 with h3 | h3
    · exact Or.inl h3
    · exact Or.inr ⟨h3, by omega⟩
  cases o with
  | none => exact OptOrd.none_lt_some'
  | some y =>
    rcases ho y rfl with hy | hy
    · exact key y hy
    · cases hc : e.st.committed with
      | none => rw [show e.st.lv.committed = none from hc] at hy; exact absurd hy OptOrd.not_some_le_none'
      | some c =>
        rw [show e.st.lv.committed = some c from hc] at hy
        exact lt_of_le_of_lt hy (key c (h.log.comIn c hc))

theorem lhAppend_shape {e e' : Eng} {l : Leader} {p : Payload} (hr : lhAppend dbg e l [p] = .ok e') :
    ∃ cs, e'.out = e.out ++ .append l.vote [⟨⟨l.vote.leaderId, nextIndex l.lastLogId⟩, p⟩] :: cs ∧
      (∀ c ∈ cs, c.quiet = true) ∧
      e'.st.io.prog.accepted =
        if e.st.io.prog.accepted < some (IOId.newLog l.vote (some ⟨l.vote.leaderId, nextIndex l.lastLogId⟩))
        then some (IOId.newLog l.vote (some ⟨l.vote.leaderId, nextIndex l.lastLogId⟩)) else e.st.io.prog.accepted := by
  unfold lhAppend at hr
  rw [if_neg (by simp)] at hr
  simp only [bind_ok, unwrap_ok, assign_single] at hr
  obtain ⟨_, _, ids, hids, _, _, st, hst, e2, he2, l2, hl2, hr⟩ := hr
  have hst := acceptIo_ok hst
  have q1 := quiet_lhMembership _ _ _ _ he2
  have q2 := quiet_rhInitiate _ _ _ hr
  obtain ⟨⟨cs, h1, h2⟩, h3⟩ := q1.trans q2
  refine ⟨cs, ?_, h2, ?_⟩
  · have : e'.out = _ := h1
    rw [this]; simp [Eng.push]
  · have h4 : e'.st.io.prog.accepted = st.io.prog.accepted := h3
    rw [h4, hst]; rfl

theorem io_lhAppend {g0 : Gh} {e e' : Eng} {l : Leader} {p : Payload} (h : EInv g0 e)
    (hl : e.leader = some l) (hr : lhAppend dbg e l [p] = .ok e') : IoRel g0 e e' := by
  obtain ⟨cs, h1, h2, h3⟩ := lhAppend_shape hr
  have hk := h.pj.lead l hl
  obtain ⟨a, ha1, ha2, ha3⟩ := h.pj.acc
  have hvc : l.vote.toCommitted = l.vote := toCommitted_eq (by rw [hk.vote]; exact hk.com)
  have hlt : a < IOId.newLog l.vote (some ⟨l.vote.leaderId, nextIndex l.lastLogId⟩) := by
    rw [IOId.lt_def]
    right
    refine ⟨by show a.vote = l.vote.toCommitted; rw [hvc, ha2, hk.vote], ?_⟩
    exact known_lt h.lm (by rw [hk.vote]) (by show _ ≤ nextIndex l.lastLogId; rw [hk.last]) ha3
  refine ⟨_, h1, fun b hb => ?_⟩
  have hab : b = a := by rw [ha1] at hb; exact (Option.some.inj hb).symm
  subst hab
  obtain ⟨q1, q2⟩ := quiet_lvls h2 ((g0.runs e.out).run (.append l.vote [⟨⟨l.vote.leaderId, nextIndex l.lastLogId⟩, p⟩]))
    (IOId.newLog l.vote (some ⟨l.vote.leaderId, nextIndex l.lastLogId⟩))
  refine ⟨⟨⟨_, rfl, hlt, Or.inl (by rw [hvc, ha2, hk.vote])⟩, q2⟩, ?_⟩
  rw [h3, ha1, if_pos (show some b < some _ from hlt)]
  show some _ = some (lvls (lvl b _) cs)
  exact congrArg some q1.symm

theorem io_storeVote_gt {g0 : Gh} {lease : Nat} {e e1 : Eng} {v : Vote} {a : IOId}
    (ha : e.st.io.prog.accepted = some a) (hav : a.vote ≤ e.st.vote.data) (hlt : e.st.vote.data < v)
    (hr : storeVote dbg now lease e v = .ok e1) : IoRel g0 e e1 := by
  unfold storeVote at hr
  rw [if_pos hlt, bind_ok] at hr
  obtain ⟨st, hst, hr⟩ := hr
  rw [pure_ok] at hr
  have hst := acceptIo_ok hst
  have hacc : a < IOId.new v := by
    rw [IOId.lt_def]
    left; exact lt_of_le_of_lt hav hlt
  subst hst
  subst hr
  refine ⟨[.saveVote v], rfl, fun b hb => ?_⟩
  have hab : b = a := by rw [ha] at hb; exact (Option.some.inj hb).symm
  subst hab
  refine ⟨⟨lt_of_le_of_lt hav hlt, trivial⟩, ?_⟩
  show (if e.st.io.prog.accepted < some (IOId.new v) then some (IOId.new v) else e.st.io.prog.accepted) = some (IOId.new v)
  rw [ha, if_pos (show some b < some _ from hacc)]

theorem quiet_updateInternal {g0 : Gh} {e e' : Eng} (h : EInv g0 e) (hr : updateInternal dbg now e = .ok e') : Quiet e e' := by
  unfold updateInternal at hr
  split at hr
  · next hil =>
    unfold becomeLeader at hr
    cases hl : e.leader with
    | none => rw [h.pj.nolead hl] at hil; cases hil
    | some l =>
      have hk := h.pj.lead l hl
      rw [hl] at hr
      simp only at hr
      rw [if_pos (by rw [hk.vote]), pure_ok] at hr
      subst hr
      exact quiet_same rfl rfl
  · split at hr
    · rw [pure_ok] at hr; subst hr; exact Quiet.refl _
    · exact quiet_becomeFollowing _ _ hr

theorem io_updateVote {g0 : Gh} {e e' : Eng} {v : Vote} {ok : Bool} (h : EInv g0 e)
    (hv : v.leaderId.node = e.cfg.id → v ≤ e.st.vote.data) (hr : updateVote dbg now e v = .ok (ok, e')) : IoRel g0 e e' := by
  unfold updateVote at hr
  split at hr
  · next hle =>
    simp only [bind_ok, pure_ok] at hr
    obtain ⟨e1, he1, e2, he2, hr⟩ := hr
    cases hr
    obtain ⟨a, ha1, ha2, ha3⟩ := h.pj.acc
    by_cases hlt : e.st.vote.data < v
    · have hne : v.leaderId.node ≠ e.cfg.id := fun hx => absurd (hv hx) (not_le.2 hlt)
      obtain ⟨_, io, he1', hio⟩ := storeVote_gt h.lm ha1 (le_of_eq ha2) hlt he1
      have hng : e1.st.isLeading e1.cfg.id = false := by
        unfold RState.isLeading
        have : (v.leaderId.node == e.cfg.id) = false := by simpa using hne
        rw [he1']
        show (_ && (v.leaderId.node == e.cfg.id)) = false
        rw [this]; simp
      have hnl : e1.st.isLeader e1.cfg.id = false := by unfold RState.isLeader; rw [hng]; rfl
      unfold updateInternal at he2
      rw [if_neg (by rw [hnl]; simp), if_neg (by rw [hng]; simp)] at he2
      exact (io_storeVote_gt ha1 (le_of_eq ha2) hlt he1).trans ((quiet_becomeFollowing _ _ he2).io g0)
    · obtain ⟨hf, hio1, hl1⟩ := storeVote_eq hlt he1
      have hq : Quiet e e1 := by
        unfold storeVote at he1
        rw [if_neg hlt, bind_ok] at he1
        obtain ⟨vt, _, he1⟩ := he1
        rw [pure_ok] at he1; subst he1; exact quiet_same rfl rfl
      exact (hq.trans (quiet_updateInternal (hf.inv h) he2)).io g0
  · rw [pure_ok] at hr
    cases hr
    exact IoRel.refl _ _

/-- an election; `b` is the level of the commands before, which may be above what was accepted -/
theorem elect_shape {e e' : Eng} {a : IOId} (ha : e.st.io.prog.accepted = some a) (hav : a.vote ≤ e.st.vote.data)
    (hr : elect dbg now e = .ok e') :
    ∃ v cs, e.st.vote.data < v ∧ e'.out = e.out ++ .saveVote v :: cs ∧ (∀ c ∈ cs, c.quiet = true) ∧
      e'.st.io.prog.accepted = some (IOId.new v) := by
  unfold elect at hr
  simp only [bind_ok] at hr
  obtain ⟨⟨ok, e2⟩, he2, _, _, hr⟩ := hr
  rw [pure_ok] at hr
  have hlt := vote_lt_new (v := e.st.vote.data) e.cfg.id
  generalize hV : Vote.new (e.st.vote.data.leaderId.term + 1) e.cfg.id = v at *
  have hvc : v.committed = false := by rw [← hV]; rfl
  unfold updateVote at he2
  rw [if_pos (show e.st.vote.data ≤ v from le_of_lt hlt)] at he2
  simp only [bind_ok, pure_ok] at he2
  obtain ⟨e3, he3, e4, he4, he2⟩ := he2
  cases he2
  have hlt' : ({ e with candidate := some (Candidate.new now v e.st.lastLogId e.st.ms.effective.mem) } : Eng).st.vote.data < v := hlt
  obtain ⟨ds, d1, d2⟩ : IoRel Gh.empty { e with candidate := some (Candidate.new now v e.st.lastLogId e.st.ms.effective.mem) } e3 :=
    io_storeVote_gt ha hav hlt' he3
  have hd : e3.st.vote.data = v ∧ e3.out = e.out ++ [.saveVote v] ∧ e3.st.io.prog.accepted = some (IOId.new v) := by
    unfold storeVote at he3
    rw [if_pos hlt', bind_ok] at he3
    obtain ⟨st, hst, he3⟩ := he3
    have hst := acceptIo_ok hst
    rw [pure_ok] at he3
    subst hst
    subst he3
    have hacc : a < IOId.new v := by
      rw [IOId.lt_def]; left; exact lt_of_le_of_lt hav hlt
    refine ⟨rfl, rfl, ?_⟩
    show (if e.st.io.prog.accepted < some (IOId.new v) then some (IOId.new v) else e.st.io.prog.accepted) = some (IOId.new v)
    rw [ha, if_pos (show some a < some _ from hacc)]
  have hnl : e3.st.isLeader e3.cfg.id = false := by
    unfold RState.isLeader; rw [hd.1, hvc]; simp
  have hq : Quiet e3 e' := by
    have q1 : Quiet e3 e2 := by
      unfold updateInternal at he4
      rw [if_neg (by rw [hnl]; simp)] at he4
      split at he4
      · rw [pure_ok] at he4; subst he4; exact Quiet.refl _
      · exact quiet_becomeFollowing _ _ he4
    subst hr
    exact (q1.trans (quiet_push _ (.sendVote _ _))).trans (quiet_updateServerState _)
  obtain ⟨⟨cs, h1, h2⟩, h3⟩ := hq
  exact ⟨v, cs, hlt, by rw [h1, hd.2.1]; simp, h2, by rw [h3]; exact hd.2.2⟩

theorem io_elect {g0 : Gh} {e e' : Eng} {a : IOId} (ha : e.st.io.prog.accepted = some a) (hav : a.vote ≤ e.st.vote.data)
    (hr : elect dbg now e = .ok e') : IoRel g0 e e' := by
  obtain ⟨v, cs, hlt, h1, h2, h3⟩ := elect_shape ha hav hr
  refine ⟨_, h1, fun b hb => ?_⟩
  have hab : b = a := by rw [ha] at hb; exact (Option.some.inj hb).symm
  subst hab
  obtain ⟨q1, q2⟩ := quiet_lvls h2 ((g0.runs e.out).run (.saveVote v)) (IOId.new v)
  refine ⟨⟨lt_of_le_of_lt hav hlt, q2⟩, ?_⟩
  rw [h3]
  exact congrArg some q1.symm

theorem io_electCmd {g0 : Gh} {e e' : Eng} (h : EInv g0 e) (hr : elect dbg now e = .ok e') : IoRel g0 e e' := by
  obtain ⟨a, ha1, ha2, _⟩ := h.pj.acc
  exact io_elect ha1 (le_of_eq ha2) hr

theorem fhDoAppend_shape {e e' : Eng} {v : Vote} {es : List Ent} (hr : fhDoAppend dbg e v es = .ok e') :
    e'.out = e.out ++ [.append v es] ∧ e'.st.io = e.st.io := by
  unfold fhDoAppend at hr
  simp only [bind_ok, pure_ok] at hr
  obtain ⟨_, _, _, _, _, _, e1, he1, hr⟩ := hr
  unfold fhAppendMembership at he1
  split at he1
  · rw [pure_ok] at he1; subst he1; subst hr; exact ⟨rfl, rfl⟩
  · simp only [bind_ok, pure_ok] at he1
    obtain ⟨_, _, he1⟩ := he1
    subst he1; subst hr; exact ⟨rfl, rfl⟩

theorem io_initCluster {g0 : Gh} {e e' : Eng} {m : Membership} {ok : Bool} (h : EInv g0 e)
    (hr : initCluster dbg now e m = .ok (ok, e')) : IoRel g0 e e' := by
  unfold initCluster at hr
  split at hr
  · rw [pure_ok] at hr; cases hr; exact IoRel.refl _ _
  · next hni =>
    split at hr
    · rw [pure_ok] at hr; cases hr; exact IoRel.refl _ _
    · simp only [bind_ok, pure_ok] at hr
      obtain ⟨v, hv, e2, he2, e3, he3, hr⟩ := hr
      cases hr
      have hv := followingHandler_ok hv
      have hvote : e.st.vote.data = ⟨⟨0, 0⟩, false⟩ := by
        unfold RState.isInitialized at hni
        by_contra hne
        simp [hne] at hni
      have hle : e.st.vote.data ≤ ⟨⟨0, 0⟩, true⟩ := by rw [hvote]; decide
      obtain ⟨a, ha1, ha2, _⟩ := h.pj.acc
      obtain ⟨s1, s2⟩ := fhDoAppend_shape he2
      have hd : e2.st.vote.data = ⟨⟨0, 0⟩, true⟩ := by
        unfold fhDoAppend at he2
        simp only [bind_ok, pure_ok] at he2
        obtain ⟨_, _, _, _, _, _, e1, he1, he2⟩ := he2
        unfold fhAppendMembership at he1
        split at he1
        · rw [pure_ok] at he1; subst he1; subst he2; rfl
        · simp only [bind_ok, pure_ok] at he1
          obtain ⟨_, _, he1⟩ := he1
          subst he1; subst he2; rfl
      obtain ⟨w, cs, h1, h2, h3, h4⟩ := elect_shape (a := a) (by rw [s2]; exact ha1) (by rw [ha2, hd]; exact hle) he3
      rw [hd] at h1
      have hvv : v = ⟨⟨0, 0⟩, true⟩ := hv
      refine ⟨.append v [⟨⟨⟨0, 0⟩, 0⟩, .membership m⟩] :: .saveVote w :: cs, ?_, fun b hb => ?_⟩
      · rw [h2, s1]; simp
      · have hab : b = a := by rw [ha1] at hb; exact (Option.some.inj hb).symm
        subst hab
        obtain ⟨q1, q2⟩ := quiet_lvls h3 (((g0.runs e.out).run (.append v [⟨⟨⟨0, 0⟩, 0⟩, .membership m⟩])).run (.saveVote w)) (IOId.new w)
        refine ⟨⟨⟨_, rfl, ?_, Or.inr ⟨by rw [ha2, hvote], by rw [hvv]; rfl⟩⟩, ?_, q2⟩, ?_⟩
        · rw [IOId.lt_def, hvv]
          left
          show b.vote < (⟨⟨0, 0⟩, true⟩ : Vote)
          rw [ha2, hvote]; decide
        · show (lvl b _).vote < w
          rw [hvv]; exact h1
        · rw [h4]; exact congrArg some q1.symm

theorem io_establishLeader {g0 : Gh} {e e' : Eng} (h : EInv g0 e)
    (hr : establishLeader dbg now e = .ok e') : IoRel g0 e e' := by
  unfold establishLeader at hr
  simp only [bind_ok, unwrap_ok] at hr
  obtain ⟨c, hc, r, hest, hr⟩ := hr
  have hk := h.pj.cand c hc
  split at hr
  · rw [pure_ok] at hr
    subst hr
    exact (quiet_same rfl rfl).io g0
  · next l =>
    have hl : l.vote = c.vote.toCommitted ∧ l.lastLogId = c.lastLogId := by
      unfold establish at hest
      rw [bind_ok] at hest
      obtain ⟨_, _, hest⟩ := hest
      simp only [hk.nl] at hest
      rw [if_neg (by simp), bind_ok] at hest
      obtain ⟨l', hl', hest⟩ := hest
      rw [pure_ok] at hest
      cases hest
      unfold Candidate.intoLeader at hl'
      rw [bind_ok] at hl'
      obtain ⟨_, _, hl'⟩ := hl'
      obtain ⟨h1, h2, h3⟩ := newLeader_ok hl'
      refine ⟨by rw [h1]; rfl, ?_⟩
      rw [h2]; cases c.lastLogId <;> rfl
    obtain ⟨hlv, hll⟩ := hl
    simp only [bind_ok, unwrap_ok] at hr
    obtain ⟨⟨ok, e2⟩, he2, _, _, st, hst, r3, hr3, l3, hl3, hr⟩ := hr
    have hr3 := leaderHandler_ok hr3
    subst hr3
    have hvd : l.vote = ⟨e.st.vote.data.leaderId, true⟩ := by rw [hlv, hk.vote]; rfl
    have hlt : e.st.vote.data < l.vote := by
      rw [Vote.lt_def, hvd]
      right
      exact ⟨rfl, hk.com, rfl⟩
    unfold updateVote at he2
    have hle0 : (rhRebuildStreams { e with candidate := none, leader := some l } l).st.vote.data ≤ l.vote := le_of_lt hlt
    replace he2 := (if_pos hle0).symm.trans he2
    simp only [bind_ok, pure_ok] at he2
    obtain ⟨e3, he3, e4, he4, he2⟩ := he2
    cases he2
    obtain ⟨a, ha1, ha2, ha3⟩ := h.pj.acc
    have hq0 : Quiet e (rhRebuildStreams { e with candidate := none, leader := some l } l) :=
      (quiet_same (e1 := { e with candidate := none, leader := some l }) rfl rfl).trans (quiet_rhRebuildStreams _ _)
    have hlt0 : (rhRebuildStreams { e with candidate := none, leader := some l } l).st.vote.data < l.vote := hlt
    have hio3 : IoRel g0 (rhRebuildStreams { e with candidate := none, leader := some l } l) e3 :=
      io_storeVote_gt (a := a) (by rw [hq0.2]; exact ha1) (le_of_eq ha2) hlt0 he3
    have h3 : e3.st.vote.data = l.vote ∧ e3.cfg = e.cfg ∧ (∃ l1, e3.leader = some l1 ∧ l1.vote = l.vote ∧ l1.lastLogId = l.lastLogId) ∧
        e3.st.io.prog.accepted = some (IOId.new l.vote) := by
      unfold storeVote at he3
      rw [if_pos hlt0, bind_ok] at he3
      obtain ⟨st', hst', he3⟩ := he3
      have hst' := acceptIo_ok hst'
      rw [pure_ok] at he3
      subst hst'
      subst he3
      have hacc : a < IOId.new l.vote := by
        rw [IOId.lt_def]; left; rw [ha2]; exact hlt
      refine ⟨rfl, rfl, ⟨_, rfl, rfl, rfl⟩, ?_⟩
      show (if e.st.io.prog.accepted < some (IOId.new l.vote) then some (IOId.new l.vote) else e.st.io.prog.accepted) = some (IOId.new l.vote)
      rw [ha1, if_pos (show some a < some _ from hacc)]
    obtain ⟨hd, hcfg, ⟨l1, hl1, hs1, hs2⟩, hacc3⟩ := h3
    have hlc : l.vote.committed = true := by rw [hvd]
    unfold updateInternal at he4
    by_cases hil : e3.st.isLeader e3.cfg.id = true
    · rw [if_pos hil] at he4
      unfold becomeLeader at he4
      rw [hl1] at he4
      simp only at he4
      rw [if_pos (by rw [hs1, hd]), pure_ok] at he4
      have hl3' : l3 = { l1 with vote := e3.st.vote.data.toCommitted } := by
        have : e2.leader = some l3 := hl3
        rw [← he4] at this; exact (Option.some.inj this).symm
      have hv3 : l3.vote = l.vote := by rw [hl3', hd]; exact toCommitted_eq hlc
      have hq2 : Quiet e3 e2 := by rw [← he4]; exact quiet_same rfl rfl
      obtain ⟨cs, k1, k2, k3⟩ := lhAppend_shape hr
      have hst := acceptIo_ok hst
      have hacc2 : e2.st.io.prog.accepted = some (IOId.new l.vote) := by rw [hq2.2]; exact hacc3
      have hio2 : IoRel g0 e2 e' := by
        refine ⟨_, k1, fun b hb => ?_⟩
        have hab : b = IOId.new l.vote := by rw [hacc2] at hb; exact (Option.some.inj hb).symm
        subst hab
        have hvc : l.vote.toCommitted = l.vote := toCommitted_eq hlc
        have hb1 : IOId.new l.vote < IOId.newLog l3.vote (some ⟨l3.vote.leaderId, nextIndex l3.lastLogId⟩) := by
          rw [IOId.lt_def]
          right
          exact ⟨by show l.vote = l3.vote.toCommitted; rw [hv3, hvc], OptOrd.none_lt_some'⟩
        have hb2 : IOId.newLog l.vote l.lastLogId < IOId.newLog l3.vote (some ⟨l3.vote.leaderId, nextIndex l3.lastLogId⟩) := by
          rw [IOId.lt_def]
          right
          refine ⟨by show l.vote.toCommitted = l3.vote.toCommitted; rw [hv3], ?_⟩
          have hll3 : l3.lastLogId = e.st.lastLogId := by rw [hl3']; show l1.lastLogId = _; rw [hs2, hll, hk.last]
          refine known_lt h.lm (by rw [hv3, hvd]) (by show _ ≤ nextIndex l3.lastLogId; rw [hll3]) ?_
          intro x hx
          left
          have hx' : e.st.lastLogId = some x := by rw [← hk.last, ← hll]; exact hx
          exact h.lm.log.last_mem hx'
        obtain ⟨q1, q2⟩ := quiet_lvls k2 ((g0.runs e2.out).run (.append l3.vote [⟨⟨l3.vote.leaderId, nextIndex l3.lastLogId⟩, .blank⟩]))
          (IOId.newLog l3.vote (some ⟨l3.vote.leaderId, nextIndex l3.lastLogId⟩))
        refine ⟨⟨⟨_, rfl, hb1, Or.inl (by show l.vote = _; rw [hv3, hvc])⟩, q2⟩, ?_⟩
        rw [k3]
        have hsa : ({ e2 with st := st } : Eng).st.io.prog.accepted = some (IOId.newLog l.vote l.lastLogId) ∨
            ({ e2 with st := st } : Eng).st.io.prog.accepted = some (IOId.new l.vote) := by
          show st.io.prog.accepted = _ ∨ st.io.prog.accepted = _
          rw [hst]
          show (if _ then _ else _) = _ ∨ (if _ then _ else _) = _
          by_cases hcc : e2.st.io.prog.accepted < some (IOId.newLog l.vote l.lastLogId)
          · left; exact if_pos hcc
          · right; rw [← hacc2]; exact if_neg hcc
        have hfin : ({ e2 with st := st } : Eng).st.io.prog.accepted <
            some (IOId.newLog l3.vote (some ⟨l3.vote.leaderId, nextIndex l3.lastLogId⟩)) := by
          rcases hsa with h9 | h9 <;> rw [h9]
          · exact hb2
          · exact hb1
        rw [if_pos hfin]
        exact congrArg some q1.symm
      exact (((hq0.io g0).trans hio3).trans (hq2.io g0)).trans hio2
    · exfalso
      rw [if_neg hil] at he4
      have hnlead : e3.st.isLeading e3.cfg.id = false := by
        have h1 : e3.st.isLeader e3.cfg.id = false := by simpa using hil
        unfold RState.isLeader at h1
        have h2 : e3.st.vote.data.committed = true := by rw [hd, hvd]
        rw [h2] at h1; simpa using h1
      rw [if_neg (by rw [hnlead]; simp)] at he4
      obtain ⟨srv, he4'⟩ := becomeFollowing_ok he4
      have : e2.leader = some l3 := hl3
      rw [he4'] at this; cases this

/-! ## The follower -/

theorem newLog_of {v : Vote} (hv : v.committed = true) (l : Option LogId) : IOId.newLog v l = ⟨v, l⟩ := by
  unfold IOId.newLog; rw [toCommitted_eq hv]

theorem acceptIo_acc {s s' : RState} {x a : IOId} (ha : s.io.prog.accepted = some a) (h : s.acceptIo dbg x = .ok s') :
    s'.io.prog.accepted = some (max a x) := by
  rw [acceptIo_ok h]
  show (if s.io.prog.accepted < some x then some x else s.io.prog.accepted) = _
  rw [ha]
  by_cases hlt : a < x
  · rw [if_pos (show some a < some x from hlt), max_eq_right (le_of_lt hlt)]
  · rw [if_neg (show ¬ some a < some x from hlt), max_eq_left (not_lt.1 hlt)]

/-- an id of the leader up to which the log agrees with the leader's -/
theorem held_of_pre {g0 : Gh} {e : Eng} {lead : List LogId} {v : Vote} {fl : Nat} {x : LogId} (h : LM g0 e)
    (hl : LeadLog lead v e.st.lv.L fl) (hfl : nextIndex e.st.committed ≤ fl) (hx : x ∈ lead)
    (hpr : Pre lead e.st (nextIndex (some x))) : x ∈ (g0.runs e.out).ids ∨
      some x ≤ (g0.runs e.out).store.purged ∧ x.index < nextIndex (g0.runs e.out).store.purged := by
  have hin : ∀ y ∈ e.st.lv.L, y.index = x.index → y = x := fun y hy hi =>
    hl.cons.inj (hpr.1 y hy (by show _ < x.index + 1; omega)) hx hi
  have hcpl := h.log.cpl
  by_cases hpi : nextIndex e.st.lastPurged ≤ x.index
  · left
    obtain ⟨y, hy, hyi⟩ := h.log.exists_index (i := x.index) (by
      have : e.st.lv.purgedNext = nextIndex e.st.lastPurged := h.log.pn
      rw [this]; omega) (by have := hpr.2; exact this)
    rw [hin y hy hyi] at hy
    rw [hcpl] at hy
    rcases List.mem_append.1 hy with h9 | h9
    · exfalso
      cases hq : e.st.lv.lastPurged with
      | none => rw [hq] at h9; cases h9
      | some q =>
        rw [hq] at h9
        simp at h9
        subst h9
        rw [show e.st.lastPurged = some x from hq] at hpi
        have : x.index + 1 ≤ x.index := hpi
        omega
    · exact h9
  · right
    cases hq : e.st.lastPurged with
    | none => rw [hq] at hpi; simp at hpi
    | some q =>
      rw [hq] at hpi
      have hqL := h.log.purged_mem (p := q) hq
      have hpc := purged_le_com h
      have hpn : e.st.purgedNext = nextIndex e.st.lastPurged := h.log.pn
      rw [hq] at hpn
      have hpn' : e.st.purgedNext = q.index + 1 := hpn
      have hql := hl.agree q hqL (by omega)
      rw [h.log.stp, show e.st.lv.lastPurged = some q from hq]
      have hxi : ¬ q.index + 1 ≤ x.index := hpi
      exact ⟨show x ≤ q from (hl.cons.le_iff hx hql).2 (by omega), by show x.index < q.index + 1; omega⟩

theorem io_fhAppendEntries {g0 : Gh} {e e' : Eng} {lead : List LogId} {prev : Option LogId} {es : List Ent}
    (h : EInv g0 e) (hf : Following e) (hl : LeadLog lead e.st.vote.data e.st.lv.L (e.floor e.st.vote.data))
    (hpre : Pre lead e.st (nextIndex prev)) (hp : ∀ p, prev = some p → p ∈ lead)
    (hes : ∀ x ∈ es, x.id ∈ lead) (hc : Cons (es.map (·.id)))
    (hh : ∀ x, es.head? = some x → x.id.index = nextIndex prev)
    (hr : fhAppendEntries dbg e e.st.vote.data prev es = .ok e') :
    IoRel g0 e e' ∧ (∀ a, e'.st.io.prog.accepted = some a → IOId.newLog e.st.vote.data (max prev (es.getLast?.map (·.id))) ≤ a) := by
  obtain ⟨f1, f2, f3⟩ := floor_parts (e := e) rfl
  unfold fhAppendEntries at hr
  simp only [bind_ok] at hr
  obtain ⟨_, _, st, hst, k, hk, hr⟩ := hr
  obtain ⟨a, ha1, ha2, ha3⟩ := h.pj.acc
  have hacc := acceptIo_acc ha1 hst
  obtain ⟨⟨io, hio⟩, _, _⟩ := acceptIo_same ha1 ha2 hf.com hst
  subst hio
  have hal0 : e.st.accLast = a.last := by unfold RState.accLast; rw [ha1]; rfl
  have hlm := lm_setIo h.lm io
  obtain ⟨s1, s2, s3, s4⟩ := firstConflicting_spec hlm hl f1 hes hc hh hpre hk
  generalize hlst : max prev (es.getLast?.map (·.id)) = el at *
  split at hr
  · next x xs hdrop =>
    rw [bind_ok] at hr
    obtain ⟨e1, he1, hr⟩ := hr
    obtain ⟨t1, t2, t3⟩ := s3 x (by rw [hdrop]; rfl)
    have hxlead : x.id ∈ lead := hes x (List.mem_of_mem_drop (by rw [hdrop]; simp))
    have hfl := floor_le hl hxlead t3
    obtain ⟨⟨cs, q1, q2⟩, q3⟩ := quiet_fhTruncate _ _ _ he1
    obtain ⟨d1, d2⟩ := fhDoAppend_shape hr
    have hgl : es.getLast? = (x :: xs).getLast? := by
      rw [← hdrop, List.getLast?_drop, if_neg]
      intro hle
      rw [List.drop_eq_nil_of_le hle] at hdrop; cases hdrop
    obtain ⟨z, hz⟩ : ∃ z, (x :: xs).getLast? = some z := by
      cases hg : (x :: xs).getLast? with
      | none => simp at hg
      | some z => exact ⟨z, rfl⟩
    have hzes : z ∈ es := List.mem_of_mem_drop (by rw [hdrop]; exact List.mem_of_getLast? hz)
    have hzlead : z.id ∈ lead := hes z hzes
    have hxz : x.id.index ≤ z.id.index := by
      have hcx : Cons ((x :: xs).map (·.id)) := by
        have := hc.drop k
        rw [← List.map_drop, hdrop] at this; exact this
      exact hcx.le_last (l := z.id) (by rw [List.getLast?_map, hz]; rfl) (by simp)
    have hel : el = some z.id := by
      rw [← hlst, hgl, hz, omax_eq]
      apply if_pos
      cases hpv : prev with
      | none => exact OptOrd.none_le' _
      | some p =>
        rw [hpv] at t1; simp at t1
        exact show p ≤ z.id from le_of_lt ((hl.cons.lt_iff (hp p hpv) hzlead).2 (by omega))
    have hL1 : ∀ y ∈ e.st.lv.L, y.index < x.id.index → y < z.id := by
      intro y hy hi
      exact (hl.cons.lt_iff (s1.1 y hy (by omega)) hzlead).2 (by omega)
    have haz : a.last < some z.id := by
      cases hx : a.last with
      | none => exact OptOrd.none_lt_some'
      | some y =>
        rcases ha3 y hx with hk1 | hk1
        · by_cases hlt : y.index < x.id.index
          · exact hL1 y hk1 hlt
          · exfalso
            obtain ⟨w, hw, hwi⟩ := h.lm.log.exists_index (i := x.id.index)
              (Nat.le_trans (purged_le_com h.lm) (Nat.le_trans t2 (by omega)))
              (Nat.lt_of_le_of_lt (by omega) (h.lm.log.le_last hk1))
            have := hfl w hw hwi
            rw [hal0, hx] at f3
            simp at f3; omega
        · cases hcm : e.st.committed with
          | none => rw [show e.st.lv.committed = none from hcm] at hk1; exact absurd hk1 OptOrd.not_some_le_none'
          | some c =>
            rw [show e.st.lv.committed = some c from hcm] at hk1
            have hci := t2
            rw [show ({ e with st := { e.st with io := io } } : Eng).st.committed = some c from hcm] at hci
            simp at hci
            exact lt_of_le_of_lt hk1 (hL1 c (h.lm.log.comIn c hcm) (by omega))
    have halt : a < IOId.newLog e.st.vote.data (some z.id) := by
      rw [newLog_of hf.com, IOId.lt_def]
      right; exact ⟨ha2, haz⟩
    have hmx : max a (IOId.newLog e.st.vote.data el) = IOId.newLog e.st.vote.data (some z.id) := by
      rw [hel]; exact max_eq_right (le_of_lt halt)
    have hacc' : e'.st.io.prog.accepted = some (IOId.newLog e.st.vote.data (some z.id)) := by
      rw [d2]
      have : (id e1).st.io.prog.accepted = io.prog.accepted := q3
      rw [show e1.st.io.prog.accepted = io.prog.accepted from this, ← hmx]; exact hacc
    refine ⟨⟨cs ++ [.append e.st.vote.data (x :: xs)], ?_, fun b hb => ?_⟩, ?_⟩
    · rw [d1]
      have : (id e1).out = e.out ++ cs := q1
      rw [show e1.out = _ from this]; simp
    · have hab : b = a := by rw [ha1] at hb; exact (Option.some.inj hb).symm
      subst hab
      obtain ⟨r1, r2⟩ := quiet_lvls q2 (g0.runs e.out) b
      refine ⟨COks_append.2 ⟨r2, ⟨z, hz, ?_, Or.inl ?_⟩, trivial⟩, ?_⟩
      · rw [r1]; exact halt
      · rw [r1, ha2, toCommitted_eq hf.com]
      · rw [lvls_snoc, r1, hacc']
        show some _ = some (IOId.newLog e.st.vote.data ((x :: xs).getLast?.map (·.id)))
        rw [hz]; rfl
    · intro b hb
      rw [hacc'] at hb
      rw [← Option.some.inj hb, hel]
  · next hdrop =>
    split at hr
    · next hle =>
      rw [pure_ok] at hr; subst hr
      rw [ha1] at hle
      have hmx : max a (IOId.newLog e.st.vote.data el) = a := max_eq_left hle
      rw [hmx] at hacc
      refine ⟨(quiet_same (e := e) (e1 := { e with st := { e.st with io := io } }) (by show io.prog.accepted = _; rw [ha1]; exact hacc) rfl).io g0, ?_⟩
      intro b hb
      have hb' : io.prog.accepted = some b := hb
      have hacc' : io.prog.accepted = some a := hacc
      rw [hacc'] at hb'
      rw [← Option.some.inj hb']; exact hle
    · next hnle =>
      rw [pure_ok] at hr; subst hr
      have hlt : a < IOId.newLog e.st.vote.data el := by
        rw [ha1] at hnle; exact not_le.1 hnle
      have hmx : max a (IOId.newLog e.st.vote.data el) = IOId.newLog e.st.vote.data el := max_eq_right (le_of_lt hlt)
      refine ⟨⟨[_], rfl, fun b hb => ?_⟩, ?_⟩
      · have hab : b = a := by rw [ha1] at hb; exact (Option.some.inj hb).symm
        subst hab
        refine ⟨⟨⟨?_, Or.inl ?_, ?_⟩, trivial⟩, hacc⟩
        · rw [newLog_of hf.com]; exact ha2.symm
        · exact ⟨by rw [ha1]; rfl, le_of_lt hlt⟩
        · intro x hx
          have hx' : el = some x := hx
          have hkl : es.length ≤ k := List.drop_eq_nil_iff.1 hdrop
          have htk : es.take k = es := List.take_of_length_le hkl
          rw [htk] at s4
          have hxl : x ∈ lead ∧ x.index < nextIndex prev + k := by
            rw [← hlst] at hx'
            rcases max_cases prev (es.getLast?.map (·.id)) with h9 | h9
            · rw [h9] at hx'
              refine ⟨hp x hx', ?_⟩
              rw [hx']; simp; omega
            · rw [h9] at hx'
              cases hg : es.getLast? with
              | none => rw [hg] at hx'; cases hx'
              | some z =>
                rw [hg] at hx'; simp at hx'; subst hx'
                exact ⟨hes z (List.mem_of_getLast? hg), s4 z (List.mem_of_getLast? hg)⟩
          refine held_of_pre (e := e) h.lm hl f1 hxl.1 ⟨fun y hy hi => s1.1 y hy ?_, Nat.le_trans ?_ s1.2⟩
          · have : y.index < x.index + 1 := hi
            omega
          · show x.index + 1 ≤ _
            omega
      · intro b hb
        have hb' : io.prog.accepted = some b := hb
        have hacc' : io.prog.accepted = some (max a (IOId.newLog e.st.vote.data el)) := hacc
        rw [hacc', hmx] at hb'
        rw [← Option.some.inj hb']

theorem fhDoAppend_vote {e e' : Eng} {v : Vote} {es : List Ent} (hr : fhDoAppend dbg e v es = .ok e') :
    e'.st.vote = e.st.vote := by
  unfold fhDoAppend at hr
  simp only [bind_ok, pure_ok] at hr
  obtain ⟨_, _, _, _, _, _, e1, he1, hr⟩ := hr
  unfold fhAppendMembership at he1
  split at he1
  · rw [pure_ok] at he1; subst he1; subst hr; rfl
  · simp only [bind_ok, pure_ok] at he1
    obtain ⟨_, _, he1⟩ := he1
    subst he1; subst hr; rfl

/-- the log agrees with the leader's up to the end of the request -/
theorem pre_fhAppendEntries {g0 : Gh} {e e' : Eng} {lead : List LogId} {prev : Option LogId} {es : List Ent}
    (h : EInv g0 e) (hf : Following e) (hl : LeadLog lead e.st.vote.data e.st.lv.L (e.floor e.st.vote.data))
    (hpre : Pre lead e.st (nextIndex prev))
    (hes : ∀ x ∈ es, x.id ∈ lead) (hc : Cons (es.map (·.id)))
    (hh : ∀ x, es.head? = some x → x.id.index = nextIndex prev)
    (hr : fhAppendEntries dbg e e.st.vote.data prev es = .ok e') :
    e'.st.vote = e.st.vote ∧ Pre lead e'.st (nextIndex (max prev (es.getLast?.map (·.id)))) := by
  obtain ⟨f1, f2, f3⟩ := floor_parts (e := e) rfl
  unfold fhAppendEntries at hr
  simp only [bind_ok] at hr
  obtain ⟨_, _, st, hst, k, hk, hr⟩ := hr
  obtain ⟨a, ha1, ha2, ha3⟩ := h.pj.acc
  obtain ⟨⟨io, hio⟩, hacc, a', ha', hav'⟩ := acceptIo_same ha1 ha2 hf.com hst
  subst hio
  have hlm := lm_setIo h.lm io
  obtain ⟨s1, s2, s3, s4⟩ := firstConflicting_spec hlm hl f1 hes hc hh hpre hk
  split at hr
  · next x xs hdrop =>
    rw [bind_ok] at hr
    obtain ⟨e1, he1, hr⟩ := hr
    obtain ⟨t1, t2, t3⟩ := s3 x (by rw [hdrop]; rfl)
    have hxlead : x.id ∈ lead := hes x (List.mem_of_mem_drop (by rw [hdrop]; simp))
    have hfl := floor_le hl hxlead t3
    obtain ⟨h4, h5⟩ := lm_fhTruncate hlm t2 (fun y hy hi => by have := hfl y hy hi; exact Nat.le_trans f2 this) he1
    have hnl : nextIndex prev + k ≤ nextIndex e.st.lastLogId := s1.2
    have hl1 : nextIndex e1.st.lastLogId = x.id.index := h5.last (by
      show _ ≤ nextIndex e.st.lastLogId
      omega)
    have hL1 : ∀ y ∈ e1.st.lv.L, y ∈ lead ∧ y.index < x.id.index := by
      intro y hy
      rw [h5.L] at hy
      obtain ⟨hy1, hy2⟩ := List.mem_filter.1 hy
      have hy3 : y.index < x.id.index := by simpa using hy2
      exact ⟨s1.1 y hy1 (by omega), hy3⟩
    have hsub : ∀ z ∈ x :: xs, z ∈ es := fun z hz => List.mem_of_mem_drop (by rw [hdrop]; exact hz)
    have hcx : Cons ((x :: xs).map (·.id)) := by
      have := hc.drop k
      rw [← List.map_drop, hdrop] at this; exact this
    have hv1 : e1.st.vote.data = e.st.vote.data := by rw [h5.vote]
    obtain ⟨d1, d2, d3, d4, d5, d6, d7, d8, d9, d10⟩ := lm_fhDoAppend h4 (by simp)
      (by intro z hz; simp at hz; subst hz; exact hl1.symm) hcx
      (by
        intro l z hl' hz
        simp at hz; subst hz
        have hlm1 := h4.log.last_mem (x := l) hl'
        exact hl.cons.mono (hL1 l hlm1).1 hxlead (Nat.le_of_lt (hL1 l hlm1).2))
      (by intro z hz; rw [hv1]; exact hl.bound _ (hes z (hsub z hz))) (by rw [hv1]) hr
    have hgl : es.getLast? = (x :: xs).getLast? := by
      rw [← hdrop, List.getLast?_drop, if_neg]
      intro hle
      rw [List.drop_eq_nil_of_le hle] at hdrop; cases hdrop
    obtain ⟨z, hz⟩ : ∃ z, (x :: xs).getLast? = some z := by
      cases hg : (x :: xs).getLast? with
      | none => simp at hg
      | some z => exact ⟨z, rfl⟩
    have hzin := List.mem_of_getLast? hz
    refine ⟨by rw [d4, h5.vote], fun y hy _ => ?_, ?_⟩
    · rw [d2] at hy
      rcases List.mem_append.1 hy with h1 | h1
      · exact (hL1 y h1).1
      · obtain ⟨z, hz, rfl⟩ := List.mem_map.1 h1
        exact hes z (hsub z hz)
    · have hzL : z.id ∈ e'.st.lv.L := by
        rw [d2]; exact List.mem_append_right _ (List.mem_map.2 ⟨z, hzin, rfl⟩)
      have h7 : z.id.index < nextIndex e'.st.lastLogId := d1.log.le_last hzL
      have h8 : x.id.index ≤ z.id.index := hcx.le_last (l := z.id) (by rw [List.getLast?_map, hz]; rfl) (by simp)
      rw [hgl, hz]
      rcases max_cases prev ((some z).map (·.id)) with h9 | h9 <;> rw [h9]
      · omega
      · exact h7
  · next hdrop =>
    have hst' : e'.st = { e.st with io := io } := by
      split at hr <;> (rw [pure_ok] at hr; subst hr; rfl)
    have hle : nextIndex (max prev (es.getLast?.map (·.id))) ≤ nextIndex prev + k := by
      rcases max_cases prev (es.getLast?.map (·.id)) with h9 | h9 <;> rw [h9]
      · omega
      · cases hg : es.getLast? with
        | none => simp
        | some z =>
          have hz : z ∈ es.take k := by
            have h1 := List.take_append_drop k es
            rw [hdrop, List.append_nil] at h1
            rw [h1]; exact List.mem_of_getLast? hg
          have := s4 z hz
          show z.id.index + 1 ≤ _
          omega
    refine ⟨by rw [hst'], fun y hy hi => ?_, ?_⟩
    · rw [hst'] at hy
      exact s1.1 y hy (by omega)
    · rw [hst']
      exact Nat.le_trans hle s1.2

theorem io_fhInstall {g0 : Gh} {e e' : Eng} {m : SnapMeta} {cond : Option Cond} (h : EInv g0 e) (hf : Following e)
    (hr : fhInstall dbg e e.st.vote.data m = .ok (cond, e')) : IoRel g0 e e' := by
  unfold fhInstall at hr
  split at hr
  · rw [pure_ok] at hr; cases hr; exact IoRel.refl _ _
  · simp only [bind_ok, unwrap_ok] at hr
    obtain ⟨x, hx, hr⟩ := hr
    have q0 := quiet_updateSnapshot e m
    split at hr
    · next e1 heq =>
      rw [pure_ok] at hr; cases hr
      rw [heq] at q0; exact q0.io g0
    · next e1 heq =>
      rw [heq] at q0
      simp only [bind_ok, pure_ok] at hr
      obtain ⟨e2, he2, st, hst, ms', hms', hr⟩ := hr
      cases hr
      obtain ⟨a, ha1, ha2, ha3⟩ := h.pj.acc
      have q1 : Quiet e e2 := q0.trans (quiet_fhInstallTruncate _ _ _ he2)
      have hacc := acceptIo_acc (by rw [q1.2]; exact ha1) hst
      obtain ⟨⟨cs, r1, r2⟩, r3⟩ := q1
      refine IoRel.trans (b := Eng.push (updateServerState { e2 with st := { st with committed := some x, ms := ms' } })
        (.sm (.install m (IOId.newLog e.st.vote.data (some x))))) ?_
        (((quiet_same (e1 := { (Eng.push (updateServerState { e2 with st := { st with committed := some x, ms := ms' } })
          (.sm (.install m (IOId.newLog e.st.vote.data (some x))))) with
          st := { (updateServerState { e2 with st := { st with committed := some x, ms := ms' } }).st with purgeUpto := some x } }) rfl rfl).trans
          (quiet_logPurge _)).io g0)
      refine ⟨cs ++ [.sm (.install m (IOId.newLog e.st.vote.data (some x)))], ?_, fun b hb => ?_⟩
      · show e2.out ++ [_] = _
        rw [r1]; simp
      · have hab : b = a := by rw [ha1] at hb; exact (Option.some.inj hb).symm
        subst hab
        obtain ⟨u1, u2⟩ := quiet_lvls r2 (g0.runs e.out) b
        refine ⟨COks_append.2 ⟨u2, ?_, trivial⟩, ?_⟩
        · show IOId.newLog e.st.vote.data (some x) = ⟨(lvls b cs).vote, m.lastLogId⟩
          rw [u1, newLog_of hf.com, ha2, hx]
        · rw [lvls_snoc, u1]; exact hacc

theorem io_handleAppend {g0 : Gh} {tx : Nat} {e e' : Eng} {v : Vote} {prev : Option LogId} {es : List Ent}
    {lc : Option LogId} (h : EInv g0 e) (ho : e.st.vote.data ≤ v → AppendOk e v prev es lc)
    (hr : e.handleAppend dbg now tx v prev es lc = .ok e') : IoRel g0 e e' := by
  unfold handleAppend at hr
  rw [bind_ok] at hr
  obtain ⟨⟨r, e1⟩, he1, hr⟩ := hr
  have hinv := (inv_appendEntries h ho he1).1
  simp only at hr
  -- the part before the answer
  have k3 : ∀ w, r = .higherVote w → (g0.runs e1.out).vote = w := by
    intro w hw
    rw [hinv.pj.gv]
    unfold appendEntries at he1
    rw [bind_ok] at he1
    obtain ⟨⟨ok, e2⟩, he2, he1⟩ := he1
    simp only at he1
    split at he1
    · simp only [bind_ok] at he1
      obtain ⟨_, _, ⟨ok2, e3⟩, _, he1⟩ := he1
      simp only at he1
      split at he1
      · simp only [bind_ok, pure_ok] at he1
        obtain ⟨_, _, he1⟩ := he1
        cases he1; cases hw
      · rw [pure_ok] at he1; cases he1; cases hw
    · rw [pure_ok] at he1; cases he1; cases hw; rfl
  have key : IoRel g0 e e1 ∧ (r = .success → (∀ a, e1.st.io.prog.accepted = some a → a.vote = v) ∧
      (g0.runs e1.out).vote = v ∧ ∀ x, max prev (es.getLast?.map (·.id)) = some x →
        x ∈ (g0.runs e1.out).ids ∨
          some x ≤ (g0.runs e1.out).store.purged ∧ x.index < nextIndex (g0.runs e1.out).store.purged) := by
    have he0 := he1
    unfold appendEntries at he1
    rw [bind_ok] at he1
    obtain ⟨⟨ok, e2⟩, he2, he1⟩ := he1
    simp only at he1
    cases ok with
    | false =>
      simp only [Bool.false_eq_true, if_false] at he1
      rw [pure_ok] at he1
      cases he1
      refine ⟨?_, fun hx => by cases hx⟩
      unfold updateVote at he2
      split at he2
      · simp only [bind_ok, pure_ok] at he2
        obtain ⟨_, _, _, _, he2⟩ := he2
        cases he2
      · rw [pure_ok] at he2; cases he2; exact IoRel.refl _ _
    | true =>
      have hle : e.st.vote.data ≤ v := by
        by_contra hn
        unfold updateVote at he2
        rw [if_neg hn, pure_ok] at he2
        cases he2
      obtain ⟨hnd, hcm, lead, hl, hp, hes, hc, hh, hlc⟩ := ho hle
      have hio2 := io_updateVote h (fun hx => absurd hx hnd) he2
      obtain ⟨hinv2, _, _, hb⟩ := inv_updateVote h (fun hx => absurd hx hnd) he2
      have hbe := hb rfl hcm hnd
      simp only [if_true, bind_ok] at he1
      obtain ⟨lv, hlv, ⟨ok2, e3⟩, he3, he1⟩ := he1
      have hlv := followingHandler_ok hlv
      rw [toCommitted_eq hbe.fol.com] at hlv
      have hl' : LeadLog lead e2.st.vote.data e2.st.lv.L (e2.floor e2.st.vote.data) := by
        rw [hbe.vote, hbe.L, hbe.floor]; exact hl
      simp only at he1
      cases ok2 with
      | false =>
        simp only [Bool.false_eq_true, if_false] at he1
        rw [pure_ok] at he1
        cases he1
        exact ⟨hio2.trans ((quiet_fhEnsure _ _ _ he3).io g0), fun hx => by cases hx⟩
      | true =>
        simp only [if_true, bind_ok, pure_ok] at he1
        obtain ⟨e4, he4, he1⟩ := he1
        cases he1
        obtain ⟨h1, h2, h3⟩ := fhEnsure_true hinv2.lm hl' (floor_parts rfl).1 hp he3
        subst h1
        rw [hlv] at he4
        obtain ⟨hio4, _⟩ := io_fhAppendEntries hinv2 hbe.fol hl' h2 hp hes hc hh he4
        obtain ⟨k1, k2, k3⟩ := inv_fhAppendEntries hinv2 hbe.fol hl' h2 h3 hp hes hc hh he4
        refine ⟨hio2.trans hio4, fun _ => ?_⟩
        obtain ⟨hv1, hpr⟩ := pre_fhAppendEntries hinv2 hbe.fol hl' h2 hes hc hh he4
        have hvd : e1.st.vote.data = v := by rw [hv1]; exact hbe.vote
        obtain ⟨b, hb1, hb2, _⟩ := k1.pj.acc
        refine ⟨fun a ha => ?_, by rw [k1.pj.gv]; exact hvd, fun x hx => ?_⟩
        · rw [hb1] at ha
          rw [← Option.some.inj ha, hb2]; exact hvd
        · have hxl : x ∈ lead := by
            rcases max_cases prev (es.getLast?.map (·.id)) with h9 | h9
            · rw [h9] at hx; exact hp x hx
            · rw [h9] at hx
              cases hg : es.getLast? with
              | none => rw [hg] at hx; cases hx
              | some z => rw [hg] at hx; simp at hx; subst hx; exact hes z (List.mem_of_getLast? hg)
          rw [hx] at hpr
          exact held_of_pre k1.lm k3.log (Nat.le_refl _) hxl hpr
  obtain ⟨k1, k2⟩ := key
  split at hr
  · next hs =>
    simp only [bind_ok, unwrap_ok] at hr
    obtain ⟨acc, hacc, _, _, hr⟩ := hr
    obtain ⟨m1, m2, m3⟩ := k2 hs
    subst hs
    refine (k1.trans (IoRel.push fun a ha => ⟨?_, rfl⟩)).trans ((quiet_fhCommit _ _ _ hr).io g0)
    have : acc = a := by rw [hacc] at ha; exact Option.some.inj ha
    subst this
    exact ⟨rfl, m1 acc hacc, m2, m3⟩
  · next hs =>
    rw [pure_ok] at hr
    subst hr
    refine k1.trans (IoRel.push fun a ha => ⟨?_, rfl⟩)
    cases r with
    | success => exact absurd rfl hs
    | conflict => rfl
    | higherVote w => exact ⟨k3 w rfl, rfl⟩

/-- what the answer to a snapshot waits for -/
theorem fhInstall_cond {e e' : Eng} {v : Vote} {m : SnapMeta} {w : Option Cond} (hr : fhInstall dbg e v m = .ok (w, e')) :
    ∀ k, w = some k → ∃ l, k = .snapshot l := by
  unfold fhInstall at hr
  split at hr
  · rw [pure_ok] at hr; cases hr; intro k hk; cases hk
  · simp only [bind_ok] at hr
    obtain ⟨last, _, hr⟩ := hr
    split at hr
    · rw [pure_ok] at hr; cases hr; intro k hk; cases hk
    · simp only [bind_ok, pure_ok] at hr
      obtain ⟨_, _, _, _, _, _, hr⟩ := hr
      cases hr
      intro k hk
      exact ⟨_, (Option.some.inj hk).symm⟩

theorem io_handleInstall {g0 : Gh} {tx : Nat} {e e' : Eng} {v : Vote} {m : SnapMeta} (h : EInv g0 e)
    (ho : InputOk e (.snapReq tx v m)) (hr : e.handleInstall dbg now tx v m = .ok e') : IoRel g0 e e' := by
  have h0 := hr
  unfold handleInstall at hr
  rw [bind_ok] at hr
  obtain ⟨⟨ok, e1⟩, he1, hr⟩ := hr
  simp only at hr
  cases ok with
  | false =>
    simp only [Bool.false_eq_true, if_false] at hr
    rw [pure_ok] at hr
    have : e1 = e := by
      unfold updateVote at he1
      split at he1
      · simp only [bind_ok, pure_ok] at he1
        obtain ⟨_, _, _, _, he1⟩ := he1
        cases he1
      · rw [pure_ok] at he1; cases he1; rfl
    subst hr
    rw [this]
    exact IoRel.push fun a _ => ⟨⟨h.pj.gv, fun k hk => Or.inl (Option.some.inj hk).symm⟩, rfl⟩
  | true =>
    have hle : e.st.vote.data ≤ v := by
      by_contra hn
      unfold updateVote at he1
      rw [if_neg hn, pure_ok] at he1
      cases he1
    obtain ⟨hnd, hcm, hso⟩ := ho hle
    obtain ⟨hinv, _, _, hb⟩ := inv_updateVote h (fun hx => absurd hx hnd) he1
    have hio := io_updateVote h (fun hx => absurd hx hnd) he1
    have hbe := hb rfl hcm hnd
    simp only [if_true, bind_ok, pure_ok] at hr
    obtain ⟨lv, hlv, ⟨cond, e2⟩, he2, hr⟩ := hr
    have hlv := followingHandler_ok hlv
    rw [toCommitted_eq hbe.fol.com] at hlv
    rw [hlv] at he2
    subst hr
    have h2 : (g0.runs e2.out).vote = e2.st.vote.data := by
      have h9 := inv_handleInstall h ho h0
      have h10 := h9.pj.gv
      have h11 : (g0.runs (e2.out ++ [.respond cond tx (.snapshot e2.st.vote.data)])).vote = e2.st.vote.data := h10
      rw [Gh.runs_snoc] at h11
      exact h11
    exact (hio.trans (io_fhInstall hinv hbe.fol he2)).trans
      (IoRel.push fun a _ => ⟨⟨h2, fun k hk => Or.inr (fhInstall_cond he2 k hk)⟩, rfl⟩)

theorem io_writeEntry {g0 : Gh} {e e' : Eng} {p : Payload} {r : Option Nat} (h : EInv g0 e)
    (hr : e.writeEntry dbg p = .ok (r, e')) : IoRel g0 e e' := by
  unfold writeEntry at hr
  rw [bind_ok] at hr
  obtain ⟨lo, hlo, hr⟩ := hr
  have hlo := leaderHandler_ok hlo
  split at hr
  · rw [pure_ok] at hr; cases hr; exact IoRel.refl _ _
  · next l =>
    split at hr
    · rw [pure_ok] at hr; cases hr; exact IoRel.refl _ _
    · simp only [bind_ok, pure_ok, unwrap_ok] at hr
      obtain ⟨e1, he1, last, _, hr⟩ := hr
      cases hr
      exact io_lhAppend h hlo.symm he1

theorem io_tickElection {g0 : Gh} {en : Bool} {e e' : Eng} (h : EInv g0 e)
    (hr : e.tickElection dbg now en = .ok e') : IoRel g0 e e' := by
  unfold tickElection at hr
  split at hr
  · rw [pure_ok] at hr; subst hr; exact IoRel.refl _ _
  · split at hr
    · rw [pure_ok] at hr; subst hr; exact IoRel.refl _ _
    · split at hr
      · rw [pure_ok] at hr; subst hr; exact IoRel.refl _ _
      · have hgo : ∀ b : Bool, (if b = true then elect dbg now { e with seenGreater := false } else pure e) = .ok e' →
            IoRel g0 e e' := by
          intro b hb
          cases b with
          | true =>
            obtain ⟨a, ha1, ha2, _⟩ := h.pj.acc
            exact io_elect (e := { e with seenGreater := false }) ha1 (le_of_eq ha2) hb
          | false =>
            simp only [Bool.false_eq_true, if_false] at hb
            rw [pure_ok] at hb; subst hb; exact IoRel.refl _ _
        exact hgo _ hr

theorem io_handleVoteResp {g0 : Gh} {e e' : Eng} {target : NodeId} {v : Vote}
    {last : Option LogId} {granted : Bool} (h : EInv g0 e) (hv : VoteOk e v)
    (hr : e.handleVoteResp dbg now target v last granted = .ok e') : IoRel g0 e e' := by
  unfold handleVoteResp at hr
  split at hr
  · rw [pure_ok] at hr; subst hr; exact IoRel.refl _ _
  · next c hc =>
    have hk := h.pj.cand c hc
    split at hr
    · simp only [bind_ok] at hr
      obtain ⟨c1, hc1, hr⟩ := hr
      unfold grantBy at hc1
      rw [bind_ok] at hc1
      obtain ⟨p, _, hc1⟩ := hc1
      rw [pure_ok] at hc1
      have hinv : EInv g0 { e with candidate := some c1 } := by
        refine ⟨h.lm.state rfl h.lm.log h.lm.mem, h.pj.gv, h.pj.acc, ?_, ?_, h.pj.nolead⟩
        · intro l hl
          have : e.leader = some l := hl
          rw [hk.nl] at this; cases this
        · intro c2 hc2
          have : c2 = c1 := (Option.some.inj hc2).symm
          subst this
          subst hc1
          exact ⟨hk.vote, hk.com, hk.node, hk.last, hk.nl⟩
      have hq : Quiet e { e with candidate := some c1 } := quiet_same rfl rfl
      split at hr
      · exact (hq.io g0).trans (io_establishLeader hinv hr)
      · rw [pure_ok] at hr; subst hr; exact hq.io g0
    · simp only [bind_ok] at hr
      obtain ⟨⟨ok, e2⟩, he2, hr⟩ := hr
      rw [pure_ok] at hr
      simp only at hr
      subst hr
      split at he2
      · have hf : Frame e { e with seenGreater := true } :=
          ⟨rfl, rfl, rfl, rfl, fun _ => rfl, rfl, LSame.refl _, [], by simp, by simp⟩
        exact ((quiet_same (e := e) (e1 := { e with seenGreater := true }) rfl rfl).io g0).trans (io_updateVote (hf.inv h) hv he2)
      · exact io_updateVote h hv he2

/-- the commands an input adds keep the order of the IO ids, and the accepted id is their level -/
theorem io_input {g0 : Gh} {e e' : Eng} {i : Input} (h : EInv g0 e) (ho : InputOk e i)
    (hr : e.input dbg now i = .ok e') : IoRel g0 e e' := by
  have hinv := inv_input h ho hr
  cases i with
  | appendReq tx v prev es lc => exact io_handleAppend h ho hr
  | voteReq tx v last =>
    simp only [input, coreVoteReq, bind_ok, pure_ok] at hr
    obtain ⟨⟨r, e1⟩, he1, hr⟩ := hr
    subst hr
    have hg : (g0.runs e1.out).vote = e1.st.vote.data := by
      have h10 := hinv.pj.gv
      have h11 : (g0.runs (e1.out ++ [.respond (some (.ioFlushed (IOId.new e1.st.vote.data))) tx r])).vote = e1.st.vote.data := h10
      rw [Gh.runs_snoc] at h11
      exact h11
    have hp : (∃ l g, r = .vote e1.st.vote.data l g) → IoRel g0 e1 (e1.push (.respond (some (.ioFlushed (IOId.new e1.st.vote.data))) tx r)) := by
      rintro ⟨l, g, rfl⟩
      exact IoRel.push fun a _ => ⟨⟨rfl, hg⟩, rfl⟩
    unfold handleVoteReq at he1
    split at he1
    · rw [pure_ok] at he1; cases he1; exact hp ⟨_, _, rfl⟩
    · split at he1
      · simp only [bind_ok, pure_ok] at he1
        obtain ⟨⟨ok, e2⟩, he2, he1⟩ := he1
        cases he1
        exact (io_updateVote h ho he2).trans (hp ⟨_, _, rfl⟩)
      · rw [pure_ok] at he1; cases he1; exact hp ⟨_, _, rfl⟩
  | snapReq tx v m => exact io_handleInstall h ho hr
  | init tx m =>
    simp only [input, coreInit, bind_ok, pure_ok] at hr
    obtain ⟨⟨ok, e1⟩, he1, hr⟩ := hr
    subst hr
    exact (io_initCluster h he1).trans (IoRel.push fun a _ => ⟨(fun k hk => by
      dsimp only at hk
      split at hk
      · exact ⟨_, (Option.some.inj hk).symm⟩
      · cases hk), rfl⟩)
  | write p =>
    simp only [input, bind_ok, pure_ok] at hr
    obtain ⟨⟨r, e1⟩, he1, hr⟩ := hr
    subst hr
    exact io_writeEntry h he1
  | change c r =>
    simp only [input, bind_ok, pure_ok] at hr
    obtain ⟨⟨r', e1⟩, he1, hr⟩ := hr
    subst hr
    unfold changeMembership at he1
    split at he1
    · rw [pure_ok] at he1; cases he1; exact IoRel.refl _ _
    · exact io_writeEntry h he1
  | handleTransfer v target =>
    simp only [input, coreHandleTransfer] at hr
    split at hr
    · have hq : Quiet e { e with st := { e.st with vote := e.st.vote.disable } } := quiet_same rfl rfl
      split at hr
      · obtain ⟨a, ha1, ha2, _⟩ := h.pj.acc
        exact (hq.io g0).trans (io_elect (a := a) ha1 (le_of_eq ha2) hr)
      · rw [pure_ok] at hr; subst hr; exact hq.io g0
    · rw [pure_ok] at hr; subst hr; exact IoRel.refl _ _
  | electCmd =>
    simp only [input, coreElect] at hr
    split at hr
    · exact io_electCmd h hr
    · rw [pure_ok] at hr; subst hr; exact IoRel.refl _ _
  | heartbeatCmd => exact (quiet_coreHeartbeat _ _ hr).io g0
  | snapshotCmd =>
    simp only [input, pure_ok] at hr
    subst hr
    exact (quiet_triggerSnapshot _).io g0
  | purgeCmd u => exact (quiet_triggerPurge _ _ _ hr).io g0
  | transferCmd t => exact (quiet_triggerTransfer _ _ _ hr).io g0
  | voteResp target v last granted sender =>
    simp only [input] at hr
    split at hr
    · exact io_handleVoteResp h ho hr
    · rw [pure_ok] at hr; subst hr; exact IoRel.refl _ _
  | higherVote v sender =>
    simp only [input] at hr
    split at hr
    · rw [bind_ok] at hr
      obtain ⟨⟨ok, e1⟩, he1, hr⟩ := hr
      rw [pure_ok] at hr
      simp only at hr
      subst hr
      exact io_updateVote h ho he1
    · rw [pure_ok] at hr; subst hr; exact IoRel.refl _ _
  | tick el hb iv =>
    simp only [input, coreTick, bind_ok] at hr
    obtain ⟨e1, he1, e2, he2, hr⟩ := hr
    have h2 := (frame_tickHeartbeat he2).inv (inv_tickElection h he1)
    have hio := (io_tickElection h he1).trans ((quiet_tickHeartbeat _ _ _ _ he2).io g0)
    split at hr
    · unfold leaderStepDown at hr
      split at hr
      · exact hio.trans ((quiet_updateInternal h2 hr).io g0)
      · rw [pure_ok] at hr; subst hr; exact hio
    · rw [pure_ok] at hr; subst hr; exact hio
  | localIO io =>
    simp only [input, coreLocalIO, bind_ok] at hr
    obtain ⟨p, hp, hr⟩ := hr
    have hp := flush_ok hp
    have hq : Quiet e (e.withProg p) := quiet_same (by rw [hp]; rfl) rfl
    split at hr
    · split at hr
      · split at hr
        · exact (hq.trans (quiet_rhUpdateLocal _ _ _ _ hr)).io g0
        · rw [pure_ok] at hr; subst hr; exact hq.io g0
      · rw [pure_ok] at hr; subst hr; exact hq.io g0
    · rw [pure_ok] at hr; subst hr; exact hq.io g0
  | replProgress s target r =>
    simp only [input, coreReplProgress] at hr
    split at hr
    · simp only [bind_ok, unwrap_ok] at hr
      obtain ⟨l, hl, hr⟩ := hr
      exact (quiet_rhUpdateProgress _ _ _ _ _ hr).io g0
    · rw [pure_ok] at hr; subst hr; exact IoRel.refl _ _
  | hbProgress s target t =>
    simp only [input, coreHbProgress] at hr
    split at hr
    · simp only [bind_ok, unwrap_ok] at hr
      obtain ⟨l, hl, hr⟩ := hr
      exact (quiet_rhUpdateClock _ _ _ _ _ hr).io g0
    · rw [pure_ok] at hr; subst hr; exact IoRel.refl _ _
  | built m =>
    simp only [input, coreBuilt, bind_ok, pure_ok] at hr
    obtain ⟨e1, he1, io, hio, hr⟩ := hr
    have hio := updateSnapshotIO_ok hio
    subst hr
    exact ((quiet_finishBuilding _ _ _ he1).trans (quiet_same (e := e1) (e1 := { e1 with st := { e1.st with io := io } }) (by rw [hio]) rfl)).io g0
  | installed io m =>
    simp only [input, coreInstalled, bind_ok, pure_ok] at hr
    obtain ⟨p, hp, s1, hs1, s2, hs2, hr⟩ := hr
    have hp := flush_ok hp
    have hs1 := updateApplied_ok hs1
    have hs2 := updateSnapshotIO_ok hs2
    subst hr
    exact (quiet_same (e := e) (e1 := { e with st := { e.st with io := s2 } }) (by rw [hs2, hs1, hp]) rfl).io g0
  | applied last =>
    simp only [input, coreApplied, bind_ok, pure_ok] at hr
    obtain ⟨s, hs, hr⟩ := hr
    have hs := updateApplied_ok hs
    subst hr
    exact (quiet_same (e := e) (e1 := { e with st := { e.st with io := s } }) (by rw [hs]) rfl).io g0
  | initiate =>
    simp only [input, coreInitiate, bind_ok] at hr
    obtain ⟨lo, _, hr⟩ := hr
    split at hr
    · rw [pure_ok] at hr; subst hr; exact IoRel.refl _ _
    · exact (quiet_rhInitiate _ _ _ hr).io g0

/-- the commands of the start -/
theorem io_startup {g0 : Gh} {e e' : Eng} (h : StartOk g0 e)
    (hn : ∀ a, e.st.io.prog.accepted = some a → a.last = none) (hr : startup dbg now e = .ok e') : IoRel g0 e e' := by
  have hinv := inv_startup h hr
  unfold startup at hr
  split at hr
  · next hil =>
    unfold updateInternal at hr
    rw [if_pos hil] at hr
    unfold becomeLeader at hr
    rw [h.leader] at hr
    simp only at hr
    unfold becomeNewLeader at hr
    simp only [bind_ok, unwrap_ok] at hr
    obtain ⟨l, hl, st, hst, l2, hl2, hr⟩ := hr
    obtain ⟨hv, hlast, hvp⟩ := newLeader_ok hl
    rw [byLastLeader_last] at hlast
    have hcm : e.st.vote.data.committed = true := by
      unfold RState.isLeader at hil; simp at hil; exact hil.2
    have hnode : e.st.vote.data.leaderId.node = e.cfg.id := by
      unfold RState.isLeader RState.isLeading at hil; simp at hil; exact hil.1.2
    have hlvd : l.vote = e.st.vote.data := by rw [hv, toCommitted_eq hcm]
    obtain ⟨a, ha1, ha2, ha3⟩ := h.acc
    have hacc0 := acceptIo_acc ha1 hst
    obtain ⟨⟨io, hio⟩, hacc, a', ha', hav'⟩ := acceptIo_same ha1 (by rw [ha2, hlvd]) (by rw [hlvd]; exact hcm) hst
    subst hio
    obtain ⟨e1, he1⟩ : ∃ e1, e1 = updateServerState (Eng.push { e with st := { e.st with io := io }, leader := some l }
      (.updateIO none (IOId.newLog l.vote l.lastLogId))) := ⟨_, rfl⟩
    have hout : e1.out = e.out ++ [.updateIO none (IOId.newLog l.vote l.lastLogId)] := by rw [he1]; rfl
    have hgr : g0.runs e1.out = g0.runs e.out := by rw [hout, Gh.runs_snoc]; rfl
    have hio1 : IoRel g0 e e1 := by
      refine ⟨[_], hout, fun b hb => ?_⟩
      have hab : b = a := by rw [ha1] at hb; exact (Option.some.inj hb).symm
      subst hab
      refine ⟨⟨⟨?_, Or.inr ⟨rfl, hn b hb⟩, ?_⟩, trivial⟩, ?_⟩
      · show l.vote.toCommitted = _
        rw [hlvd, toCommitted_eq hcm, ha2]
      · intro x hx
        have hx' : e.st.lastLogId = some x := hlast.symm.trans hx
        have hxm := h.lm.log.last_mem (x := x) hx'
        rw [h.lm.log.cpl] at hxm
        rcases List.mem_append.1 hxm with h9 | h9
        · right
          rw [h.lm.log.stp]
          cases hq : e.st.lv.lastPurged with
          | none => rw [hq] at h9; cases h9
          | some q => rw [hq] at h9; simp at h9; subst h9; exact ⟨le_refl _, Nat.lt_succ_self _⟩
        · exact Or.inl h9
      · rw [he1]; exact hacc0
    have hinv1 : EInv g0 e1 := by
      refine ⟨⟨?_, ?_, ?_⟩, ?_, ?_, ?_, ?_, ?_⟩
      · rw [hout, Gh.oks_snoc]; exact ⟨h.lm.oks, trivial⟩
      · rw [hgr, he1]; exact h.lm.log
      · rw [hgr, he1]; exact h.lm.mem
      · rw [hgr, he1]; exact h.gv
      · refine ⟨a', by rw [he1]; exact ha', by rw [hav', hlvd, he1]; rfl, ?_⟩
        have hal : a'.last = max a.last l.lastLogId := by
          rw [← hacc]; unfold RState.accLast
          rw [show ({ e.st with io := io } : RState).io.prog.accepted = some a' from ha']; rfl
        rw [hal]
        have hk0 : KnownO e.st.lv l.lastLogId := by
          intro x hx; rw [hlast] at hx; exact Or.inl (h.lm.log.last_mem hx)
        have : e1.st.lv = e.st.lv := by rw [he1]; rfl
        rw [this]
        exact KnownO.max ha3 hk0
      · intro l4 hl4
        have : l4 = l := by rw [he1] at hl4; exact (Option.some.inj hl4).symm
        subst this
        refine ⟨by rw [hlvd, he1]; rfl, by rw [he1]; exact hcm, by rw [he1]; exact hnode, by rw [hlast, he1]; rfl, ?_, ?_⟩
        · rw [hvp]; exact VecProgress.All.new _ _ KnownO.none
        · rw [he1]
          show RState.calcServerState _ _ = _
          unfold RState.calcServerState
          exact if_pos hil
      · intro c hc
        have : e1.candidate = e.candidate := by rw [he1]; rfl
        rw [this, h.cand] at hc; cases hc
      · intro hn; rw [he1] at hn; cases hn
    rw [← he1] at hr hl2
    have hf := frame_rhRebuildStreams (e := e1) (l := l) (by rw [he1]; exact LSame.refl _)
    have hinv2 := hf.inv hinv1
    have hio2 := hio1.trans ((quiet_rhRebuildStreams e1 l).io g0)
    split at hr
    · exact hio2.trans (io_lhAppend hinv2 hl2 hr)
    · exact hio2.trans ((quiet_rhInitiate _ _ _ hr).io g0)
  · rw [pure_ok] at hr
    subst hr
    exact (quiet_same (e := e) rfl rfl).io g0

end Eng
end Openraft.Engine
