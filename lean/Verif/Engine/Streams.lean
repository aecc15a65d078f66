import Verif.Engine.SafeStep

/-!
# Replication streams: every `Replicate` command has its stream

`RebuildReplicationStreams` sets the targets that have a replication task; a later `Replicate` command to
some target finds its task only if the last rebuild before it has the target. The walk below shows that the
targets of the last rebuild are the members in the leader's progress, but for the leader itself.
-/

set_option autoImplicit false

namespace Openraft.Engine
open Openraft.Repl (Panic dassert Inflight)
open Openraft.Cluster (Payload)
open Openraft.VecProgress (ids)

/-- the targets with a replication task after a command -/
def Cmd.streams (r : List NodeId) : Cmd → List NodeId
  | .rebuild ts => ts.map (·.1)
  | _ => r

/-- the targets with a replication task after some commands -/
def streams (r : List NodeId) (cs : List Cmd) : List NodeId := cs.foldl Cmd.streams r

theorem streams_append (r : List NodeId) (a b : List Cmd) : streams r (a ++ b) = streams (streams r a) b := by
  unfold streams; rw [List.foldl_append]

/-- every `Replicate` command has its task -/
def HasStreams (r : List NodeId) (cs : List Cmd) : Prop :=
  ∀ pre t i post, cs = pre ++ Cmd.replicate t i :: post → t ∈ streams r pre

theorem HasStreams.nil (r : List NodeId) : HasStreams r [] := by
  intro pre t i post h
  cases pre <;> cases h

theorem HasStreams.append {r : List NodeId} {a b : List Cmd} :
    HasStreams r (a ++ b) ↔ HasStreams r a ∧ HasStreams (streams r a) b := by
  constructor
  · intro h
    refine ⟨fun pre t i post hx => h pre t i (post ++ b) (by rw [hx]; simp), fun pre t i post hx => ?_⟩
    rw [← streams_append]
    exact h (a ++ pre) t i post (by rw [hx]; simp)
  · rintro ⟨h1, h2⟩ pre t i post hx
    rcases List.append_eq_append_iff.1 hx with ⟨c, rfl, hc⟩ | ⟨c, rfl, hc⟩
    · rw [streams_append]; exact h2 c t i post hc
    · cases c with
      | nil =>
        simp only [List.nil_append] at hc
        have := h2 [] t i post hc.symm
        rw [List.append_nil] at this; exact this
      | cons x xs =>
        simp only [List.cons_append, List.cons.injEq] at hc
        obtain ⟨rfl, _⟩ := hc
        exact h1 pre t i xs rfl

/-- a command that neither rebuilds the streams nor uses one -/
def Cmd.noStream : Cmd → Prop
  | .rebuild _ => False
  | .replicate _ _ => False
  | _ => True

theorem Cmd.streams_plain {c : Cmd} (h : c.noStream) (r : List NodeId) : c.streams r = r := by
  cases c <;> first | rfl | cases h

theorem HasStreams.plain {r : List NodeId} {c : Cmd} (h : c.noStream) : HasStreams r [c] := by
  intro pre t i post hx
  cases pre with
  | nil => simp only [List.nil_append, List.cons.injEq] at hx; obtain ⟨rfl, _⟩ := hx; cases h
  | cons x xs => simp at hx

theorem HasStreams.rebuild {r : List NodeId} {ts : List (NodeId × Repl.Entry)} : HasStreams r [.rebuild ts] := by
  intro pre t i post hx
  cases pre with
  | nil => simp at hx
  | cons x xs => simp at hx

/-- the streams of a leader are those of its progress -/
def StrL (r : List NodeId) (e : Eng) (l : Leader) : Prop :=
  ∀ t, t ∈ streams r e.out ↔ t ∈ ids l.progress.vp.vector ∧ t ≠ e.cfg.id

/-- streams are rebuilt before they are used -/
structure StrInv (r : List NodeId) (e : Eng) : Prop where
  has : HasStreams r e.out
  lead : ∀ l, e.leader = some l → StrL r e l

variable {r : List NodeId}

theorem StrL.same {e e1 : Eng} {l l' : Leader} (h : StrL r e l) (hp : (ids l'.progress.vp.vector).Perm (ids l.progress.vp.vector) := by exact List.Perm.refl _)
    (h1 : e1.out = e.out := by rfl) (h2 : e1.cfg = e.cfg := by rfl) : StrL r e1 l' := by
  intro t; rw [h1, h2, h t, hp.mem_iff]

theorem StrInv.same {e e1 : Eng} (h : StrInv r e) (h1 : e1.out = e.out := by rfl) (h2 : e1.leader = e.leader := by rfl)
    (h3 : e1.cfg = e.cfg := by rfl) : StrInv r e1 :=
  ⟨by rw [h1]; exact h.has, fun l hl => StrL.same (h.lead l (by rw [← h2]; exact hl)) (List.Perm.refl _) h1 h3⟩

theorem StrInv.none {e e1 : Eng} (h : StrInv r e) (h2 : e1.leader = none := by rfl) (h1 : e1.out = e.out := by rfl) : StrInv r e1 :=
  ⟨by rw [h1]; exact h.has, fun l hl => by rw [h2] at hl; cases hl⟩

theorem StrInv.set {e e1 : Eng} {l : Leader} (h : StrInv r e) (h2 : e1.leader = some l) (hl : StrL r e l) (h1 : e1.out = e.out := by rfl)
    (h3 : e1.cfg = e.cfg := by rfl) : StrInv r e1 :=
  ⟨by rw [h1]; exact h.has, fun l' hl' => by rw [h2] at hl'; cases hl'; exact hl.same (List.Perm.refl _) h1 h3⟩

theorem StrL.push {e : Eng} {l : Leader} {c : Cmd} (h : StrL r e l) (hc : c.noStream := by trivial) : StrL r (e.push c) l := by
  intro t
  show t ∈ streams r (e.out ++ [c]) ↔ _
  rw [streams_append]
  show t ∈ c.streams (streams r e.out) ↔ _
  rw [Cmd.streams_plain hc]; exact h t

theorem StrInv.push {e : Eng} {c : Cmd} (h : StrInv r e) (hc : c.noStream := by trivial) : StrInv r (e.push c) := by
  refine ⟨?_, fun l hl => (h.lead l hl).push hc⟩
  show HasStreams r (e.out ++ [c])
  exact HasStreams.append.2 ⟨h.has, HasStreams.plain hc⟩

/-- `StrInv` for a result -/
def StrR (r : List NodeId) {α : Type} (π : α → Eng) (x : Res α) : Prop := ∀ a, x = .ok a → StrInv r (π a)

namespace StrR
variable {α β : Type} {π : α → Eng}

theorem pure {a : α} (h : StrInv r (π a)) : StrR r π (Pure.pure a) := by
  intro b hb; rw [pure_ok] at hb; subst hb; exact h

theorem bind {x : Res β} {f : β → Res α} (h : ∀ b, x = .ok b → StrR r π (f b)) : StrR r π (x >>= f) := by
  intro a ha; rw [bind_ok] at ha
  obtain ⟨b, hx, hb⟩ := ha; exact h b hx a hb

theorem bindE (π' : β → Eng) {x : Res β} {f : β → Res α} (hx : StrR r π' x) (h : ∀ b, StrInv r (π' b) → StrR r π (f b)) :
    StrR r π (x >>= f) := by
  intro a ha; rw [bind_ok] at ha
  obtain ⟨b, hx', hb⟩ := ha; exact h b (hx b hx') a hb

end StrR

namespace Eng
variable {dbg : Bool} {now : Nat} {e : Eng} {l : Leader}

theorem str_logPurge (h : StrInv r e) : StrInv r e.logPurge := by
  unfold logPurge
  split
  · exact h
  · split
    · exact h
    · exact StrInv.push h.same

theorem str_updatePurgeUpto (h : StrInv r e) (x : LogId) : StrR r id (e.updatePurgeUpto dbg x) := by
  unfold updatePurgeUpto
  exact StrR.bind fun _ _ => StrR.pure h.same

theorem str_schedulePurge (h : StrInv r e) : StrR r id (e.schedulePurge dbg) := by
  unfold schedulePurge
  refine StrR.bind fun o _ => ?_
  split
  · exact str_updatePurgeUpto h _
  · exact StrR.pure h

theorem str_triggerSnapshot (h : StrInv r e) : StrInv r e.triggerSnapshot := by
  unfold triggerSnapshot
  split
  · exact h
  · exact StrInv.push h.same

theorem str_updateSnapshot (h : StrInv r e) (m : SnapMeta) : StrInv r (e.updateSnapshot m).2 := by
  unfold updateSnapshot
  split
  · exact h
  · exact h.same

theorem str_maybeSnapshot (h : StrInv r e) : StrInv r e.maybeSnapshot := by
  unfold maybeSnapshot
  split
  · exact str_triggerSnapshot h
  · exact h

theorem str_rhRebuildStreams (h : HasStreams r e.out) : StrInv r (e.rhRebuildStreams l) ∧
    ∀ l', (e.rhRebuildStreams l).leader = some l' → StrL r (e.rhRebuildStreams l) l' := by
  have key : StrInv r (e.rhRebuildStreams l) := by
    unfold rhRebuildStreams
    refine ⟨HasStreams.append.2 ⟨h, HasStreams.rebuild⟩, ?_⟩
    intro l' hl'
    have hl' : some _ = some l' := hl'
    cases hl'
    intro t
    show t ∈ streams r (e.out ++ [_]) ↔ t ∈ progIds l ∧ t ≠ e.cfg.id
    rw [streams_append]
    simp [streams, Cmd.streams]
  exact ⟨key, key.lead⟩

theorem rhInitLoop_targets {me : NodeId} {v : Repl.LogView} {max : Nat} {ns : List NodeId} {ent : NodeId → Repl.Entry}
    {out : List Cmd} {q : (NodeId → Repl.Entry) × List Cmd} (h : rhInitLoop dbg me v max ns ent out = .ok q) :
    ∃ cs, q.2 = out ++ cs ∧ ∀ c ∈ cs, ∃ t i, c = .replicate t i ∧ t ∈ ns ∧ t ≠ me := by
  induction ns generalizing ent out with
  | nil => rw [rhInitLoop, pure_ok] at h; subst h; exact ⟨[], by simp, by simp⟩
  | cons n ns ih =>
    rw [rhInitLoop] at h
    have up : (∃ cs, q.2 = out ++ cs ∧ ∀ c ∈ cs, ∃ t i, c = .replicate t i ∧ t ∈ ns ∧ t ≠ me) →
        ∃ cs, q.2 = out ++ cs ∧ ∀ c ∈ cs, ∃ t i, c = .replicate t i ∧ t ∈ n :: ns ∧ t ≠ me := by
      rintro ⟨cs, h1, h2⟩
      refine ⟨cs, h1, fun c hc => ?_⟩
      obtain ⟨t, i, a, b, d⟩ := h2 c hc
      exact ⟨t, i, a, List.mem_cons_of_mem _ b, d⟩
    split at h
    · exact up (ih h)
    · next hne =>
      rw [bind_ok] at h
      obtain ⟨⟨sent, en⟩, _, h⟩ := h
      dsimp only at h
      split at h
      · rw [bind_ok] at h
        obtain ⟨req, _, h⟩ := h
        obtain ⟨cs, h1, h2⟩ := ih h
        refine ⟨.replicate n req :: cs, by rw [h1]; simp, fun c hc => ?_⟩
        rcases List.mem_cons.1 hc with rfl | hc
        · exact ⟨n, req, rfl, by simp, hne⟩
        · obtain ⟨t, i, a, b, d⟩ := h2 c hc
          exact ⟨t, i, a, List.mem_cons_of_mem _ b, d⟩
      · exact up (ih h)

theorem streams_replicates {s : List NodeId} {cs : List Cmd} (h : ∀ c ∈ cs, ∃ t i, c = .replicate t i ∧ t ∈ s) :
    streams s cs = s ∧ HasStreams s cs := by
  have h1 : ∀ ds : List Cmd, (∀ c ∈ ds, ∃ t i, c = Cmd.replicate t i ∧ t ∈ s) → streams s ds = s := by
    intro ds
    induction ds with
    | nil => intro _; rfl
    | cons c ds ih =>
      intro hd
      obtain ⟨t, i, rfl, _⟩ := hd c (by simp)
      exact ih fun c hc => hd c (List.mem_cons_of_mem _ hc)
  refine ⟨h1 cs h, fun pre t i post hx => ?_⟩
  rw [h1 pre fun c hc => h c (by rw [hx]; exact List.mem_append_left _ hc)]
  obtain ⟨t', i', ha, hb⟩ := h (.replicate t i) (by rw [hx]; simp)
  cases ha; exact hb

theorem str_rhInitiate (h : HasStreams r e.out) (hl : StrL r e l) : StrR r id (e.rhInitiate dbg l) := by
  unfold rhInitiate
  refine StrR.bind fun p hp => ?_
  obtain ⟨ent, cmds⟩ := p
  obtain ⟨cs, h1, h2⟩ := rhInitLoop_targets hp
  simp only [List.nil_append] at h1
  subst h1
  obtain ⟨k1, k2⟩ := streams_replicates (s := streams r e.out) (cs := cmds) (fun c hc => by
    obtain ⟨t, i, a, b, d⟩ := h2 c hc
    exact ⟨t, i, a, (hl t).2 ⟨b, d⟩⟩)
  refine StrR.pure ⟨HasStreams.append.2 ⟨h, k2⟩, ?_⟩
  intro l' hl'
  have hl' : some _ = some l' := hl'
  cases hl'
  intro t
  show t ∈ streams r (e.out ++ cmds) ↔ _
  rw [streams_append, k1]; exact hl t

theorem str_rhAppendMembership (h : StrInv r e) {i : LogId} {m : Membership} : StrR r id (e.rhAppendMembership dbg l i m) := by
  unfold rhAppendMembership
  refine StrR.bind fun _ _ => StrR.bind fun _ _ => StrR.bind fun ms hms => ?_
  obtain ⟨k1, k2⟩ := str_rhRebuildStreams (e := { e with st := { e.st with ms := ms } })
    (l := rhRebuildProgresses { e with st := { e.st with ms := ms } } l) h.has
  exact StrR.bind fun l2 hl2 => str_rhInitiate k1.has (k2 l2 (unwrap_some hl2))

theorem str_rhTryCommit (h : StrInv r e) (g : Option LogId) : StrR r id (e.rhTryCommit dbg g) := by
  unfold rhTryCommit
  split
  · exact StrR.pure h
  · split
    · refine StrR.bind fun p hp => ?_
      obtain ⟨ch, st⟩ := p
      dsimp only
      split
      · exact StrR.pure (str_maybeSnapshot (StrInv.push (StrInv.push (StrInv.push h.same))))
      · exact StrR.pure h
    · exact StrR.pure h

theorem str_rhUpdateMatching (h : StrInv r e) (hl : StrL r e l) (n : NodeId) (m : Option LogId) :
    StrR r id (e.rhUpdateMatching dbg l n m) := by
  unfold rhUpdateMatching
  refine StrR.bind fun _ _ => StrR.bind fun _ _ => StrR.bind fun en hen => StrR.bind fun vp hvp => ?_
  exact str_rhTryCommit (h.set rfl (hl.same (VecProgress.update_ids (unwrap_some hvp)))) _

theorem str_rhUpdateConflicting (h : StrInv r e) (hl : StrL r e l) (n : NodeId) (c : LogId) :
    StrR r id (e.rhUpdateConflicting dbg l n c) := by
  unfold rhUpdateConflicting
  exact StrR.bind fun _ _ => StrR.bind fun en hen => StrR.pure (h.set rfl (hl.same))

theorem str_rhTryPurge (h : StrInv r e) : StrInv r (e.rhTryPurge l) := by
  unfold rhTryPurge
  split
  · exact h
  · split
    · exact h
    · split
      · exact h
      · exact str_logPurge h

theorem str_rhFailed (h : StrInv r e) (hl : StrL r e l) (n : NodeId) : StrR r id (e.rhFailed l n) := by
  unfold rhFailed
  exact StrR.bind fun _ _ => StrR.pure (h.set rfl (hl.same))

theorem str_rhUpdateProgress (h : StrInv r e) (hl : StrL r e l) (n : NodeId) (q : ReplResult) :
    StrR r id (e.rhUpdateProgress dbg l n q) := by
  unfold rhUpdateProgress
  have hgo : ∀ x : Res Eng, StrR r id x → StrR r id (x >>= fun e1 => (unwrap e1.leader >>= fun l1 => (pure (rhTryPurge e1 l1) : Res Eng))) :=
    fun x hx => StrR.bindE id hx fun b hb => StrR.bind fun l1 _ => StrR.pure (str_rhTryPurge hb)
  cases q with
  | matching m => exact hgo _ (str_rhUpdateMatching h hl _ _)
  | conflict c => exact hgo _ (str_rhUpdateConflicting h hl _ _)
  | failed => exact hgo _ (str_rhFailed h hl _)

theorem str_rhUpdateLocal (h : StrInv r e) (hl : StrL r e l) (u : Option LogId) : StrR r id (e.rhUpdateLocal dbg l u) := by
  unfold rhUpdateLocal
  split
  · exact StrR.pure h
  · split
    · split
      · exact StrR.pure h
      · exact str_rhUpdateMatching h (StrL.same hl) _ _
    · exact StrR.pure h

theorem str_lhMembership (h : StrInv r e) {m : Option StoredMem} : StrR r id (e.lhMembership dbg l m) := by
  unfold lhMembership
  split
  · exact str_rhAppendMembership h
  · exact StrR.pure h

theorem str_lhAppend (h : StrInv r e) (hl : StrL r e l) {ps : List Payload} : StrR r id (e.lhAppend dbg l ps) := by
  unfold lhAppend
  split
  · exact StrR.pure h
  · refine StrR.bind fun _ _ => StrR.bind fun ids _ => StrR.bind fun _ _ => StrR.bind fun st hst => ?_
    refine StrR.bindE id (str_lhMembership (StrInv.push (h.set rfl (hl.same)))) fun e2 h2 => ?_
    exact StrR.bind fun l2 hl2 => str_rhInitiate h2.has (h2.lead l2 (unwrap_some hl2))

theorem str_becomeNewLeader (h : StrInv r e) : StrR r id (e.becomeNewLeader dbg now) := by
  unfold becomeNewLeader
  refine StrR.bind fun l hl => StrR.bind fun st hst => ?_
  have h1 : HasStreams r (e.out ++ [.updateIO none (IOId.newLog l.vote l.lastLogId)]) :=
    HasStreams.append.2 ⟨h.has, HasStreams.plain trivial⟩
  obtain ⟨k1, k2⟩ := str_rhRebuildStreams (e := updateServerState (Eng.push { e with st := st, leader := some l } (.updateIO none (IOId.newLog l.vote l.lastLogId))))
    (l := l) h1
  refine StrR.bind fun l2 hl2 => ?_
  have hc2 := k2 l2 (unwrap_some hl2)
  split
  · exact str_lhAppend k1 hc2
  · exact str_rhInitiate k1.has hc2

theorem str_becomeLeader (h : StrInv r e) : StrR r id (e.becomeLeader dbg now) := by
  unfold becomeLeader
  split
  · next l hl =>
    split
    · exact StrR.pure (h.set rfl (StrL.same (h.lead l hl)))
    · exact str_becomeNewLeader h
  · exact str_becomeNewLeader h

theorem str_becomeFollowing (h : StrInv r e) : StrR r id (e.becomeFollowing dbg) := by
  unfold becomeFollowing
  exact StrR.bind fun _ _ => StrR.pure h.none

theorem str_updateInternal (h : StrInv r e) : StrR r id (e.updateInternal dbg now) := by
  unfold updateInternal
  split
  · exact str_becomeLeader h
  · split
    · exact StrR.pure h
    · exact str_becomeFollowing h

theorem str_storeVote (h : StrInv r e) (lease : Nat) (v : Vote) : StrR r id (e.storeVote dbg now lease v) := by
  unfold storeVote
  split
  · exact StrR.bind fun st hst => StrR.pure (StrInv.push h.same)
  · exact StrR.bind fun vt _ => StrR.pure h.same

theorem str_updateVote (h : StrInv r e) (v : Vote) : StrR r Prod.snd (e.updateVote dbg now v) := by
  unfold updateVote
  split
  · exact StrR.bindE id (str_storeVote h _ _) fun e1 h1 => StrR.bindE id (str_updateInternal h1) fun e2 h2 => StrR.pure h2
  · exact StrR.pure h

theorem str_fhTruncate (h : StrInv r e) (i : Nat) : StrR r id (e.fhTruncate dbg i) := by
  unfold fhTruncate
  refine StrR.bind fun _ _ => ?_
  split
  · exact StrR.pure h
  · refine StrR.bind fun ms hms => ?_
    dsimp only
    have h1 : ∀ st u, StrInv r (Eng.push { e with st := st } (.truncate u)) := fun st u => StrInv.push (StrInv.same h)
    split
    · exact StrR.pure (h1 _ _).same
    · exact StrR.pure (h1 _ _)

theorem str_fhAppendMembership (h : StrInv r e) {es : List Ent} : StrR r id (e.fhAppendMembership dbg es) := by
  unfold fhAppendMembership
  split
  · exact StrR.pure h
  · exact StrR.bind fun ms hms => StrR.pure h.same

theorem str_fhDoAppend (h : StrInv r e) (v : Vote) {es : List Ent} : StrR r id (e.fhDoAppend dbg v es) := by
  unfold fhDoAppend
  refine StrR.bind fun _ _ => StrR.bind fun _ _ => StrR.bind fun _ _ => ?_
  exact StrR.bindE id (str_fhAppendMembership h.same) fun e1 h1 => StrR.pure h1.push

theorem str_fhAppendEntries (h : StrInv r e) (v : Vote) (prev : Option LogId) {es : List Ent} :
    StrR r id (e.fhAppendEntries dbg v prev es) := by
  unfold fhAppendEntries
  refine StrR.bind fun _ _ => StrR.bind fun st hst => StrR.bind fun since _ => ?_
  have h1 : StrInv r { e with st := st } := h.same
  split
  · exact StrR.bindE id (str_fhTruncate h1 _) fun e1 h2 => str_fhDoAppend h2 _
  · split
    · exact StrR.pure h1
    · exact StrR.pure h1.push

theorem str_fhEnsure (h : StrInv r e) (prev : Option LogId) : StrR r Prod.snd (e.fhEnsure dbg prev) := by
  unfold fhEnsure
  split
  · exact StrR.pure h
  · refine StrR.bind fun b _ => ?_
    split
    · exact StrR.pure h
    · exact StrR.bindE id (str_fhTruncate h _) fun e1 h1 => StrR.pure h1

theorem str_fhCommit (h : StrInv r e) (lc : Option LogId) : StrR r id (e.fhCommit dbg lc) := by
  unfold fhCommit
  refine StrR.bind fun p hp => ?_
  obtain ⟨ch, st⟩ := p
  dsimp only
  split
  · exact StrR.bind fun i _ => StrR.pure (str_maybeSnapshot (StrInv.push (StrInv.push h.same)))
  · exact StrR.pure h

theorem str_fhInstall (h : StrInv r e) (v : Vote) {m : SnapMeta} : StrR r Prod.snd (e.fhInstall dbg v m) := by
  unfold fhInstall
  split
  · exact StrR.pure h
  · refine StrR.bind fun last hlast => ?_
    have hu := str_updateSnapshot h m
    split
    · next e1 he => rw [he] at hu; exact StrR.pure hu
    · next e1 he =>
      rw [he] at hu
      refine StrR.bindE id ?_ fun e2 h2 => ?_
      · unfold fhInstallTruncate
        split
        · split
          · exact str_fhTruncate hu _
          · exact StrR.pure hu
        · exact StrR.pure hu
      · refine StrR.bind fun st hst => StrR.bind fun ms hms => StrR.pure (str_logPurge ?_)
        have h3 : StrInv r (updateServerState { e2 with st := { st with committed := some last, ms := ms } }) := StrInv.same (e := e2) h2
        have h4 : StrInv r (Eng.push (updateServerState { e2 with st := { st with committed := some last, ms := ms } }) (.sm (.install m (IOId.newLog v (some last))))) := h3.push
        exact h4.same

theorem str_startup (h : StrInv r e) : StrR r id (e.startup dbg now) := by
  unfold startup
  split
  · exact str_updateInternal h
  · exact StrR.pure h.same

theorem str_handleVoteReq (h : StrInv r e) (v : Vote) (last : Option LogId) : StrR r Prod.snd (e.handleVoteReq dbg now v last) := by
  unfold handleVoteReq
  split
  · exact StrR.pure h
  · split
    · exact StrR.bindE Prod.snd (str_updateVote h _) fun p hp => StrR.pure hp
    · exact StrR.pure h

theorem str_establishLeader (h : StrInv r e) : StrR r id (e.establishLeader dbg now) := by
  unfold establishLeader
  refine StrR.bind fun c hc => StrR.bind fun o ho => ?_
  have h0 : StrInv r { e with candidate := none } := h.same
  split
  · exact StrR.pure h0
  · next l =>
    obtain ⟨h1, _⟩ := str_rhRebuildStreams (e := { e with candidate := none, leader := some l }) (l := l) h.has
    refine StrR.bindE Prod.snd (str_updateVote h1 _) fun p hp => ?_
    obtain ⟨ok, e2⟩ := p
    refine StrR.bind fun _ _ => StrR.bind fun st hst => StrR.bind fun lo hlo => StrR.bind fun l3 hl3 => ?_
    have h3 : StrInv r { e2 with st := st } := StrInv.same (e := e2) hp
    refine str_lhAppend h3 ?_
    have hl3' := unwrap_some hl3
    rw [hl3'] at hlo
    exact h3.lead l3 (leaderHandler_some hlo)

theorem str_appendEntries (h : StrInv r e) (v : Vote) (prev : Option LogId) {es : List Ent} :
    StrR r Prod.snd (e.appendEntries dbg now v prev es) := by
  unfold appendEntries
  refine StrR.bindE Prod.snd (str_updateVote h _) fun p hp => ?_
  obtain ⟨ok, e1⟩ := p
  dsimp only
  split
  · refine StrR.bind fun lv _ => StrR.bindE Prod.snd (str_fhEnsure hp _) fun p hp => ?_
    obtain ⟨ok2, e2⟩ := p
    dsimp only
    split
    · exact StrR.bindE id (str_fhAppendEntries hp _ _) fun e3 h3 => StrR.pure h3
    · exact StrR.pure hp
  · exact StrR.pure hp

theorem str_handleAppend (h : StrInv r e) (tx : Nat) (v : Vote) (prev : Option LogId) {es : List Ent} (lc : Option LogId) :
    StrR r id (e.handleAppend dbg now tx v prev es lc) := by
  unfold handleAppend
  refine StrR.bindE Prod.snd (str_appendEntries h _ _) fun p hp => ?_
  obtain ⟨q, e1⟩ := p
  dsimp only at hp ⊢
  split
  · exact StrR.bind fun acc _ => StrR.bind fun _ _ => str_fhCommit hp.push _
  · exact StrR.pure hp.push

theorem str_handleInstall (h : StrInv r e) (tx : Nat) (v : Vote) {m : SnapMeta} : StrR r id (e.handleInstall dbg now tx v m) := by
  unfold handleInstall
  refine StrR.bindE Prod.snd (str_updateVote h _) fun p hp => ?_
  obtain ⟨ok, e1⟩ := p
  dsimp only at hp ⊢
  split
  · exact StrR.bind fun lv _ => StrR.bindE Prod.snd (str_fhInstall hp _) fun p hp => StrR.pure (StrInv.push hp)
  · exact StrR.pure hp.push

theorem str_leaderStepDown (h : StrInv r e) : StrR r id (e.leaderStepDown dbg now) := by
  unfold leaderStepDown
  split
  · exact str_updateInternal h
  · exact StrR.pure h

theorem str_tryPurge (h : StrInv r e) : StrInv r e.tryPurge := by
  unfold tryPurge
  split
  · exact str_rhTryPurge h
  · exact str_logPurge h

theorem str_finishBuilding (h : StrInv r e) (m : SnapMeta) : StrR r id (e.finishBuilding dbg m) := by
  unfold finishBuilding
  dsimp only
  have h0 : StrInv r { e with st := { e.st with io := { e.st.io with building := false } } } := h.same
  have hu := str_updateSnapshot h0 m
  split
  · next e1 he => rw [he] at hu; exact StrR.pure hu
  · next e1 he =>
    rw [he] at hu
    exact StrR.bindE id (str_schedulePurge hu) fun e2 h2 => StrR.pure (str_tryPurge h2)

theorem str_triggerPurge (h : StrInv r e) (i : Nat) : StrR r id (e.triggerPurge dbg i) := by
  unfold triggerPurge
  split
  · exact StrR.pure h
  · split
    · exact StrR.pure h
    · exact StrR.bind fun x _ => StrR.bindE id (str_updatePurgeUpto h _) fun e1 h1 => StrR.pure (str_tryPurge h1)

theorem str_triggerTransfer (h : StrInv r e) (t : NodeId) : StrR r id (e.triggerTransfer dbg t) := by
  unfold triggerTransfer
  refine StrR.bind fun o ho => ?_
  split
  · exact StrR.pure h
  · next l =>
    refine StrR.pure (StrInv.push (h.set (e1 := { e with
      leader := some { l with transferTo := some t }
      st := { e.st with vote := e.st.vote.disable } }) rfl (StrL.same (h.lead l (leaderHandler_some ho)))))

theorem str_writeEntry (h : StrInv r e) {p : Payload} : StrR r Prod.snd (e.writeEntry dbg p) := by
  unfold writeEntry
  refine StrR.bind fun o ho => ?_
  split
  · exact StrR.pure h
  · split
    · exact StrR.pure h
    · exact StrR.bindE id (str_lhAppend h (h.lead _ (leaderHandler_some ho))) fun e1 h1 => StrR.bind fun l _ => StrR.pure h1

theorem str_coreHeartbeat (h : StrInv r e) : StrR r id (e.coreHeartbeat dbg) := by
  unfold coreHeartbeat
  refine StrR.bind fun o _ => ?_
  split
  · exact StrR.pure h
  · split
    · exact StrR.pure h
    · exact StrR.pure h.push

theorem str_tickHeartbeat (h : StrInv r e) (en : Bool) (iv : Nat) : StrR r id (e.tickHeartbeat dbg now en iv) := by
  have hmap : ∀ {e1 : Eng}, StrInv r e1 → StrInv r { e1 with leader := e1.leader.map fun l => { l with nextHeartbeat := now + iv } } := by
    intro e1 h1
    refine ⟨h1.has, ?_⟩
    intro l hl
    obtain ⟨l0, h0, rfl⟩ := Option.map_eq_some_iff.1 hl
    exact StrL.same (h1.lead l0 h0)
  unfold tickHeartbeat
  split
  · exact StrR.pure h
  · split
    · dsimp only
      split
      · exact StrR.bindE id (str_coreHeartbeat h) fun e1 h1 => StrR.pure (hmap h1)
      · exact StrR.bindE id (StrR.pure (π := id) h) fun e1 h1 => StrR.pure (hmap h1)
    · exact StrR.pure h

theorem str_elect (h : StrInv r e) : StrR r id (e.elect dbg now) := by
  unfold elect
  refine StrR.bindE Prod.snd (str_updateVote h.same _) fun p hp => ?_
  obtain ⟨ok, e2⟩ := p
  refine StrR.bind fun _ _ => StrR.pure ?_
  have h2 : ∀ v last, StrInv r (Eng.push e2 (.sendVote v last)) := fun v last => StrInv.push (e := e2) hp
  exact (h2 _ _).same

theorem str_handleVoteResp (h : StrInv r e) (target : NodeId) (v : Vote) (last : Option LogId) (granted : Bool) :
    StrR r id (e.handleVoteResp dbg now target v last granted) := by
  unfold handleVoteResp
  split
  · exact StrR.pure h
  · next c hc =>
    split
    · refine StrR.bind fun c1 hc1 => ?_
      have h1 : StrInv r { e with candidate := some c1 } := h.same
      dsimp only
      split
      · exact str_establishLeader h1
      · exact StrR.pure h1
    · have hs : StrInv r (if e.st.lastLogId < last then { e with seenGreater := true } else e) := by
        split
        · exact h.same
        · exact h
      exact StrR.bindE Prod.snd (str_updateVote hs _) fun p hp => StrR.pure hp

theorem str_initCluster (h : StrInv r e) {m : Membership} : StrR r Prod.snd (e.initCluster dbg now m) := by
  unfold initCluster
  split
  · exact StrR.pure h
  · split
    · exact StrR.pure h
    · exact StrR.bind fun v _ => StrR.bindE id (str_fhDoAppend h.same _) fun e2 h2 => StrR.bindE id (str_elect h2) fun e3 h3 => StrR.pure h3

/-- every input keeps the streams in order -/
theorem str_input (h : StrInv r e) (i : Input) : StrR r id (e.input dbg now i) := by
  cases i with
  | appendReq tx v prev es lc => exact str_handleAppend h _ _ _ _
  | voteReq tx v last =>
    simp only [input, coreVoteReq]
    exact StrR.bindE Prod.snd (str_handleVoteReq h _ _) fun p hp => StrR.pure (StrInv.push (e := p.2) hp)
  | snapReq tx v m => exact str_handleInstall h _ _
  | init tx m =>
    simp only [input, coreInit]
    exact StrR.bindE Prod.snd (str_initCluster h) fun p hp => StrR.pure (StrInv.push (e := p.2) hp)
  | write p =>
    simp only [input]
    exact StrR.bindE Prod.snd (str_writeEntry h) fun p hp => StrR.pure hp
  | change c q =>
    simp only [input]
    refine StrR.bindE Prod.snd ?_ fun p hp => StrR.pure hp
    unfold changeMembership
    split
    · exact StrR.pure h
    · exact str_writeEntry h
  | handleTransfer v target =>
    simp only [input, coreHandleTransfer]
    split
    · split
      · exact str_elect h.same
      · exact StrR.pure h.same
    · exact StrR.pure h
  | electCmd =>
    simp only [input, coreElect]
    split
    · exact str_elect h
    · exact StrR.pure h
  | heartbeatCmd => exact str_coreHeartbeat h
  | snapshotCmd => exact StrR.pure (str_triggerSnapshot h)
  | purgeCmd i => exact str_triggerPurge h _
  | transferCmd t => exact str_triggerTransfer h _
  | voteResp target v last granted sender =>
    simp only [input]
    split
    · exact str_handleVoteResp h _ _ _ _
    · exact StrR.pure h
  | higherVote v sender =>
    simp only [input]
    split
    · exact StrR.bindE Prod.snd (str_updateVote h _) fun p hp => StrR.pure hp
    · exact StrR.pure h
  | tick el hb iv =>
    simp only [input, coreTick]
    refine StrR.bindE id ?_ fun e1 h1 => StrR.bindE id (str_tickHeartbeat h1 _ _) fun e2 h2 => ?_
    · unfold tickElection
      split
      · exact StrR.pure h
      · split
        · exact StrR.pure h
        · split
          · exact StrR.pure h
          · have hx : ∀ b : Bool, StrR r id (if b = true then elect dbg now { e with seenGreater := false } else pure e) := by
              intro b
              split
              · exact str_elect h.same
              · exact StrR.pure h
            dsimp only
            split <;> exact hx _
    · split
      · exact str_leaderStepDown h2
      · exact StrR.pure h2
  | localIO io =>
    simp only [input, coreLocalIO]
    refine StrR.bind fun p _ => ?_
    have h1 : StrInv r (e.withProg p) := h.same
    split
    · split
      · next l hl =>
        split
        · exact str_rhUpdateLocal h1 (h1.lead l hl) _
        · exact StrR.pure h1
      · exact StrR.pure h1
    · exact StrR.pure h1
  | replProgress s target q =>
    simp only [input, coreReplProgress]
    split
    · exact StrR.bind fun l hl => str_rhUpdateProgress h (h.lead _ (unwrap_some hl)) _ _
    · exact StrR.pure h
  | hbProgress s target t =>
    simp only [input, coreHbProgress]
    split
    · refine StrR.bind fun l hl => ?_
      unfold rhUpdateClock
      exact StrR.bind fun c hc => StrR.pure (h.set rfl (StrL.same (h.lead _ (unwrap_some hl))))
    · exact StrR.pure h
  | built m =>
    simp only [input, coreBuilt]
    exact StrR.bindE id (str_finishBuilding h _) fun e1 h1 => StrR.bind fun io _ => StrR.pure h1.same
  | installed io m =>
    simp only [input, coreInstalled]
    exact StrR.bind fun p _ => StrR.bind fun s1 _ => StrR.bind fun s2 _ => StrR.pure h.same
  | applied last =>
    simp only [input, coreApplied]
    exact StrR.bind fun s _ => StrR.pure h.same
  | initiate =>
    simp only [input, coreInitiate]
    refine StrR.bind fun o ho => ?_
    split
    · exact StrR.pure h
    · exact str_rhInitiate h.has (h.lead _ (leaderHandler_some ho))

end Eng
end Openraft.Engine
