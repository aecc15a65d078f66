import Verif.Engine.VoteFlow

/-!
# What the leader's clock and progress and the node's memberships come from

`M` is a property of memberships, `P` one of the clock and the progress of a leader; `P` holds for a new leader and is kept
when they are rebuilt for a membership with `M`. Then both are kept by every input, if `P` is also kept when a heartbeat, a
replicated log id or the end of a local write is counted (`UpOk`).
-/

set_option autoImplicit false

namespace Openraft.Engine
open Openraft.Repl (Panic dassert Inflight)
open Openraft.Cluster (Payload)

/-- a property of a leader's id, its clock, its progress and the `matching` of its progress entries -/
abbrev PRule := LeaderId → VecProgress (Option Nat) → VecProgress (Option LogId) → (NodeId → Option LogId) → Prop

/-- the `matching` of the progress entry of a node -/
def Leader.mt (l : Leader) : NodeId → Option LogId := fun n => (l.progress.ent n).matching

/-- `P` for a leader -/
def PRule.on (P : PRule) (l : Leader) : Prop := P l.vote.leaderId l.clock l.progress.vp l.mt

/-- nothing that `PRule` sees is changed -/
structure LK (l l' : Leader) : Prop where
  id : l'.vote.leaderId = l.vote.leaderId := by rfl
  clock : l'.clock = l.clock := by rfl
  vp : l'.progress.vp = l.progress.vp := by rfl
  mt : l'.mt = l.mt := by rfl

theorem LK.on {l l' : Leader} {P : PRule} (h : LK l l') (hl : P.on l) : P.on l' := by
  unfold PRule.on
  rw [h.id, h.clock, h.vp, h.mt]; exact hl

theorem PRule.on_of {P : PRule} {l : Leader} {f : NodeId → Option LogId} (h : P l.vote.leaderId l.clock l.progress.vp f)
    (hf : ∀ n, l.mt n = f n) : P.on l := by
  unfold PRule.on
  rw [funext hf]; exact h

/-- `P` is kept when the clock is made or rebuilt -/
structure ClockRule (M : Membership → Prop) (P : PRule) : Prop where
  new : ∀ {m : Membership} (i : LeaderId), M m →
    P i (VecProgress.new m.configs m.learnerIds none) (VecProgress.new m.configs m.learnerIds none) (fun _ => none)
  upg : ∀ {m : Membership} {i : LeaderId} {c : VecProgress (Option Nat)} {v : VecProgress (Option LogId)}
    {f : NodeId → Option LogId}, M m → P i c v f →
    P i (c.upgrade m.configs m.learnerIds none) (v.upgrade m.configs m.learnerIds none)
      (fun n => if (v.vector.map (·.1)).contains n then f n else none)

/-- the memberships in use have `M`, the clock has `P` -/
structure KInv (M : Membership → Prop) (P : PRule) (C : Option LogId → Prop) (e : Eng) : Prop where
  eff : M e.st.ms.effective.mem
  com : M e.st.ms.committed.mem
  cand : ∀ c, e.candidate = some c → M c.mem
  clk : ∀ l, e.leader = some l → P.on l
  cmt : C e.st.committed

variable {M : Membership → Prop} {P : PRule} {C : Option LogId → Prop}

theorem KInv.same {e e1 : Eng} (h : KInv M P C e) (h1 : e1.st.ms = e.st.ms ∧ e1.st.committed = e.st.committed := by exact ⟨rfl, rfl⟩)
    (h2 : e1.candidate = e.candidate := by rfl) (h3 : e1.leader = e.leader := by rfl) : KInv M P C e1 :=
  ⟨by rw [h1.1]; exact h.eff, by rw [h1.1]; exact h.com, by rw [h2]; exact h.cand, by rw [h3]; exact h.clk,
    by rw [h1.2]; exact h.cmt⟩

theorem KInv.lead {e e1 : Eng} {l l' : Leader} (h : KInv M P C e) (hl : P.on l) (h3 : e1.leader = some l') (k : LK l l')
    (h1 : e1.st.ms = e.st.ms ∧ e1.st.committed = e.st.committed := by exact ⟨rfl, rfl⟩)
    (h2 : e1.candidate = e.candidate := by rfl) : KInv M P C e1 := by
  refine ⟨by rw [h1.1]; exact h.eff, by rw [h1.1]; exact h.com, by rw [h2]; exact h.cand, ?_, by rw [h1.2]; exact h.cmt⟩
  intro x hx
  rw [hx] at h3
  rw [Option.some.inj h3]
  exact k.on hl

/-- the memberships of a node have `M` -/
def MemOk (M : Membership → Prop) (s : MemState) : Prop := M s.effective.mem ∧ M s.committed.mem

theorem KInv.memsC {e e1 : Eng} (h : KInv M P C e) (hm : MemOk M e1.st.ms) (hc : C e1.st.committed)
    (h2 : e1.candidate = e.candidate := by rfl) (h3 : e1.leader = e.leader := by rfl) : KInv M P C e1 :=
  ⟨hm.1, hm.2, by rw [h2]; exact h.cand, by rw [h3]; exact h.clk, hc⟩

theorem KInv.mems {e e1 : Eng} (h : KInv M P C e) (hm : MemOk M e1.st.ms) (h2 : e1.candidate = e.candidate := by rfl)
    (h3 : e1.leader = e.leader := by rfl) (h4 : e1.st.committed = e.st.committed := by rfl) : KInv M P C e1 :=
  h.memsC hm (by rw [h4]; exact h.cmt) h2 h3

theorem KInv.ms {e : Eng} (h : KInv M P C e) : MemOk M e.st.ms := ⟨h.eff, h.com⟩

theorem acceptIo_ms {dbg : Bool} {s s' : RState} {x : IOId} (h : s.acceptIo dbg x = .ok s') : s'.ms = s.ms ∧ s'.committed = s.committed := by
  rw [acceptIo_ok h]; exact ⟨rfl, rfl⟩

theorem memOk_updateCommitted {dbg : Bool} {s s' : RState} {c : Option LogId} {ch : Bool} (hm : MemOk M s.ms)
    (h : s.updateCommitted dbg c = .ok (ch, s')) : MemOk M s'.ms ∧ (s'.committed = s.committed ∨ s'.committed = c) := by
  unfold RState.updateCommitted at h
  split at h
  · rw [bind_ok] at h
    obtain ⟨m, h1, h⟩ := h
    rw [pure_ok] at h; cases h
    refine ⟨?_, Or.inr rfl⟩
    unfold RState.MemState.commit at h1
    split at h1
    · rw [bind_ok] at h1
      obtain ⟨_, _, h1⟩ := h1
      rw [pure_ok] at h1; subst h1
      exact ⟨hm.1, hm.1⟩
    · rw [pure_ok] at h1; subst h1; exact hm
  · rw [pure_ok] at h; cases h; exact ⟨hm, Or.inl rfl⟩

theorem memOk_append {dbg : Bool} {s s' : MemState} {x : StoredMem} (hm : MemOk M s) (hx : M x.mem)
    (h : RState.MemState.append dbg s x = .ok s') : MemOk M s' := by
  simp only [RState.MemState.append, bind_ok, pure_ok] at h
  obtain ⟨_, _, _, _, rfl⟩ := h
  exact ⟨hx, hm.1⟩

theorem memOk_truncate {dbg : Bool} {s s' : MemState} {i : Nat} (hm : MemOk M s)
    (h : RState.MemState.truncate dbg s i = .ok s') : MemOk M s' := by
  unfold RState.MemState.truncate at h
  rw [bind_ok] at h
  obtain ⟨_, _, h⟩ := h
  split at h
  · rw [pure_ok] at h; subst h; exact ⟨hm.2, hm.2⟩
  · rw [pure_ok] at h; subst h; exact hm

theorem memOk_update {dbg : Bool} {s s' : MemState} {x : StoredMem} (hm : MemOk M s) (hx : M x.mem)
    (h : RState.MemState.updateCommitted dbg s x = .ok s') : MemOk M s' := by
  have hfin : MemOk M ⟨if s.committed.logId < x.logId then x else s.committed,
      if s.effective.logId.map (·.index) ≤ x.logId.map (·.index) then x else s.effective⟩ := by
    constructor
    · dsimp only; split
      · exact hx
      · exact hm.1
    · dsimp only; split
      · exact hx
      · exact hm.2
  unfold RState.MemState.updateCommitted at h
  dsimp only at h
  split at h
  · simp only [bind_ok, pure_ok] at h
    obtain ⟨_, _, rfl⟩ := h; exact hfin
  · rw [pure_ok] at h
    subst h; exact hfin

theorem memOk_appendMems {dbg : Bool} {xs : List StoredMem} {s s' : MemState} (hm : MemOk M s) (hx : ∀ x ∈ xs, M x.mem)
    (h : Eng.appendMems dbg s xs = .ok s') : MemOk M s' := by
  induction xs generalizing s with
  | nil => unfold Eng.appendMems at h; rw [pure_ok] at h; subst h; exact hm
  | cons x xs ih =>
    unfold Eng.appendMems at h
    rw [bind_ok] at h
    obtain ⟨m1, h1, h⟩ := h
    exact ih (memOk_append hm (hx x (by simp)) h1) (fun y hy => hx y (by simp [hy])) h

/-- the memberships in a list of entries have `M` -/
def EntsOk (M : Membership → Prop) (es : List Ent) : Prop := ∀ x ∈ es, ∀ m, x.membership? = some m → M m

theorem EntsOk.stored {es : List Ent} (h : EntsOk M es) : ∀ x ∈ es.filterMap (·.stored?), M x.mem := by
  intro x hx
  obtain ⟨y, hy, hxy⟩ := List.mem_filterMap.1 hx
  unfold Ent.stored? at hxy
  obtain ⟨m, hm, rfl⟩ := Option.map_eq_some_iff.1 hxy
  exact h y hy m hm

theorem EntsOk.lastTwo {es : List Ent} (h : EntsOk M es) : ∀ x ∈ Eng.lastTwo es, M x.mem := by
  intro x hx
  unfold Eng.lastTwo at hx
  exact h.stored x (List.mem_of_mem_drop hx)

theorem EntsOk.drop {es : List Ent} (h : EntsOk M es) (n : Nat) : EntsOk M (es.drop n) := fun x hx => h x (List.mem_of_mem_drop hx)

/-- the memberships in a list of payloads have `M` -/
def PaysOk (M : Membership → Prop) (ps : List Payload) : Prop := ∀ m, Payload.membership m ∈ ps → M m

theorem assign_ok {ps : List Payload} (h : PaysOk M ps) (i : LeaderId) (k : Nat) : EntsOk M (Eng.assign i k ps) := by
  induction ps generalizing k with
  | nil => intro x hx; cases hx
  | cons p ps ih =>
    intro x hx m hm
    unfold Eng.assign at hx
    rcases List.mem_cons.1 hx with rfl | hx
    · unfold Ent.membership? at hm
      simp only at hm
      split at hm
      · cases hm
        exact h _ (by simp)
      · cases hm
    · exact ih (fun m hm => h m (by simp [hm])) _ x hx m hm

/-- `KInv` for a result -/
def KR (M : Membership → Prop) (P : PRule) (C : Option LogId → Prop) {α : Type} (π : α → Eng) (r : Res α) : Prop :=
  ∀ a, r = .ok a → KInv M P C (π a)

namespace KR
variable {α β : Type} {π : α → Eng}

theorem pure {a : α} (h : KInv M P C (π a)) : KR M P C π (Pure.pure a) := by
  intro b hb; rw [pure_ok] at hb; subst hb; exact h

theorem bind {x : Res β} {f : β → Res α} (h : ∀ b, x = .ok b → KR M P C π (f b)) : KR M P C π (x >>= f) := by
  intro a ha; rw [bind_ok] at ha
  obtain ⟨b, hx, hb⟩ := ha; exact h b hx a hb

theorem bindE (π' : β → Eng) {x : Res β} {f : β → Res α} (hx : KR M P C π' x) (h : ∀ b, KInv M P C (π' b) → KR M P C π (f b)) :
    KR M P C π (x >>= f) := by
  intro a ha; rw [bind_ok] at ha
  obtain ⟨b, hx', hb⟩ := ha; exact h b (hx b hx') a hb

end KR

namespace Eng
variable {dbg : Bool} {now : Nat} {e : Eng} {l : Leader}

theorem unwrap_some {α : Type} {o : Option α} {a : α} (h : unwrap o = .ok a) : o = some a := by
  cases o with
  | none => cases h
  | some x => cases h; rfl

theorem k_logPurge (h : KInv M P C e) : KInv M P C e.logPurge := by
  unfold logPurge
  split
  · exact h
  · split <;> exact h.same

theorem k_updatePurgeUpto (h : KInv M P C e) (x : LogId) : KR M P C id (e.updatePurgeUpto dbg x) := by
  unfold updatePurgeUpto
  exact KR.bind fun _ _ => KR.pure h.same

theorem k_schedulePurge (h : KInv M P C e) : KR M P C id (e.schedulePurge dbg) := by
  unfold schedulePurge
  refine KR.bind fun o _ => ?_
  split
  · exact k_updatePurgeUpto h _
  · exact KR.pure h

theorem k_triggerSnapshot (h : KInv M P C e) : KInv M P C e.triggerSnapshot := by
  unfold triggerSnapshot
  split
  · exact h
  · exact h.same

theorem k_updateSnapshot (h : KInv M P C e) (m : SnapMeta) : KInv M P C (e.updateSnapshot m).2 := by
  unfold updateSnapshot
  split
  · exact h
  · exact h.same

theorem k_maybeSnapshot (h : KInv M P C e) : KInv M P C e.maybeSnapshot := by
  unfold maybeSnapshot
  split
  · exact k_triggerSnapshot h
  · exact h

theorem k_rhRebuildStreams (h : KInv M P C e) (hl : P.on l) : KInv M P C (e.rhRebuildStreams l) := by
  unfold rhRebuildStreams
  refine h.lead hl rfl ⟨rfl, rfl, rfl, ?_⟩
  funext n
  simp only [Leader.mt]
  split <;> rfl

theorem nextSend_matching {p p' : Repl.Entry} {v : Repl.LogView} {max : Nat} {b : Bool} (h : p.nextSend dbg v max = .ok (b, p')) :
    p'.matching = p.matching := by
  unfold Repl.Entry.nextSend at h
  split at h
  · rw [pure_ok] at h; cases h; rfl
  · rw [bind_ok] at h
    obtain ⟨_, _, h⟩ := h
    dsimp only at h
    split at h
    · rw [pure_ok] at h; cases h; rfl
    · rw [bind_ok] at h
      obtain ⟨_, _, h⟩ := h
      split at h <;> split at h <;> (rw [pure_ok] at h; cases h; rfl)

theorem rhInitLoop_matching {me : NodeId} {v : Repl.LogView} {max : Nat} {ns : List NodeId} {ent ent' : NodeId → Repl.Entry}
    {out out' : List Cmd} (h : rhInitLoop dbg me v max ns ent out = .ok (ent', out')) (n : NodeId) :
    (ent' n).matching = (ent n).matching := by
  induction ns generalizing ent out with
  | nil => rw [rhInitLoop, pure_ok] at h; cases h; rfl
  | cons x xs ih =>
    rw [rhInitLoop] at h
    split at h
    · exact ih h
    · rw [bind_ok] at h
      obtain ⟨⟨sent, en⟩, hs, h⟩ := h
      have hm := nextSend_matching hs
      have hx : ((if n = x then en else ent n) : Repl.Entry).matching = (ent n).matching := by
        split
        · next hn => rw [hn]; exact hm
        · rfl
      dsimp only at h
      split at h
      · rw [bind_ok] at h
        obtain ⟨_, _, h⟩ := h
        exact (ih h).trans hx
      · exact (ih h).trans hx

theorem k_rhInitiate (h : KInv M P C e) (hl : P.on l) : KR M P C id (e.rhInitiate dbg l) := by
  unfold rhInitiate
  refine KR.bind fun p hp => ?_
  obtain ⟨ent, cmds⟩ := p
  exact KR.pure (h.lead hl rfl ⟨rfl, rfl, rfl, funext (rhInitLoop_matching hp)⟩)

theorem k_rhAppendMembership (R : ClockRule M P) (h : KInv M P C e) (hl : P.on l) {i : LogId} {m : Membership} (hm : M m) :
    KR M P C id (e.rhAppendMembership dbg l i m) := by
  unfold rhAppendMembership
  refine KR.bind fun _ _ => KR.bind fun _ _ => KR.bind fun ms hms => ?_
  have hk := memOk_append h.ms hm hms
  have h1 : KInv M P C { e with st := { e.st with ms := ms } } := h.mems hk
  have hu : P.on (rhRebuildProgresses { e with st := { e.st with ms := ms } } l) := by
    refine PRule.on_of (R.upg hk.1 hl) fun n => ?_
    show ((if (progIds l).contains n then l.progress.ent n else Repl.Entry.empty _ : Repl.Entry)).matching =
      if (progIds l).contains n then (l.progress.ent n).matching else none
    split <;> rfl
  have h2 := k_rhRebuildStreams (l := rhRebuildProgresses { e with st := { e.st with ms := ms } } l) h1 hu
  exact KR.bind fun l2 hl2 => k_rhInitiate h2 (h2.clk l2 (unwrap_some hl2))

theorem k_rhTryCommit (h : KInv M P C e) (g : Option LogId)
    (hg : ∀ x, g = some x → e.st.vote.data.isSameLeader x.leaderId = true → C (some x)) : KR M P C id (e.rhTryCommit dbg g) := by
  unfold rhTryCommit
  split
  · exact KR.pure h
  · split
    · next hs =>
      refine KR.bind fun p hp => ?_
      obtain ⟨ch, st⟩ := p
      obtain ⟨hm, hc⟩ := memOk_updateCommitted h.ms hp
      dsimp only
      split
      · refine KR.pure (k_maybeSnapshot (h.memsC hm ?_))
        show C st.committed
        rcases hc with hc | hc
        · rw [hc]; exact h.cmt
        · rw [hc]; exact hg _ rfl hs
      · exact KR.pure h
    · exact KR.pure h

theorem updateMatching_eq {en en' : Repl.Entry} {m : Option LogId} (h : en.updateMatching dbg m = .ok en') : en'.matching = m := by
  unfold Repl.Entry.updateMatching at h
  simp only [bind_ok, pure_ok] at h
  obtain ⟨_, _, _, _, rfl⟩ := h
  rfl

/-- what counting `m` for node `n` leads to: the new progress has `P`, and a position that it commits has `C` -/
def _root_.Openraft.Engine.Counts (P : PRule) (C : Option LogId → Prop) (e : Eng) (l : Leader) (n : NodeId) (m : Option LogId) : Prop :=
  ∀ vp, l.progress.vp.update n m = some vp → P l.vote.leaderId l.clock vp (fun k => if k = n then m else l.mt k) ∧
    ∀ x, vp.granted = some x → e.st.vote.data.isSameLeader x.leaderId = true → C (some x)

theorem k_rhUpdateMatching (h : KInv M P C e) (n : NodeId) (m : Option LogId) (hl : Counts P C e l n m) :
    KR M P C id (e.rhUpdateMatching dbg l n m) := by
  unfold rhUpdateMatching
  refine KR.bind fun _ _ => KR.bind fun _ _ => KR.bind fun en hen => KR.bind fun vp hvp => ?_
  have hm := updateMatching_eq hen
  rw [hm] at hvp
  have hu : P.on { l with progress := ⟨vp, fun k => if k = n then en else l.progress.ent k⟩ } := by
    refine PRule.on_of (hl vp (unwrap_some hvp)).1 fun k => ?_
    simp only [Leader.mt]
    split
    · exact hm
    · rfl
  exact k_rhTryCommit (h.lead hu rfl {}) _ (hl vp (unwrap_some hvp)).2

theorem k_rhUpdateConflicting (h : KInv M P C e) (hl : P.on l) (n : NodeId) (c : LogId) :
    KR M P C id (e.rhUpdateConflicting dbg l n c) := by
  unfold rhUpdateConflicting
  refine KR.bind fun _ _ => KR.bind fun en hen => KR.pure (h.lead hl rfl ⟨rfl, rfl, rfl, ?_⟩)
  have hm : en.matching = (l.progress.ent n).matching := by
    unfold Repl.Entry.updateConflicting at hen
    simp only [bind_ok, pure_ok] at hen
    obtain ⟨_, _, _, _, _, _, rfl⟩ := hen
    rfl
  funext k
  simp only [Leader.mt]
  split
  · next hk => rw [hk]; exact hm
  · rfl

theorem k_rhTryPurge (h : KInv M P C e) : KInv M P C (e.rhTryPurge l) := by
  unfold rhTryPurge
  split
  · exact h
  · split
    · exact h
    · split
      · exact h
      · exact k_logPurge h

theorem k_rhFailed (h : KInv M P C e) (hl : P.on l) (n : NodeId) : KR M P C id (e.rhFailed l n) := by
  unfold rhFailed
  refine KR.bind fun _ _ => KR.pure (h.lead hl rfl ⟨rfl, rfl, rfl, ?_⟩)
  funext k
  simp only [Leader.mt]
  split <;> rfl

theorem k_rhUpdateProgress (h : KInv M P C e) (hl : P.on l) (n : NodeId) (r : ReplResult)
    (hm : ∀ m, r = .matching m → Counts P C e l n m) :
    KR M P C id (e.rhUpdateProgress dbg l n r) := by
  unfold rhUpdateProgress
  have hgo : ∀ x : Res Eng, KR M P C id x → KR M P C id (x >>= fun e1 => (unwrap e1.leader >>= fun l1 => (pure (rhTryPurge e1 l1) : Res Eng))) :=
    fun x hx => KR.bindE id hx fun b hb => KR.bind fun l1 _ => KR.pure (k_rhTryPurge hb)
  cases r with
  | matching m => exact hgo _ (k_rhUpdateMatching h _ _ (hm m rfl))
  | conflict c => exact hgo _ (k_rhUpdateConflicting h hl _ _)
  | failed => exact hgo _ (k_rhFailed h hl _)

theorem k_rhUpdateLocal (h : KInv M P C e) (u : Option LogId)
    (hl : ¬ u ≤ l.mt e.cfg.id → Counts P C e l e.cfg.id u) :
    KR M P C id (e.rhUpdateLocal dbg l u) := by
  unfold rhUpdateLocal
  split
  · exact KR.pure h
  · split
    · split
      · exact KR.pure h
      · next hu =>
        refine k_rhUpdateMatching h _ _ ?_
        intro vp hvp
        have h0 := hl hu vp hvp
        have hf : (fun k => if k = e.cfg.id then u else l.mt k) = fun k => if k = e.cfg.id then u else
            ((fun k => if k = e.cfg.id then { l.progress.ent e.cfg.id with inflight := Inflight.mkLogs none u } else l.progress.ent k) k : Repl.Entry).matching := by
          funext k
          split
          · rfl
          · next hk => simp only [Leader.mt, if_neg hk]
        rw [hf] at h0
        exact h0
    · exact KR.pure h

theorem k_lhMembership (R : ClockRule M P) (h : KInv M P C e) (hl : P.on l) {m : Option StoredMem} (hm : ∀ x, m = some x → M x.mem) :
    KR M P C id (e.lhMembership dbg l m) := by
  unfold lhMembership
  split
  · exact k_rhAppendMembership R h hl (hm _ rfl)
  · exact KR.pure h

theorem k_lhAppend (R : ClockRule M P) (h : KInv M P C e) (hl : P.on l) {ps : List Payload} (hp : PaysOk M ps) :
    KR M P C id (e.lhAppend dbg l ps) := by
  unfold lhAppend
  split
  · exact KR.pure h
  · refine KR.bind fun _ _ => KR.bind fun ids _ => KR.bind fun _ _ => KR.bind fun st hst => ?_
    have hms := acceptIo_ms hst
    refine KR.bindE id ?_ fun e2 h2 => ?_
    · refine k_lhMembership R ?_ ?_ ?_
      · exact h.lead hl rfl {} hms rfl
      · exact LK.on (l := l) {} hl
      intro x hx
      exact (assign_ok hp _ _).stored x (List.mem_of_getLast? hx)
    · exact KR.bind fun l2 hl2 => k_rhInitiate h2 (h2.clk l2 (unwrap_some hl2))

theorem paysOk_blank : PaysOk M [.blank] := by
  intro m hm
  simp at hm

theorem leaderNew_clock {v : Vote} {m : Membership} {ids : List LogId} (hr : Leader.new dbg now v m ids = .ok l) :
    l.clock = VecProgress.new m.configs m.learnerIds none ∧ l.progress.vp = VecProgress.new m.configs m.learnerIds none ∧
      l.mt = fun _ => none := by
  unfold Leader.new at hr
  simp only [bind_ok, pure_ok] at hr
  obtain ⟨_, _, _, _, rfl⟩ := hr
  exact ⟨rfl, rfl, rfl⟩

theorem leaderNew_on (R : ClockRule M P) {v : Vote} {m : Membership} {ids : List LogId} (hM : M m) (hr : Leader.new dbg now v m ids = .ok l) :
    P.on l := by
  obtain ⟨h1, h2, h3⟩ := leaderNew_clock hr
  unfold PRule.on
  rw [h1, h2, h3]; exact R.new _ hM

theorem k_becomeNewLeader (R : ClockRule M P) (h : KInv M P C e) : KR M P C id (e.becomeNewLeader dbg now) := by
  unfold becomeNewLeader
  refine KR.bind fun l hl => KR.bind fun st hst => ?_
  have hms := acceptIo_ms hst
  have hc : P.on l := leaderNew_on R h.eff hl
  have h1 : KInv M P C (updateServerState (Eng.push { e with st := st, leader := some l } (.updateIO none (IOId.newLog l.vote l.lastLogId)))) :=
    h.lead hc rfl {} hms rfl
  have h2 := k_rhRebuildStreams h1 hc
  refine KR.bind fun l2 hl2 => ?_
  have hc2 := h2.clk l2 (unwrap_some hl2)
  split
  · exact k_lhAppend R h2 hc2 paysOk_blank
  · exact k_rhInitiate h2 hc2

theorem k_becomeLeader (R : ClockRule M P) (h : KInv M P C e) : KR M P C id (e.becomeLeader dbg now) := by
  unfold becomeLeader
  split
  · next l hl =>
    split
    · next hi =>
      exact KR.pure (h.lead (l' := { l with vote := e.st.vote.data.toCommitted }) (h.clk l hl) rfl ⟨hi.symm, rfl, rfl, rfl⟩)
    · exact k_becomeNewLeader R h
  · exact k_becomeNewLeader R h

theorem k_becomeFollowing (h : KInv M P C e) : KR M P C id (e.becomeFollowing dbg) := by
  unfold becomeFollowing
  exact KR.bind fun _ _ => KR.pure ⟨h.eff, h.com, fun c hc => (by cases hc), fun c hc => (by cases hc), h.cmt⟩

theorem k_updateInternal (R : ClockRule M P) (h : KInv M P C e) : KR M P C id (e.updateInternal dbg now) := by
  unfold updateInternal
  split
  · exact k_becomeLeader R h
  · split
    · exact KR.pure h
    · exact k_becomeFollowing h

theorem k_storeVote (h : KInv M P C e) (lease : Nat) (v : Vote) : KR M P C id (e.storeVote dbg now lease v) := by
  unfold storeVote
  split
  · refine KR.bind fun st hst => KR.pure ?_
    have hms := acceptIo_ms hst
    exact h.same hms
  · exact KR.bind fun vt _ => KR.pure h.same

theorem k_updateVote (R : ClockRule M P) (h : KInv M P C e) (v : Vote) : KR M P C Prod.snd (e.updateVote dbg now v) := by
  unfold updateVote
  split
  · exact KR.bindE id (k_storeVote h _ _) fun e1 h1 => KR.bindE id (k_updateInternal R h1) fun e2 h2 => KR.pure h2
  · exact KR.pure h

theorem k_fhTruncate (h : KInv M P C e) (i : Nat) : KR M P C id (e.fhTruncate dbg i) := by
  unfold fhTruncate
  refine KR.bind fun _ _ => ?_
  split
  · exact KR.pure h
  · refine KR.bind fun ms hms => ?_
    have hm := memOk_truncate h.ms hms
    dsimp only
    split
    · exact KR.pure (h.mems hm)
    · exact KR.pure (h.mems hm)

theorem k_fhAppendMembership (h : KInv M P C e) {es : List Ent} (he : EntsOk M es) : KR M P C id (e.fhAppendMembership dbg es) := by
  unfold fhAppendMembership
  split
  · exact KR.pure h
  · exact KR.bind fun ms hms => KR.pure (h.mems (memOk_appendMems h.ms he.lastTwo hms))

theorem k_fhDoAppend (h : KInv M P C e) (v : Vote) {es : List Ent} (he : EntsOk M es) : KR M P C id (e.fhDoAppend dbg v es) := by
  unfold fhDoAppend
  refine KR.bind fun _ _ => KR.bind fun _ _ => KR.bind fun _ _ => ?_
  exact KR.bindE id (k_fhAppendMembership h.same he) fun e1 h1 => KR.pure h1.same

theorem k_fhAppendEntries (h : KInv M P C e) (v : Vote) (prev : Option LogId) {es : List Ent} (he : EntsOk M es) :
    KR M P C id (e.fhAppendEntries dbg v prev es) := by
  unfold fhAppendEntries
  refine KR.bind fun _ _ => KR.bind fun st hst => KR.bind fun since _ => ?_
  have hms := acceptIo_ms hst
  have h1 : KInv M P C { e with st := st } := h.same hms
  split
  · next x xs hx =>
    refine KR.bindE id (k_fhTruncate h1 _) fun e1 h2 => k_fhDoAppend h2 _ ?_
    rw [← hx]; exact he.drop _
  · split
    · exact KR.pure h1
    · exact KR.pure h1.same

theorem k_fhEnsure (h : KInv M P C e) (prev : Option LogId) : KR M P C Prod.snd (e.fhEnsure dbg prev) := by
  unfold fhEnsure
  split
  · exact KR.pure h
  · refine KR.bind fun b _ => ?_
    split
    · exact KR.pure h
    · exact KR.bindE id (k_fhTruncate h _) fun e1 h1 => KR.pure h1

theorem k_fhCommit (h : KInv M P C e) (lc : Option LogId) (hl : ∀ x, x ≤ lc → C x) : KR M P C id (e.fhCommit dbg lc) := by
  unfold fhCommit
  refine KR.bind fun p hp => ?_
  obtain ⟨ch, st⟩ := p
  obtain ⟨hm, hc⟩ := memOk_updateCommitted h.ms hp
  dsimp only
  split
  · refine KR.bind fun i _ => KR.pure (k_maybeSnapshot (h.memsC hm ?_))
    show C st.committed
    rcases hc with hc | hc
    · rw [hc]; exact h.cmt
    · rw [hc]
      refine hl _ ?_
      rw [omin_eq]
      split
      · assumption
      · exact le_refl _
  · exact KR.pure h

theorem k_fhInstall (h : KInv M P C e) (v : Vote) {m : SnapMeta} (hm : M m.mem.mem) (hc : C m.lastLogId) :
    KR M P C Prod.snd (e.fhInstall dbg v m) := by
  unfold fhInstall
  split
  · exact KR.pure h
  · refine KR.bind fun last hlast => ?_
    have hu := k_updateSnapshot h m
    split
    · next e1 he => rw [he] at hu; exact KR.pure hu
    · next e1 he =>
      rw [he] at hu
      refine KR.bindE id ?_ fun e2 h2 => ?_
      · unfold fhInstallTruncate
        split
        · split
          · exact k_fhTruncate hu _
          · exact KR.pure hu
        · exact KR.pure hu
      · refine KR.bind fun st hst => KR.bind fun ms hms => KR.pure ?_
        have hs := acceptIo_ms hst
        have hk := memOk_update (by rw [hs.1]; exact h2.ms) hm hms
        refine k_logPurge (h2.memsC hk ?_)
        show C (some last)
        rw [← unwrap_some hlast]; exact hc

theorem k_startup (R : ClockRule M P) (h : KInv M P C e) : KR M P C id (e.startup dbg now) := by
  unfold startup
  split
  · exact k_updateInternal R h
  · exact KR.pure h.same

theorem k_handleVoteReq (R : ClockRule M P) (h : KInv M P C e) (v : Vote) (last : Option LogId) :
    KR M P C Prod.snd (e.handleVoteReq dbg now v last) := by
  unfold handleVoteReq
  split
  · exact KR.pure h
  · split
    · exact KR.bindE Prod.snd (k_updateVote R h _) fun p hp => KR.pure hp
    · exact KR.pure h

theorem k_establishLeader (R : ClockRule M P) (h : KInv M P C e) : KR M P C id (e.establishLeader dbg now) := by
  unfold establishLeader
  refine KR.bind fun c hc => KR.bind fun o ho => ?_
  have hM := h.cand c (unwrap_some hc)
  have h0 : KInv M P C { e with candidate := none } := ⟨h.eff, h.com, fun c hc => (by cases hc), h.clk, h.cmt⟩
  split
  · exact KR.pure h0
  · next l =>
    have hP : P.on l := by
      unfold establish at ho
      rw [bind_ok] at ho
      obtain ⟨_, _, ho⟩ := ho
      dsimp only at ho
      have ho' : ∀ b : Bool, (if b = true then pure none else (do let l ← Candidate.intoLeader dbg now c; pure (some l)) : Res (Option Leader)) = .ok (some l) →
          Candidate.intoLeader dbg now c = .ok l := by
        intro b hb
        split at hb
        · rw [pure_ok] at hb; cases hb
        · rw [bind_ok] at hb
          obtain ⟨l', hl', hb⟩ := hb
          rw [pure_ok] at hb; cases hb; exact hl'
      have hl' : Candidate.intoLeader dbg now c = .ok l := by
        split at ho <;> exact ho' _ ho
      · unfold Candidate.intoLeader at hl'
        rw [bind_ok] at hl'
        obtain ⟨_, _, hl'⟩ := hl'
        exact leaderNew_on R hM hl'
    have h1 := k_rhRebuildStreams (l := l) (h0.lead (e1 := { e with candidate := none, leader := some l }) hP rfl {}) hP
    refine KR.bindE Prod.snd (k_updateVote R h1 _) fun p hp => ?_
    obtain ⟨ok, e2⟩ := p
    refine KR.bind fun _ _ => KR.bind fun st hst => KR.bind fun lo hlo => KR.bind fun l3 hl3 => ?_
    have hms := acceptIo_ms hst
    have h3 : KInv M P C { e2 with st := st } := KInv.same (e := e2) hp hms
    refine k_lhAppend R h3 ?_ paysOk_blank
    have : e2.leader = some l3 := by
      have hl3' := unwrap_some hl3
      unfold leaderHandler at hlo
      split at hlo
      · rw [pure_ok] at hlo; rw [← hlo] at hl3'; cases hl3'
      · next l4 hl4 =>
        rw [bind_ok] at hlo
        obtain ⟨_, _, hlo⟩ := hlo
        rw [pure_ok] at hlo; rw [← hlo] at hl3'; cases hl3'; exact hl4
    exact h3.clk l3 this

theorem leaderHandler_some (hr : e.leaderHandler dbg = .ok (some l)) : e.leader = some l := by
  unfold leaderHandler at hr
  split at hr
  · rw [pure_ok] at hr; cases hr
  · next l4 hl4 =>
    rw [bind_ok] at hr
    obtain ⟨_, _, hr⟩ := hr
    rw [pure_ok] at hr; cases hr; exact hl4

theorem k_appendEntries (R : ClockRule M P) (h : KInv M P C e) (v : Vote) (prev : Option LogId) {es : List Ent} (he : EntsOk M es) :
    KR M P C Prod.snd (e.appendEntries dbg now v prev es) := by
  unfold appendEntries
  refine KR.bindE Prod.snd (k_updateVote R h _) fun p hp => ?_
  obtain ⟨ok, e1⟩ := p
  dsimp only
  split
  · refine KR.bind fun lv _ => KR.bindE Prod.snd (k_fhEnsure hp _) fun p hp => ?_
    obtain ⟨ok2, e2⟩ := p
    dsimp only
    split
    · exact KR.bindE id (k_fhAppendEntries hp _ _ he) fun e3 h3 => KR.pure h3
    · exact KR.pure hp
  · exact KR.pure hp

theorem k_handleAppend (R : ClockRule M P) (h : KInv M P C e) (tx : Nat) (v : Vote) (prev : Option LogId) {es : List Ent} (he : EntsOk M es)
    (lc : Option LogId) (hc : ∀ x, x ≤ lc → C x) : KR M P C id (e.handleAppend dbg now tx v prev es lc) := by
  unfold handleAppend
  refine KR.bindE Prod.snd (k_appendEntries R h _ _ he) fun p hp => ?_
  obtain ⟨r, e1⟩ := p
  dsimp only at hp ⊢
  split
  · exact KR.bind fun acc _ => KR.bind fun _ _ => k_fhCommit hp.same _ hc
  · exact KR.pure hp.same

theorem k_handleInstall (R : ClockRule M P) (h : KInv M P C e) (tx : Nat) (v : Vote) {m : SnapMeta} (hm : M m.mem.mem) (hc : C m.lastLogId) :
    KR M P C id (e.handleInstall dbg now tx v m) := by
  unfold handleInstall
  refine KR.bindE Prod.snd (k_updateVote R h _) fun p hp => ?_
  obtain ⟨ok, e1⟩ := p
  dsimp only at hp ⊢
  split
  · exact KR.bind fun lv _ => KR.bindE Prod.snd (k_fhInstall hp _ hm hc) fun p hp => KR.pure (KInv.same (e := p.2) hp)
  · exact KR.pure hp.same

theorem k_leaderStepDown (R : ClockRule M P) (h : KInv M P C e) : KR M P C id (e.leaderStepDown dbg now) := by
  unfold leaderStepDown
  split
  · exact k_updateInternal R h
  · exact KR.pure h

theorem k_tryPurge (h : KInv M P C e) : KInv M P C e.tryPurge := by
  unfold tryPurge
  split
  · exact k_rhTryPurge h
  · exact k_logPurge h

theorem k_finishBuilding (h : KInv M P C e) (m : SnapMeta) : KR M P C id (e.finishBuilding dbg m) := by
  unfold finishBuilding
  dsimp only
  have h0 : KInv M P C { e with st := { e.st with io := { e.st.io with building := false } } } := h.same
  have hu := k_updateSnapshot h0 m
  split
  · next e1 he => rw [he] at hu; exact KR.pure hu
  · next e1 he =>
    rw [he] at hu
    exact KR.bindE id (k_schedulePurge hu) fun e2 h2 => KR.pure (k_tryPurge h2)

theorem k_triggerPurge (h : KInv M P C e) (i : Nat) : KR M P C id (e.triggerPurge dbg i) := by
  unfold triggerPurge
  split
  · exact KR.pure h
  · split
    · exact KR.pure h
    · exact KR.bind fun x _ => KR.bindE id (k_updatePurgeUpto h _) fun e1 h1 => KR.pure (k_tryPurge h1)

theorem k_triggerTransfer (h : KInv M P C e) (t : NodeId) : KR M P C id (e.triggerTransfer dbg t) := by
  unfold triggerTransfer
  refine KR.bind fun o ho => ?_
  split
  · exact KR.pure h
  · next l =>
    exact KR.pure (h.lead (l' := { l with transferTo := some t }) (h.clk l (leaderHandler_some ho)) rfl {})

theorem k_writeEntry (R : ClockRule M P) (h : KInv M P C e) {p : Payload} (hp : PaysOk M [p]) : KR M P C Prod.snd (e.writeEntry dbg p) := by
  unfold writeEntry
  refine KR.bind fun o ho => ?_
  split
  · exact KR.pure h
  · split
    · exact KR.pure h
    · exact KR.bindE id (k_lhAppend R h (h.clk _ (leaderHandler_some ho)) hp) fun e1 h1 => KR.bind fun l _ => KR.pure h1

theorem k_coreHeartbeat (h : KInv M P C e) : KR M P C id (e.coreHeartbeat dbg) := by
  unfold coreHeartbeat
  refine KR.bind fun o _ => ?_
  split
  · exact KR.pure h
  · split
    · exact KR.pure h
    · exact KR.pure h.same

theorem k_tickHeartbeat (h : KInv M P C e) (en : Bool) (iv : Nat) : KR M P C id (e.tickHeartbeat dbg now en iv) := by
  have hmap : ∀ {e1 : Eng}, KInv M P C e1 → KInv M P C { e1 with leader := e1.leader.map fun l => { l with nextHeartbeat := now + iv } } := by
    intro e1 h1
    refine ⟨h1.eff, h1.com, h1.cand, ?_, h1.cmt⟩
    intro l hl
    obtain ⟨l0, h0, rfl⟩ := Option.map_eq_some_iff.1 hl
    exact h1.clk l0 h0
  unfold tickHeartbeat
  split
  · exact KR.pure h
  · split
    · dsimp only
      split
      · exact KR.bindE id (k_coreHeartbeat h) fun e1 h1 => KR.pure (hmap h1)
      · exact KR.bindE id (KR.pure (π := id) h) fun e1 h1 => KR.pure (hmap h1)
    · exact KR.pure h

theorem k_elect (R : ClockRule M P) (h : KInv M P C e) : KR M P C id (e.elect dbg now) := by
  unfold elect
  refine KR.bindE Prod.snd (k_updateVote R ?_ _) fun p hp => ?_
  · exact ⟨h.eff, h.com, fun c hc => (by cases hc; exact h.eff), h.clk, h.cmt⟩
  · obtain ⟨ok, e2⟩ := p
    exact KR.bind fun _ _ => KR.pure (KInv.same (e := e2) hp)

theorem k_handleVoteResp (R : ClockRule M P) (h : KInv M P C e) (target : NodeId) (v : Vote) (last : Option LogId) (granted : Bool) :
    KR M P C id (e.handleVoteResp dbg now target v last granted) := by
  unfold handleVoteResp
  split
  · exact KR.pure h
  · next c hc =>
    split
    · refine KR.bind fun c1 hc1 => ?_
      have h1 : KInv M P C { e with candidate := some c1 } := by
        refine ⟨h.eff, h.com, ?_, h.clk, h.cmt⟩
        intro c' hc'
        cases hc'
        unfold grantBy at hc1
        rw [bind_ok] at hc1
        obtain ⟨p, _, hc1⟩ := hc1
        rw [pure_ok] at hc1; subst hc1
        exact h.cand c hc
      dsimp only
      split
      · exact k_establishLeader R h1
      · exact KR.pure h1
    · have hs : KInv M P C (if e.st.lastLogId < last then { e with seenGreater := true } else e) := by
        split
        · exact h.same
        · exact h
      exact KR.bindE Prod.snd (k_updateVote R hs _) fun p hp => KR.pure hp

theorem k_initCluster (R : ClockRule M P) (h : KInv M P C e) {m : Membership} (hm : M m) : KR M P C Prod.snd (e.initCluster dbg now m) := by
  unfold initCluster
  split
  · exact KR.pure h
  · split
    · exact KR.pure h
    · refine KR.bind fun v _ => KR.bindE id (k_fhDoAppend h.same _ ?_) fun e2 h2 => KR.bindE id (k_elect R h2) fun e3 h3 => KR.pure h3
      intro x hx k hk
      rw [List.mem_singleton] at hx
      subst hx
      cases hk
      exact hm

/-- the memberships an input brings have `M`, the committed positions it brings have `C` -/
def _root_.Openraft.Engine.InM (M : Membership → Prop) (C : Option LogId → Prop) (e : Eng) : Input → Prop
  | .appendReq _ _ _ es lc => EntsOk M es ∧ ∀ x, x ≤ lc → C x
  | .snapReq _ _ m => M m.mem.mem ∧ C m.lastLogId
  | .init _ m => M m
  | .write p => PaysOk M [p]
  | .change c r => ∀ m, e.changeApply c r = some m → M m
  | _ => True

/-- `P` is kept when an input updates the clock or the progress, and what it commits has `C` -/
def _root_.Openraft.Engine.UpOk (P : PRule) (C : Option LogId → Prop) (e : Eng) : Input → Prop
  | .hbProgress s target t => e.sessionMatch s = true → ∀ l c, e.leader = some l → l.clock.increaseTo target (some t) = some c →
      P.on l → P l.vote.leaderId c l.progress.vp l.mt
  | .replProgress s target (.matching m) => e.sessionMatch s = true → ∀ l, e.leader = some l → P.on l → Counts P C e l target m
  | .localIO io => io.vote.committed = true → e.voteMatch io.vote = true → ∀ l, e.leader = some l →
      ¬ io.last ≤ l.mt e.cfg.id → P.on l → Counts P C e l e.cfg.id io.last
  | _ => True

theorem k_input (R : ClockRule M P) (h : KInv M P C e) {i : Input} (hi : InM M C e i) (hb : UpOk P C e i) : KR M P C id (e.input dbg now i) := by
  cases i with
  | appendReq tx v prev es lc => exact k_handleAppend R h _ _ _ hi.1 _ hi.2
  | voteReq tx v last =>
    simp only [input, coreVoteReq]
    exact KR.bindE Prod.snd (k_handleVoteReq R h _ _) fun p hp => KR.pure (KInv.same (e := p.2) hp)
  | snapReq tx v m => exact k_handleInstall R h _ _ hi.1 hi.2
  | init tx m =>
    simp only [input, coreInit]
    exact KR.bindE Prod.snd (k_initCluster R h hi) fun p hp => KR.pure (KInv.same (e := p.2) hp)
  | write p =>
    simp only [input]
    exact KR.bindE Prod.snd (k_writeEntry R h hi) fun p hp => KR.pure hp
  | change c r =>
    simp only [input]
    refine KR.bindE Prod.snd ?_ fun p hp => KR.pure hp
    unfold changeMembership
    split
    · exact KR.pure h
    · next m hm =>
      refine k_writeEntry R h ?_
      intro k hk
      simp only [List.mem_singleton, Payload.membership.injEq] at hk
      rw [hk]; exact hi m hm
  | handleTransfer v target =>
    simp only [input, coreHandleTransfer]
    split
    · split
      · exact k_elect R h.same
      · exact KR.pure h.same
    · exact KR.pure h
  | electCmd =>
    simp only [input, coreElect]
    split
    · exact k_elect R h
    · exact KR.pure h
  | heartbeatCmd => exact k_coreHeartbeat h
  | snapshotCmd => exact KR.pure (k_triggerSnapshot h)
  | purgeCmd i => exact k_triggerPurge h _
  | transferCmd t => exact k_triggerTransfer h _
  | voteResp target v last granted sender =>
    simp only [input]
    split
    · exact k_handleVoteResp R h _ _ _ _
    · exact KR.pure h
  | higherVote v sender =>
    simp only [input]
    split
    · exact KR.bindE Prod.snd (k_updateVote R h _) fun p hp => KR.pure hp
    · exact KR.pure h
  | tick el hb iv =>
    simp only [input, coreTick]
    refine KR.bindE id ?_ fun e1 h1 => KR.bindE id (k_tickHeartbeat h1 _ _) fun e2 h2 => ?_
    · unfold tickElection
      split
      · exact KR.pure h
      · split
        · exact KR.pure h
        · split
          · exact KR.pure h
          · have hx : ∀ b : Bool, KR M P C id (if b = true then elect dbg now { e with seenGreater := false } else pure e) := by
              intro b
              split
              · exact k_elect R h.same
              · exact KR.pure h
            dsimp only
            split <;> exact hx _
    · split
      · exact k_leaderStepDown R h2
      · exact KR.pure h2
  | localIO io =>
    simp only [input, coreLocalIO]
    refine KR.bind fun p _ => ?_
    have h1 : KInv M P C (e.withProg p) := h.same
    split
    · next hc =>
      split
      · next l hl =>
        split
        · next hv =>
          refine k_rhUpdateLocal h1 _ ?_
          exact fun hu => hb hc hv l hl hu (h.clk l hl)
        · exact KR.pure h1
      · exact KR.pure h1
    · exact KR.pure h1
  | replProgress s target r =>
    simp only [input, coreReplProgress]
    split
    · next hs =>
      refine KR.bind fun l hl => k_rhUpdateProgress h (h.clk _ (unwrap_some hl)) _ _ ?_
      intro m hr
      subst hr
      exact hb hs l (unwrap_some hl) (h.clk l (unwrap_some hl))
    · exact KR.pure h
  | hbProgress s target t =>
    simp only [input, coreHbProgress]
    split
    · next hs =>
      refine KR.bind fun l hl => ?_
      unfold rhUpdateClock
      refine KR.bind fun c hc => KR.pure (h.lead (l := { l with clock := c }) ?_ rfl {})
      exact hb hs l c (unwrap_some hl) (unwrap_some hc) (h.clk l (unwrap_some hl))
    · exact KR.pure h
  | built m =>
    simp only [input, coreBuilt]
    exact KR.bindE id (k_finishBuilding h _) fun e1 h1 => KR.bind fun io _ => KR.pure h1.same
  | installed io m =>
    simp only [input, coreInstalled]
    exact KR.bind fun p _ => KR.bind fun s1 _ => KR.bind fun s2 _ => KR.pure h.same
  | applied last =>
    simp only [input, coreApplied]
    exact KR.bind fun s _ => KR.pure h.same
  | initiate =>
    simp only [input, coreInitiate]
    refine KR.bind fun o ho => ?_
    split
    · exact KR.pure h
    · exact k_rhInitiate h (h.clk _ (leaderHandler_some ho))

end Eng
end Openraft.Engine
