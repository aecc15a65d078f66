import Verif.Engine.Noop
import Verif.Engine.Ask
import Verif.Runtime.Streams
import Verif.Props.ClientProps
import Verif.Props.AbortProps
import Verif.Props.DurableProps

/-!
# Decisions: read positions, handing over, stepping down, snapshot answers, applied memberships
-/

set_option autoImplicit false

namespace Openraft.Props
open Openraft Openraft.Engine Openraft.Runtime Openraft.Runtime.Demo
open Openraft.Engine.Demo (lid m3 v2)
open Openraft.LogIdList

variable {dbg : Bool} {now : Nat} {e e' : Eng}

/-! ## C25: the read position of a leader -/

/-- the leader of a node has a noop log id of its own -/
theorem Life.noop {cfg : Cfg} {old : List Resp} {n : Node} (h : Life dbg cfg old n) : NoopInv OwnNoop n.eng := by
  induction h with
  | fresh now persist => exact fun l hl => by cases hl
  | @step _ n n' ev hl ho hs ih =>
    obtain ⟨⟨g0, a0, s0, c0, P, S, hi⟩, _⟩ := hl.inv
    by_cases hrun : ev = .run
    · subst hrun
      rcases run_view hs with rfl | ⟨c, n1, h1, _, h2, rfl⟩
      · exact ih
      · obtain ⟨p, x, h3, _⟩ := (exec_frame h2).eng
        show NoopInv OwnNoop n1.eng
        rw [h3]; exact ih.same
    · obtain ⟨_, _, he | ⟨now, i, _, _, _, hin⟩⟩ := hi.view ho hrun hs
      · rw [he]; exact ih
      · exact Eng.noop_input ih i _ hin
  | crash k now _ _ hr _ =>
    obtain ⟨st, store, s2, _, h2, _⟩ := restart_startup hr
    exact Eng.noop_startup (fun l hl => by cases hl) _ h2

/-- **C25, the read position.** In every life of a node: the position a leader waits for before it answers a linearizable read is not
below its committed position and not below a log id with its own leader id, so the read waits until an entry of the leader's own
term is applied. -/
theorem C25_read_position {cfg : Cfg} {old : List Resp} {n : Node} {l : Leader} (h : Life dbg cfg old n) (hl : n.eng.leader = some l) :
    n.eng.st.committed ≤ n.eng.lhReadLogId l ∧ ∃ x, x.leaderId = l.vote.leaderId ∧ some x ≤ n.eng.lhReadLogId l := by
  obtain ⟨x, h1, h2⟩ := Life.noop h l hl
  have hm : n.eng.lhReadLogId l = @max _ LinearOrder.toMax l.noopLogId n.eng.st.committed := omax_eq _ _
  rw [hm, h1]
  exact ⟨le_max_right _ _, x, h2, le_max_left _ _⟩

/-- **C25, the first entry.** A node that starts again and finds its own committed vote becomes leader with an entry of its own
leader id in its log, so that the position of `C25_read_position` can be reached. -/
theorem C25_restart_entry (hs : SortedIdx e.st.logIds) (hl : e.leader = none) (hi : e.st.isLeader e.cfg.id = true)
    (hr : e.startup dbg now = .ok e') :
    ∃ l x, e'.leader = some l ∧ l.noopLogId = some x ∧ x.leaderId = e.st.vote.data.leaderId ∧ some x ≤ l.lastLogId := by
  unfold Eng.startup at hr
  rw [if_pos hi] at hr
  unfold Eng.updateInternal at hr
  rw [if_pos hi] at hr
  unfold Eng.becomeLeader at hr
  rw [hl] at hr
  exact Eng.becomeNewLeader_blank hs hr

-- the leader of a cluster of one life has its read position at its own first entry
example : ∃ l, waits.eng.leader = some l ∧ waits.eng.lhReadLogId l = some (lid 2 1 2) := by
  cases h : waits.eng.leader with
  | none => exact absurd (show waits.eng.leader.isSome = true by decide +kernel) (by rw [h]; simp)
  | some l =>
    refine ⟨l, rfl, ?_⟩
    have : (waits.eng.leader.map fun l => waits.eng.lhReadLogId l) = some (some (lid 2 1 2)) := by decide +kernel
    rw [h] at this
    exact Option.some.inj this

/-! ## C35: the leader that hands over -/

/-- **C35, the sender.** A leader that is told to hand over sends its target exactly one message with its vote and its last log id,
gives up its lease, and from then on refuses writes. A node that is no leader does nothing. -/
theorem C35_send {t : NodeId} (hr : e.input dbg now (.transferCmd t) = .ok e') :
    (e.leader = none → e' = e) ∧
    ∀ l, e.leaderHandler dbg = .ok (some l) →
      e'.out = e.out ++ [.transfer l.vote t l.lastLogId] ∧ e'.st.vote.lease = 0 ∧ e'.st.vote.enabled = false ∧
      e'.st.vote.data = e.st.vote.data ∧ e'.st.logIds = e.st.logIds ∧
      ∀ (p : Cluster.Payload) (a : Option Nat) (e2 : Eng), e'.writeEntry dbg p = .ok (a, e2) → a = none ∧ e2 = e' := by
  simp only [Eng.input] at hr
  unfold Eng.triggerTransfer at hr
  rw [bind_ok] at hr
  obtain ⟨o, ho, hr⟩ := hr
  refine ⟨fun hn => ?_, fun l hl => ?_⟩
  · unfold Eng.leaderHandler at ho
    rw [hn] at ho
    rw [pure_ok] at ho; subst ho
    rw [pure_ok] at hr; exact hr.symm
  · rw [hl] at ho; cases ho
    dsimp only at hr
    rw [pure_ok] at hr
    subst hr
    refine ⟨rfl, rfl, rfl, rfl, rfl, fun p a e2 hw => ?_⟩
    unfold Eng.writeEntry at hw
    rw [bind_ok] at hw
    obtain ⟨o, ho, hw⟩ := hw
    split at hw
    · rw [pure_ok] at hw; cases hw; exact ⟨rfl, rfl⟩
    · next l2 =>
      have := Eng.leaderHandler_some ho
      have h2 : some _ = some l2 := this
      cases h2
      rw [if_pos (by rfl), pure_ok] at hw
      cases hw; exact ⟨rfl, rfl⟩

-- a leader of two nodes hands over
example : (waits.eng.leader.isSome = true ∧ (waits.eng.leader.map fun l => decide (waits.eng.st.vote.data ≤ l.vote)) = some true) ∧
    (Engine.Demo.after 50 waits.eng (.transferCmd 2)).out.getLast? = some (Cmd.transfer ⟨⟨2, 1⟩, true⟩ 2 (some (lid 2 1 3))) := by
  decide +kernel

/-! ## the removed leader steps down -/

/-- **C40, stepping down.** A tick makes a leader stop leading only if its last membership is committed and applied and no longer has
this node. -/
theorem C40_step_down {el hb : Bool} {iv : Nat} {l : Leader} (hr : e.input dbg now (.tick el hb iv) = .ok e') (hl : e.leader = some l)
    (hs : e.st.server = .leader) (hn : e'.leader = none) :
    e.st.ms.effective.logId ≤ e.st.committed ∧ e.st.ms.effective.logId ≤ e.st.io.applied ∧
      ¬ (e.st.ms.effective.mem.contains e.cfg.id = true ∧ e.st.vote.data.leaderId.node = e.cfg.id) := by
  simp only [Eng.input, Eng.coreTick] at hr
  rw [bind_ok] at hr
  obtain ⟨e1, h1, hr⟩ := hr
  have he1 : e1 = e := by
    unfold Eng.tickElection at h1
    rw [if_pos hs, pure_ok] at h1; exact h1.symm
  subst he1
  rw [bind_ok] at hr
  obtain ⟨e2, h2, hr⟩ := hr
  have hk : e2.st = e1.st ∧ e2.cfg = e1.cfg ∧ e2.leader.isSome = true := by
    unfold Eng.tickHeartbeat at h2
    rw [hl] at h2
    dsimp only at h2
    split at h2
    · have hgo : ∀ x : Res Eng, (∀ a, x = .ok a → a.st = e1.st ∧ a.cfg = e1.cfg ∧ a.leader = e1.leader) →
          (x >>= fun a => (pure { a with leader := a.leader.map fun l => { l with nextHeartbeat := now + iv } } : Res Eng)) = .ok e2 →
          e2.st = e1.st ∧ e2.cfg = e1.cfg ∧ e2.leader.isSome = true := by
        intro x hx h
        rw [bind_ok] at h
        obtain ⟨a, ha, h⟩ := h
        rw [pure_ok] at h; subst h
        obtain ⟨k1, k2, k3⟩ := hx a ha
        exact ⟨k1, k2, by show (a.leader.map _).isSome = true; rw [k3, hl]; rfl⟩
      split at h2
      · refine hgo _ (fun a ha => ?_) h2
        unfold Eng.coreHeartbeat at ha
        rw [bind_ok] at ha
        obtain ⟨o, _, ha⟩ := ha
        split at ha
        · rw [pure_ok] at ha; subst ha; exact ⟨rfl, rfl, rfl⟩
        · split at ha
          · rw [pure_ok] at ha; subst ha; exact ⟨rfl, rfl, rfl⟩
          · rw [pure_ok] at ha; subst ha; exact ⟨rfl, rfl, rfl⟩
      · exact hgo _ (fun a ha => by rw [pure_ok] at ha; subst ha; exact ⟨rfl, rfl, rfl⟩) h2
    · rw [pure_ok] at h2; subst h2; exact ⟨rfl, rfl, by rw [hl]; rfl⟩
  obtain ⟨k1, k2, k3⟩ := hk
  split at hr
  · next hap =>
    unfold Eng.leaderStepDown at hr
    split at hr
    · next hc =>
      rw [k1] at hap hc
      refine ⟨hc, hap, fun ⟨hm, hv⟩ => ?_⟩
      have hlead : e2.st.isLeading e2.cfg.id = true := by
        unfold RState.isLeading
        rw [k1, k2, hm, hv]; simp
      unfold Eng.updateInternal at hr
      have hno : ∀ a, e2.becomeLeader dbg now = .ok a → a.leader ≠ none := by
        intro a ha hq
        have hnew : ∀ b, e2.becomeNewLeader dbg now = .ok b → b.leader.isSome = true := by
          intro b hb
          unfold Eng.becomeNewLeader at hb
          simp only [bind_ok] at hb
          obtain ⟨_, _, _, _, l2, _, hb⟩ := hb
          split at hb
          · exact Eng.lhAppend_lead hb
          · exact Eng.rhInitiate_lead hb
        unfold Eng.becomeLeader at ha
        split at ha
        · split at ha
          · rw [pure_ok] at ha; subst ha; cases hq
          · have := hnew _ ha; rw [hq] at this; cases this
        · have := hnew _ ha; rw [hq] at this; cases this
      rw [if_pos hlead] at hr
      split at hr
      · exact hno _ hr hn
      · rw [pure_ok] at hr; subst hr
        rw [hn] at k3; cases k3
    · rw [pure_ok] at hr; subst hr
      rw [hn] at k3; cases k3
  · rw [pure_ok] at hr; subst hr
    rw [hn] at k3; cases k3

/-- two voters without node 1 -/
def m23x : Membership := ⟨[[2, 3]], [(2, 0), (3, 0)]⟩
/-- a leader whose last membership, committed and applied, is one without it -/
def gone : Eng := { waits.eng with st := { waits.eng.st with ms := ⟨⟨some (lid 1 2 0), m23x⟩, ⟨some (lid 1 2 0), m23x⟩⟩ } }

example : gone.leader.isSome = true ∧ gone.st.server = .leader ∧
    (Engine.Demo.after 50 gone (.tick true true 10)).leader.isSome = false := by decide +kernel

/-! ## C07, C41: a snapshot is acknowledged after it is installed -/

/-- **C41, the answer.** What the answer to a snapshot waits for: a refusal for the vote it carries to be stored; a snapshot that
brings nothing new is answered at once; any other is answered after it was installed, and the command to install it was given. -/
theorem C41_answer_decision {tx : Nat} {v : Vote} {m : SnapMeta} (hr : e.input dbg now (.snapReq tx v m) = .ok e')
    (hv : v.leaderId.node ≠ e.cfg.id) :
    ∃ cs w, e'.out = e.out ++ cs ++ [.respond w tx (.snapshot e'.st.vote.data)] ∧
      (w = some (.ioFlushed (IOId.new e'.st.vote.data)) ∧ ¬ e.st.vote.data ≤ v ∨
       w = none ∧ e.st.vote.data ≤ v ∧ (m.lastLogId ≤ e.st.committed ∨ m.lastLogId ≤ e.st.snap.lastLogId) ∨
       ∃ last io, w = some (.snapshot (some last)) ∧ e.st.vote.data ≤ v ∧ m.lastLogId = some last ∧ .sm (.install m io) ∈ cs) := by
  simp only [Eng.input] at hr
  unfold Eng.handleInstall at hr
  rw [bind_ok] at hr
  obtain ⟨⟨ok, e1⟩, h1, hr⟩ := hr
  have : Lets (fun _ : Cmd => True) := ⟨fun _ _ => trivial⟩
  have : LetsVote (fun _ : Cmd => True) := ⟨fun _ => trivial⟩
  have : LetsTrunc (fun _ : Cmd => True) := ⟨fun _ => trivial⟩
  have : LetsPurge (fun _ : Cmd => True) := ⟨fun _ => trivial⟩
  obtain ⟨cs1, hcs1, _⟩ := Eng.emits_updateVote (P := fun _ => True) e v _ h1
  have hb := Eng.updateVote_yes h1
  obtain ⟨_, hc, _, hsn, _⟩ := Eng.updateVote_log hv h1
  dsimp only at hr hcs1
  split at hr
  · next hok =>
    have hle : e.st.vote.data ≤ v := by rw [hok] at hb; exact of_decide_eq_true hb.symm
    rw [bind_ok] at hr
    obtain ⟨lv, _, hr⟩ := hr
    rw [bind_ok] at hr
    obtain ⟨⟨w, e2⟩, h2, hr⟩ := hr
    rw [pure_ok] at hr
    subst hr
    have key : ∃ cs, e2.out = e1.out ++ cs ∧ (w = none ∧ (m.lastLogId ≤ e.st.committed ∨ m.lastLogId ≤ e.st.snap.lastLogId) ∨
        ∃ last io, w = some (.snapshot (some last)) ∧ m.lastLogId = some last ∧ .sm (.install m io) ∈ cs) := by
      unfold Eng.fhInstall at h2
      split at h2
      · next h3 =>
        rw [pure_ok] at h2; cases h2
        exact ⟨[], by simp, Or.inl ⟨rfl, Or.inl (by rw [← hc]; exact h3)⟩⟩
      · rw [bind_ok] at h2
        obtain ⟨last, hlast, h2⟩ := h2
        unfold Eng.updateSnapshot at h2
        by_cases h3 : m.lastLogId ≤ e1.st.snap.lastLogId
        · rw [if_pos h3] at h2
          dsimp only at h2
          rw [pure_ok] at h2; cases h2
          exact ⟨[], by simp, Or.inl ⟨rfl, Or.inr (by rw [← hsn]; exact h3)⟩⟩
        · rw [if_neg h3] at h2
          dsimp only at h2
          simp only [bind_ok] at h2
          obtain ⟨e3, h4, st, hst, ms, hms, h2⟩ := h2
          obtain ⟨cs3, hcs3, _⟩ := Eng.emits_fhInstallTruncate (P := fun _ => True) _ _ _ h4
          rw [pure_ok] at h2
          cases h2
          obtain ⟨cs4, hcs4, _⟩ := Eng.emits_logPurge (P := fun _ => True)
            ({ (Eng.push (Eng.updateServerState { e3 with st := { st with committed := some last, ms := ms } })
              (.sm (.install m (IOId.newLog lv (some last))))) with
              st := { (Eng.push (Eng.updateServerState { e3 with st := { st with committed := some last, ms := ms } })
              (.sm (.install m (IOId.newLog lv (some last))))).st with purgeUpto := some last } } : Eng)
          refine ⟨cs3 ++ (.sm (.install m (IOId.newLog lv (some last)))) :: cs4, ?_, Or.inr ⟨last, IOId.newLog lv (some last), rfl, ?_, ?_⟩⟩
          · rw [hcs4]
            show (e3.out ++ [_]) ++ cs4 = _
            have : e3.out = e1.out ++ cs3 := hcs3
            rw [this]; simp
          · exact Eng.unwrap_some hlast
          · simp
    obtain ⟨cs2, hcs2, hk⟩ := key
    refine ⟨cs1 ++ cs2, w, ?_, ?_⟩
    · show e2.out ++ [_] = _
      rw [hcs2, hcs1]; simp [Eng.push]
    · rcases hk with ⟨k1, k2⟩ | ⟨last, io, k1, k2, k3⟩
      · exact Or.inr (Or.inl ⟨k1, hle, k2⟩)
      · exact Or.inr (Or.inr ⟨last, io, k1, hle, k2, List.mem_append_right _ k3⟩)
  · next hok =>
    rw [pure_ok] at hr; subst hr
    refine ⟨cs1, _, ?_, Or.inl ⟨rfl, ?_⟩⟩
    · show e1.out ++ [_] = _
      rw [hcs1]; rfl
    · intro hle
      exact hok (by rw [hb]; exact decide_eq_true hle)

/-- **C41, C07: when it is answered.** An answer that waits for a snapshot is sent only when the stored snapshot is at least this one. -/
theorem C41_answer_installed {cfg : Cfg} {old : List Resp} {n n' : Node} {i tx : Nat} {r : Resp} {l : Option LogId}
    (h : Life dbg cfg old n) (hs : n.step dbg .run = .ok n') (hsent : n'.sent = n.sent ++ [(i, tx, r)])
    (hc : n.head = some (.respond (some (.snapshot l)) tx r)) : l ≤ n'.sm.snap.lastLogId := by
  obtain ⟨⟨g0, a0, s0, c0, P, S, hi⟩, _⟩ := h.inv
  rcases RInv.sent_step hs with h3 | ⟨w, tx', r', _, hc', hrdy, rfl⟩
  · rw [h3] at hsent
    exact absurd (congrArg List.length hsent) (by simp)
  · rw [hc] at hc'; cases hc'
    have h1 : n.holds (.snapshot l) = true := hrdy
    have h2 : ¬ n.eng.st.io.snapshot < l := by simpa [Node.holds] using h1
    exact (not_lt.1 h2).trans hi.s.ioSnap

/-- a node that gets its first snapshot -/
def snapEvs : List (List LogId × Ev) :=
  [([], .msg 1 (.snapReq 8 v2 ⟨some (lid 1 2 4), ⟨some (lid 1 2 0), m3⟩, 5⟩))] ++ runs 2 ++ [([], .flush), ([], .sm), ([], .note 3), ([], .note 3)] ++ runs 1 ++
    [([], .note 4)] ++ runs 1
/-- before the snapshot is acknowledged -/
def snapAt : Node := runTo true (Node.fresh Demo.cfg 0) snapEvs
theorem snapAt_life : Life true Demo.cfg [] snapAt := (Life.fresh 0 false).run (run_of_allOk .refl (by decide +kernel))
/-- after it -/
def snapDone : Node := Runtime.Demo.after true snapAt .run

example : snapAt.head = some (.respond (some (.snapshot (some (lid 1 2 4)))) 8 (.snapshot v2)) := by decide +kernel
example : some (lid 1 2 4) ≤ snapDone.sm.snap.lastLogId :=
  C41_answer_installed (i := 3) snapAt_life (Runtime.Demo.after_ok (by decide +kernel)) (by decide +kernel)
    (show snapAt.head = some (.respond (some (.snapshot (some (lid 1 2 4)))) 8 (.snapshot v2)) by decide +kernel)
-- the node that gets the snapshot, and the same snapshot again when it has it
example : ∃ e1, (Node.fresh Demo.cfg 0).eng.input true 1 (.snapReq 8 v2 ⟨some (lid 1 2 4), ⟨some (lid 1 2 0), m3⟩, 5⟩) = .ok e1 ∧
    v2.leaderId.node ≠ (Node.fresh Demo.cfg 0).eng.cfg.id := by
  refine ⟨_, Engine.Demo.after_ok (by decide +kernel), by decide +kernel⟩

/-! ## C31: the membership of the state machine -/

/-- the last membership that was applied -/
def lastMem (es : List Ent) : Option StoredMem := (es.filterMap (·.stored?)).getLast?

theorem memAfter_last {m x : StoredMem} {h es : List Ent} (hm : ∀ y, lastMem h = some y → m = y) (hx : lastMem (h ++ es) = some x) :
    Node.memAfter m es = x := by
  unfold lastMem at hm hx
  unfold Node.memAfter
  rw [List.filterMap_append, List.getLast?_append] at hx
  cases hl : (es.filterMap (·.stored?)).getLast? with
  | none =>
    rw [hl] at hx
    rw [List.getLast?_eq_none_iff] at hl
    rw [hl]
    exact hm x hx
  | some y =>
    rw [hl] at hx
    cases hx
    rw [List.getLastD_eq_getLast?, hl]; rfl

/-- what a step does to the state machine -/
theorem sm_step {n n' : Node} {ev : Ev} (hs : n.step dbg ev = .ok n') :
    n'.sm = n.sm ∨ (∃ es, n'.sm.hist = n.sm.hist ++ es ∧ n'.sm.mem = Node.memAfter n.sm.mem es) ∨ n'.sm.hist = [] ∨
      (n'.sm.hist = n.sm.hist ∧ n'.sm.mem = n.sm.mem) := by
  cases ev with
  | msg now i =>
    left
    simp only [Node.step] at hs
    split at hs
    · simp only [out_bind, out_pure] at hs
      obtain ⟨_, _, rfl⟩ := hs; rfl
    · rw [out_pure] at hs; rw [← hs]
  | write now tx p =>
    left
    simp only [Node.step] at hs
    split at hs
    · simp only [out_bind, out_pure] at hs
      obtain ⟨⟨i, e⟩, _, rfl⟩ := hs
      cases i <;> rfl
    · rw [out_pure] at hs; rw [← hs]
  | change now tx c r =>
    left
    simp only [Node.step] at hs
    split at hs
    · simp only [out_bind, out_pure] at hs
      obtain ⟨⟨i, e⟩, _, rfl⟩ := hs
      cases i <;> rfl
    · rw [out_pure] at hs; rw [← hs]
  | note now =>
    left
    simp only [Node.step] at hs
    split at hs
    · split at hs
      · rw [out_pure] at hs; rw [← hs]
      · next x xs _ =>
        cases x <;> simp only [Node.handle, out_bind, out_pure] at hs <;> obtain ⟨e1, _, rfl⟩ := hs
        case applied => exact (CInv.answer_eng _ _).2
        all_goals rfl
    · rw [out_pure] at hs; rw [← hs]
  | run =>
    left
    rcases run_view hs with rfl | ⟨c, n1, h1, _, h2, rfl⟩
    · rfl
    · exact (CInv.exec_keep h2).2.2.1
  | flush =>
    left
    simp only [Node.step, out_pure] at hs
    subst hs
    unfold Node.flush1
    split <;> rfl
  | sm =>
    simp only [Node.step] at hs
    unfold Node.smStep at hs
    split at hs
    · rw [out_pure] at hs; rw [← hs]; exact Or.inl rfl
    · dsimp only at hs
      split at hs
      · rw [out_pure] at hs; subst hs
        exact Or.inr (Or.inl ⟨_, rfl, rfl⟩)
      · cases hs
    · rw [out_pure] at hs; subst hs; exact Or.inr (Or.inr (Or.inl rfl))
    · rw [out_pure] at hs; subst hs; exact Or.inl rfl
  | build k =>
    simp only [Node.step, out_pure] at hs
    subst hs
    unfold Node.buildDone
    split
    · exact Or.inl rfl
    · exact Or.inr (Or.inr (Or.inr ⟨rfl, rfl⟩))

/-- **C31, the state machine.** In every life of a node: the membership of the state machine is the last one among the entries applied
since its last snapshot, if there is one among them. A snapshot that is built next carries this membership and the applied position. -/
theorem C31_applied_membership {cfg : Cfg} {old : List Resp} {n : Node} (h : Life dbg cfg old n) {x : StoredMem}
    (hx : lastMem n.sm.hist = some x) : n.sm.mem = x := by
  induction h generalizing x with
  | fresh now persist => cases hx
  | @step _ n n' ev hl ho hs ih =>
    rcases sm_step hs with h1 | ⟨es, h1, h2⟩ | h1 | ⟨h1, h2⟩
    · rw [h1] at hx ⊢; exact ih hx
    · rw [h2]; rw [h1] at hx
      exact memAfter_last (fun y hy => ih hy) hx
    · rw [h1] at hx; cases hx
    · rw [h2]; rw [h1] at hx; exact ih hx
  | @crash _ n n' k now hl hf hr ih =>
    obtain ⟨⟨g0, a0, s0, c0, P, S, hi⟩, _⟩ := hl.inv
    obtain ⟨st, store, s2, base, _, hld, _, _, _, _, hsm⟩ := restart_inv (hi.crash_ok k) hf hr
    rw [hsm] at hx ⊢
    rw [hld.mem]
    rw [hld.hist] at hx
    refine memAfter_last (fun y hy => ?_) hx
    unfold Sm.reboot at hy ⊢
    split
    · next hp => rw [if_pos hp] at hy; exact ih hy
    · next hp => rw [if_neg hp] at hy; cases hy

example : lifeE.sm.mem = ⟨some (lid 1 2 0), m3⟩ := C31_applied_membership lifeE_life (by decide +kernel)
example : lifeE.sm.hist = [⟨lid 1 2 0, .membership m3⟩, ⟨lid 1 2 1, .blank⟩] := by decide +kernel

end Openraft.Props
