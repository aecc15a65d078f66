import Verif.Runtime.Safe
import Verif.Engine.Sync

/-!
# When the range of an `Apply` command is in the log

`get_log_id(already_committed.next_index()).unwrap()` of `core/raft_core.rs:1747` cannot fail as long as no
snapshot is installed while an `Apply` command is waiting.
-/

set_option autoImplicit false

namespace Openraft.Engine
open Openraft.Repl (Panic dassert Inflight)

/-- a command other than `Apply` -/
def Cmd.notApply : Cmd → Prop
  | .apply _ _ => False
  | _ => True

namespace Eng
variable {dbg : Bool} {now : Nat}

theorem na_storeVote (e : Eng) (lease : Nat) (v : Vote) : EmitsR Cmd.notApply id e (e.storeVote dbg now lease v) := by
  unfold storeVote
  split
  · exact EmitsR.bind fun st => EmitsR.pure (emits_upd _ (emits_same rfl rfl) trivial)
  · exact EmitsR.bind fun vt => EmitsR.pure (emits_same rfl rfl)

theorem na_fhTruncate (e : Eng) (i : Nat) : EmitsR Cmd.notApply id e (e.fhTruncate dbg i) := by
  unfold fhTruncate
  refine EmitsR.bind fun _ => ?_
  split
  · exact EmitsR.pure (Emits.refl _)
  · refine EmitsR.bind fun ms => ?_
    dsimp only
    split
    · exact EmitsR.pure ((emits_upd _ (emits_same rfl rfl) trivial).trans (emits_updateServerState _))
    · exact EmitsR.pure (emits_upd _ (emits_same rfl rfl) trivial)

theorem na_logPurge (e : Eng) : Emits Cmd.notApply e e.logPurge := by
  unfold logPurge
  split
  · exact Emits.refl _
  · split
    · exact Emits.refl _
    · exact emits_upd _ (emits_same rfl rfl) trivial

theorem na_fhInstall (e : Eng) (v : Vote) (m : SnapMeta) : EmitsR Cmd.notApply Prod.snd e (e.fhInstall dbg v m) := by
  unfold fhInstall
  split
  · exact EmitsR.pure (Emits.refl _)
  · refine EmitsR.bind fun last => ?_
    have hu := emits_updateSnapshot (P := Cmd.notApply) e m
    split
    · next e1 he => rw [he] at hu; exact EmitsR.pure hu
    · next e1 he =>
      rw [he] at hu
      have ht : EmitsR Cmd.notApply id e1 (e1.fhInstallTruncate dbg last) := by
        unfold fhInstallTruncate
        split
        · split
          · exact na_fhTruncate _ _
          · exact EmitsR.pure (Emits.refl _)
        · exact EmitsR.pure (Emits.refl _)
      refine EmitsR.from' hu (EmitsR.bindE id ht fun e2 => ?_)
      refine EmitsR.bind fun st => EmitsR.bind fun ms => EmitsR.pure ?_
      refine Emits.trans ?_ (na_logPurge _)
      exact (emits_upd (e := e2) (.sm (.install m (IOId.newLog v (some last))))
        (e1 := updateServerState { e2 with st := { st with committed := some last, ms := ms } }) (emits_same rfl rfl) trivial).trans (emits_same rfl rfl)

/-- a snapshot of another node is installed, or the snapshot stays; its installation adds no `Apply` command -/
theorem snapReq_apply {g0 : Gh} {e e' : Eng} {tx : Nat} {v : Vote} {m : SnapMeta} (h : EInv g0 e)
    (ho : InputOk e (.snapReq tx v m)) (hr : e.handleInstall dbg now tx v m = .ok e') :
    e'.st.snap = e.st.snap ∨ (e.st.vote.data ≤ v ∧ e.st.committed < m.lastLogId ∧ Emits Cmd.notApply e e') := by
  unfold handleInstall at hr
  rw [bind_ok] at hr
  obtain ⟨⟨ok, e1⟩, he1, hr⟩ := hr
  simp only at hr
  by_cases hle : e.st.vote.data ≤ v
  · obtain ⟨hnd, hcm, hso⟩ := ho hle
    obtain ⟨hinv, h3, _, hb⟩ := inv_updateVote h (fun hx => absurd hx hnd) he1
    have hok := h3.2 hle
    have hbe := hb hok hcm hnd
    rw [if_pos hok] at hr
    simp only [bind_ok, pure_ok] at hr
    obtain ⟨lv, hlv, ⟨cond, e2⟩, he2, hr⟩ := hr
    subst hr
    by_cases hlt : m.lastLogId ≤ e1.st.committed
    · left
      show e2.st.snap = _
      unfold fhInstall at he2
      rw [if_pos hlt, pure_ok] at he2
      cases he2
      exact hbe.snap
    · refine Or.inr ⟨hle, by rw [← hbe.com]; exact not_le.1 hlt, ?_⟩
      have hem : Emits Cmd.notApply e e1 := by
        unfold updateVote at he1
        rw [if_pos hle] at he1
        simp only [bind_ok, pure_ok] at he1
        obtain ⟨e3, he3, e4, he4, hx⟩ := he1
        cases hx
        have hv3 : e3.st.vote.data = v := storeVote_vote hle he3
        have hc3 : e3.cfg = e.cfg := (storeVote_same he3).2.2.2
        have hng : e3.st.isLeading e3.cfg.id = false := by
          unfold RState.isLeading
          rw [hv3, hc3]
          have : (v.leaderId.node == e.cfg.id) = false := by simpa using hnd
          rw [this]; simp
        have hnl : e3.st.isLeader e3.cfg.id = false := by unfold RState.isLeader; rw [hng]; rfl
        unfold updateInternal at he4
        rw [if_neg (by rw [hnl]; simp), if_neg (by rw [hng]; simp)] at he4
        obtain ⟨srv, he4'⟩ := becomeFollowing_ok he4
        refine (na_storeVote e _ v _ he3).trans ?_
        rw [he4']; exact emits_same rfl rfl
      refine (hem.trans (na_fhInstall _ _ _ _ he2)).trans ?_
      exact emits_push _ _ trivial
  · unfold updateVote at he1
    rw [if_neg hle, pure_ok] at he1
    cases he1
    simp only [Bool.false_eq_true, if_false, pure_ok] at hr
    subst hr
    exact Or.inl rfl

end Eng
end Openraft.Engine

namespace Openraft.Runtime
open Openraft.Engine Openraft.LogIdList

/-- the commands not yet executed -/
def Node.pending (n : Node) : List Cmd := n.eng.out.drop n.done

/-- what an event hands to the engine -/
def Node.given (n : Node) : Ev → Option Input
  | .msg _ i => some i
  | .write _ _ p => some (.write p)
  | .change _ _ c r => some (.change c r)
  | .note _ =>
    match n.rx with
    | [] => none
    | .localIO io :: _ => some (.localIO io)
    | .selfVote v :: _ => some (.voteResp n.eng.cfg.id v none true v)
    | .built m :: _ => some (.built m)
    | .installed io m :: _ => some (.installed io m)
    | .applied l _ :: _ => some (.applied l)
  | _ => none

theorem answer_frame (es : List Ent) (n : Node) : (n.answer es).eng = n.eng ∧ (n.answer es).done = n.done ∧ (n.answer es).repl = n.repl := by
  induction es generalizing n with
  | nil => exact ⟨rfl, rfl, rfl⟩
  | cons x es ih =>
    unfold Node.answer
    cases BMap.get n.clients x.id.index with
    | none => exact ih n
    | some tx => exact ih _

section
variable {g0 : Gh} {a0 : IOId} {s0 c0 : Option LogId} {P S : List Cmd} {n n' : Node} {dbg : Bool}

/-- an event that executes no command: the engine handles at most one input -/
theorem RInv.view {ev : Ev} (h : RInv g0 a0 s0 c0 P S n) (ho : EvOk n ev) (hne : ev ≠ .run) (hr : n.step dbg ev = .ok n') :
    n'.done = n.done ∧ n'.repl = n.repl ∧
    (n'.eng = n.eng ∨ ∃ now i, n.given ev = some i ∧ InputOk n.eng i ∧ (∀ m, i = .built m → ComVal g0 (P ++ S) m.lastLogId) ∧
      n.eng.input dbg now i = .ok n'.eng) := by
  have hreg : ∀ (n : Node) (tx : Nat) (o : Option Nat),
      (n.register tx o).eng = n.eng ∧ (n.register tx o).done = n.done ∧ (n.register tx o).repl = n.repl := by
    intro n tx o; cases o <;> exact ⟨rfl, rfl, rfl⟩
  cases ev with
  | msg now i =>
    simp only [Node.step] at hr
    split at hr
    · next hi =>
      simp only [out_bind, lift_ok, out_pure] at hr
      obtain ⟨e, he, hr⟩ := hr
      subst hr
      refine ⟨rfl, rfl, Or.inr ⟨now, i, rfl, ho, ?_, he⟩⟩
      intro m hm
      subst hm
      simp [external] at hi
    · rw [out_pure] at hr; subst hr; exact ⟨rfl, rfl, Or.inl rfl⟩
  | write now tx p =>
    simp only [Node.step] at hr
    split at hr
    · simp only [out_bind, lift_ok, out_pure] at hr
      obtain ⟨⟨i, e⟩, he, hr⟩ := hr
      subst hr
      obtain ⟨k1, k2, k3⟩ := hreg { n with eng := e } tx i
      refine ⟨k2, k3, Or.inr ⟨now, .write p, rfl, trivial, (fun m hm => by cases hm), ?_⟩⟩
      rw [k1]
      simp only [Eng.input, Engine.bind_ok, Engine.pure_ok]
      exact ⟨_, he, rfl⟩
    · rw [out_pure] at hr; subst hr; exact ⟨rfl, rfl, Or.inl rfl⟩
  | change now tx c r =>
    simp only [Node.step] at hr
    split at hr
    · simp only [out_bind, lift_ok, out_pure] at hr
      obtain ⟨⟨i, e⟩, he, hr⟩ := hr
      subst hr
      obtain ⟨k1, k2, k3⟩ := hreg { n with eng := e } tx i
      refine ⟨k2, k3, Or.inr ⟨now, .change c r, rfl, trivial, (fun m hm => by cases hm), ?_⟩⟩
      rw [k1]
      simp only [Eng.input, Engine.bind_ok, Engine.pure_ok]
      exact ⟨_, he, rfl⟩
    · rw [out_pure] at hr; subst hr; exact ⟨rfl, rfl, Or.inl rfl⟩
  | note now =>
    simp only [Node.step] at hr
    split at hr
    · cases hx : n.rx with
      | nil => rw [hx] at hr; simp only [out_pure] at hr; subst hr; exact ⟨rfl, rfl, Or.inl rfl⟩
      | cons x xs =>
        rw [hx] at hr
        have hmem : x ∈ n.rx := by rw [hx]; simp
        simp only at hr
        cases x with
        | localIO io =>
          simp only [Node.handle, out_bind, lift_ok, out_pure] at hr
          obtain ⟨e, he, hr⟩ := hr
          subst hr
          exact ⟨rfl, rfl, Or.inr ⟨now, _, by simp only [Node.given, hx], h.noteOk hmem, (fun m hm => by cases hm), he⟩⟩
        | selfVote v =>
          simp only [Node.handle, out_bind, lift_ok, out_pure] at hr
          obtain ⟨e, he, hr⟩ := hr
          subst hr
          exact ⟨rfl, rfl, Or.inr ⟨now, .voteResp n.eng.cfg.id v none true v, by simp only [Node.given, hx], (fun _ => h.selfOk hmem), (fun m hm => by cases hm), he⟩⟩
        | built m =>
          simp only [Node.handle, out_bind, lift_ok, out_pure] at hr
          obtain ⟨e, he, hr⟩ := hr
          subst hr
          have hb := h.s.built m hmem
          have hval : ComVal g0 n.eng.out m.lastLogId := by rw [h.rest]; exact hb.1.append
          exact ⟨rfl, rfl, Or.inr ⟨now, .built m, by simp only [Node.given, hx], h.flow.builtOk hval,
            (fun k hk => by cases hk; exact hb.1), he⟩⟩
        | installed io m =>
          simp only [Node.handle, out_bind, lift_ok, out_pure] at hr
          obtain ⟨e, he, hr⟩ := hr
          subst hr
          exact ⟨rfl, rfl, Or.inr ⟨now, .installed io m, by simp only [Node.given, hx], trivial, (fun m hm => by cases hm), he⟩⟩
        | applied l es =>
          simp only [Node.handle, out_bind, lift_ok, out_pure] at hr
          obtain ⟨e, he, hr⟩ := hr
          subst hr
          obtain ⟨k1, k2, k3⟩ := answer_frame es { { n with rx := xs } with eng := e }
          refine ⟨k2, k3, Or.inr ⟨now, .applied l, by simp only [Node.given, hx], trivial, (fun m hm => by cases hm), ?_⟩⟩
          rw [k1]; exact he
    · rw [out_pure] at hr; subst hr; exact ⟨rfl, rfl, Or.inl rfl⟩
  | run => exact absurd rfl hne
  | flush =>
    simp only [Node.step, out_pure] at hr
    subst hr
    unfold Node.flush1
    split <;> exact ⟨rfl, rfl, Or.inl rfl⟩
  | sm =>
    have h1 := smStep_eng (show n.smStep = .ok n' from hr)
    simp only [Node.step, Node.smStep] at hr
    refine ⟨?_, ?_, Or.inl h1⟩
    all_goals
      split at hr
      · rw [out_pure] at hr; subst hr; rfl
      · split at hr
        · rw [out_pure] at hr; subst hr; rfl
        · cases hr
      · rw [out_pure] at hr; subst hr; rfl
      · rw [out_pure] at hr; subst hr; rfl
  | build k =>
    simp only [Node.step, out_pure] at hr
    subst hr
    unfold Node.buildDone
    split <;> exact ⟨rfl, rfl, Or.inl rfl⟩

/-- executing a command -/
theorem run_view (hr : n.run1 dbg = .ok n') : n' = n ∨ ∃ c n1, n.head = some c ∧ n.ready c = true ∧ n.exec dbg c = .ok n1 ∧
    n' = { n1 with done := n1.done + 1 } := by
  unfold Node.run1 at hr
  split at hr
  · rw [out_pure] at hr; exact Or.inl hr.symm
  · next c hc =>
    split at hr
    · next hrd =>
      simp only [out_bind, out_pure] at hr
      obtain ⟨n1, h1, hr⟩ := hr
      exact Or.inr ⟨c, n1, hc, hrd, h1, hr.symm⟩
    · rw [out_pure] at hr; exact Or.inl hr.symm

theorem pending_head {c : Cmd} (hc : n.head = some c) : n.pending = c :: n.eng.out.drop (n.done + 1) := by
  unfold Node.head at hc
  obtain ⟨hlt, hget⟩ := List.getElem?_eq_some_iff.1 hc
  unfold Node.pending
  rw [List.drop_eq_getElem_cons hlt, hget]

theorem pending_exec {c : Cmd} {n1 : Node} (hc : n.head = some c) (h1 : n.exec dbg c = .ok n1) :
    n.pending = c :: Node.pending { n1 with done := n1.done + 1 } := by
  rw [pending_head hc]
  unfold Node.pending
  obtain ⟨p, x, h2, _⟩ := (exec_frame h1).eng
  show _ = c :: n1.eng.out.drop (n1.done + 1)
  rw [(exec_frame h1).done, h2]

theorem pending_input {e : Eng} {i : Input} {now : Nat} (hd : n'.done = n.done) (hle : n.done ≤ n.eng.out.length) (he : n'.eng = e)
    (hr : n.eng.input dbg now i = .ok e) : ∃ cs, e.out = n.eng.out ++ cs ∧ n'.pending = n.pending ++ cs := by
  obtain ⟨cs, hcs⟩ := (Eng.grow_input _ _ _ hr).2
  have hcs : n.eng.out ++ cs = e.out := hcs
  refine ⟨cs, hcs.symm, ?_⟩
  unfold Node.pending
  rw [hd, he, ← hcs, List.drop_append_of_le_length hle]

/-- an `Apply` command continues where the commands before it end -/
theorem apply_at {g : Gh} {cs : List Cmd} (ho : g.Oks cs) {a : Option LogId} {u : LogId} (hm : Cmd.apply a u ∈ cs) :
    Le2 g.com a ∧ nextIndex a ≤ u.index ∧ Le2 (some u) (g.runs cs).com := by
  obtain ⟨p, q, rfl⟩ := List.append_of_mem hm
  rw [Gh.oks_append] at ho
  obtain ⟨h1, h2, h3⟩ := ho
  obtain ⟨k1, _, k2, _⟩ := h2
  refine ⟨by rw [k1]; exact Gh.com_runs h1, by rw [k1]; exact k2, ?_⟩
  rw [Gh.runs_append]
  exact Gh.com_runs h3

/-- no waiting `Apply` command starts below the snapshot -/
def ApplyReady (n : Node) : Prop :=
  ∀ a u, Cmd.apply a u ∈ n.pending → nextIndex n.eng.st.snap.lastLogId ≤ nextIndex a

/-- no snapshot is installed while an `Apply` command waits -/
def ApplyCalm (n : Node) (ev : Ev) : Prop :=
  ∀ now tx v m, ev = .msg now (.snapReq tx v m) → n.eng.st.vote.data ≤ v → n.eng.st.committed < m.lastLogId →
    ∀ a u, Cmd.apply a u ∉ n.pending

theorem RInv.pend_oks (h : RInv g0 a0 s0 c0 P S n) : (g0.runs (P ++ S)).Oks n.pending := by
  have := h.flow.oks
  rw [h.rest, Gh.oks_append] at this
  exact this.2

theorem RInv.pend_com (h : RInv g0 a0 s0 c0 P S n) : ((g0.runs (P ++ S)).runs n.pending).com = n.eng.st.committed := by
  have : (g0.runs n.eng.out).com = n.eng.st.lv.committed := h.flow.inv.lm.log.com
  rw [h.rest, Gh.runs_append] at this
  exact this

theorem ApplyReady.step {ev : Ev} (h : RInv g0 a0 s0 c0 P S n) (hx : ApplyReady n) (ho : EvOk n ev) (hc : ApplyCalm n ev)
    (hr : n.step dbg ev = .ok n') : ApplyReady n' := by
  by_cases hrun : ev = .run
  · subst hrun
    rcases run_view hr with rfl | ⟨c, n1, h1, _, h2, rfl⟩
    · exact hx
    · intro a u hm
      have hp := pending_exec h1 h2
      obtain ⟨p, x, h3, _⟩ := (exec_frame h2).eng
      have := hx a u (by rw [hp]; exact List.mem_cons_of_mem _ hm)
      show nextIndex n1.eng.st.snap.lastLogId ≤ _
      rw [h3]; exact this
  · obtain ⟨hd, _, he | ⟨now, i, hg, hi, hb, hin⟩⟩ := h.view ho hrun hr
    · intro a u hm
      unfold Node.pending at hm
      rw [hd, he] at hm
      rw [he]; exact hx a u hm
    · obtain ⟨cs, hcs, hpd⟩ := pending_input hd h.done rfl hin
      have hord3 : nextIndex n.eng.st.snap.lastLogId ≤ nextIndex n.eng.st.committed := h.flow.inv.lm.log.ord3
      have hnew : ∀ a u, Cmd.apply a u ∈ cs → nextIndex n.eng.st.committed ≤ nextIndex a := by
        intro a u hm
        have hf := h.flow.step hi (fun m hm => by rw [h.rest]; exact (hb m hm).append) hin
        have := hf.oks
        rw [hcs, Gh.oks_append] at this
        have h1 := (apply_at this.2 hm).1.next
        rw [h.flow.inv.lm.log.com] at h1
        exact h1
      have hsame : n'.eng.st.snap = n.eng.st.snap → ApplyReady n' := by
        intro hs a u hm
        rw [hs]
        rw [hpd] at hm
        rcases List.mem_append.1 hm with hm | hm
        · exact hx a u hm
        · exact Nat.le_trans hord3 (hnew a u hm)
      by_cases hq : ∃ tx v m, i = .snapReq tx v m
      · obtain ⟨tx, v, m, rfl⟩ := hq
        rcases Eng.snapReq_apply h.flow.inv hi hin with h1 | ⟨h1, h2, ds, h3, h4⟩
        · exact hsame h1
        · intro a u hm
          have hev : ∃ now, ev = .msg now (.snapReq tx v m) := by
            cases ev with
            | msg now i => cases hg; exact ⟨now, rfl⟩
            | write _ _ p => cases hg
            | change _ _ c r => cases hg
            | note now =>
              exfalso
              simp only [Node.given] at hg
              split at hg <;> cases hg
            | run => cases hg
            | flush => cases hg
            | sm => cases hg
            | build k => cases hg
          obtain ⟨now', rfl⟩ := hev
          rw [hpd] at hm
          rcases List.mem_append.1 hm with hm | hm
          · exact absurd hm (hc _ _ _ _ rfl h1 h2 a u)
          · have : cs = ds := List.append_cancel_left (hcs.symm.trans h3)
            rw [this] at hm
            exact absurd (h4 _ hm) (fun hh => hh)
      · by_cases hb' : ∃ m, i = .built m
        · obtain ⟨m, rfl⟩ := hb'
          rcases Eng.snap_built hin with h1 | h1
          · exact hsame h1
          · intro a u hm
            rw [h1]
            have hle : nextIndex m.lastLogId ≤ nextIndex (g0.runs (P ++ S)).com := ((hb m rfl).le h.oks).next
            rw [hpd] at hm
            rcases List.mem_append.1 hm with hm | hm
            · exact Nat.le_trans hle (apply_at h.pend_oks hm).1.next
            · refine Nat.le_trans hle (Nat.le_trans ?_ (hnew a u hm))
              rw [← h.pend_com]
              exact (Gh.com_runs h.pend_oks).next
        · refine hsame (Eng.keeps_snap (Eng.keeps_input n.eng i ?_ _ hin))
          cases i <;> first | rfl | exact absurd ⟨_, _, _, rfl⟩ hq | exact absurd ⟨_, rfl⟩ hb'

/-- **The range of an `Apply` command is in the log** when no snapshot was installed while it waited. -/
theorem ApplyReady.exec (h : RInv g0 a0 s0 c0 P S n) (hx : ApplyReady n) {a : Option LogId} {u : LogId}
    (hc : n.head = some (.apply a u)) : ∃ f, n.eng.st.getLogId (nextIndex a) = some f ∧ f.index = nextIndex a ∧ nextIndex a ≤ u.index := by
  have hm : Cmd.apply a u ∈ n.pending := by rw [pending_head hc]; simp
  obtain ⟨_, h2, h3⟩ := apply_at h.pend_oks hm
  rw [h.pend_com] at h3
  have h3 := h3.next
  have h1 := hx a u hm
  have lj := h.flow.inv.lm.log
  have k1 : n.eng.st.purgedNext ≤ nextIndex n.eng.st.purgeUpto := lj.ord1
  have k2 : nextIndex n.eng.st.purgeUpto ≤ nextIndex n.eng.st.snap.lastLogId := lj.ord2
  have k3 : nextIndex n.eng.st.committed ≤ nextIndex n.eng.st.lastLogId := lj.com_le_last
  have h3 : u.index + 1 ≤ nextIndex n.eng.st.committed := h3
  obtain ⟨x, hx1, hx2⟩ := lj.exists_index (i := nextIndex a) (by show n.eng.st.purgedNext ≤ _; omega)
    (by show _ < nextIndex n.eng.st.lastLogId; omega)
  exact ⟨x, (Eng.getLogId_iff h.flow.inv.lm).2 ⟨hx1, hx2⟩, hx2, h2⟩

theorem ApplyReady.exec_total (h : RInv g0 a0 s0 c0 P S n) (hx : ApplyReady n) {a : Option LogId} {u : LogId}
    (hc : n.head = some (.apply a u)) : ∃ n', n.exec dbg (.apply a u) = .ok n' := by
  obtain ⟨f, h1, h2, h3⟩ := hx.exec h hc
  refine ⟨{ n with smq := n.smq ++ [.apply f u] }, ?_⟩
  simp only [Node.exec, out_bind, lift_ok, out_pure, unwrap_ok, dassert_ok]
  exact ⟨f, h1, (), fun _ => by rw [decide_eq_true_eq]; omega, rfl⟩

end
end Openraft.Runtime
