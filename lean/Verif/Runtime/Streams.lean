import Verif.Engine.Rebuild
import Verif.Runtime.ApplyReady
import Verif.Runtime.MemFrom

/-!
# Replication streams of a running node

The tasks that a node has are those of the last `RebuildReplicationStreams` it has executed; so every
`Replicate` command finds its task. A `RebuildReplicationStreams` command that waits finds a leader and the
nodes it needs as long as the node neither stops leading nor loses a member meanwhile.
-/

set_option autoImplicit false

namespace Openraft.Runtime
open Openraft.Engine Openraft.LogIdList
open Openraft.Repl (Panic dassert)
open Openraft.VecProgress (ids)

variable {g0 : Gh} {a0 : IOId} {s0 c0 : Option LogId} {P S : List Cmd} {n n' : Node} {dbg : Bool}

/-- the tasks of a node are those of the last rebuild it has executed -/
structure NodeStr (n : Node) : Prop where
  eng : StrInv [] n.eng
  repl : n.repl = streams [] (n.eng.out.take n.done)

/-- the tasks after a command -/
theorem exec_repl {c : Cmd} (h : n.exec dbg c = .ok n') : n'.repl = c.streams n.repl := by
  have hsub : ∀ {io : IOId} {n1 : Node}, n.submit dbg io = .ok n1 → n1.repl = n.repl := by
    intro io n1 h1; rw [submit_ok h1]
  cases c with
  | updateIO v io =>
    simp only [Node.exec, out_bind, out_pure] at h
    obtain ⟨n1, h1, rfl⟩ := h
    have := hsub h1
    exact this
  | append v es =>
    simp only [Node.exec, out_bind, out_pure] at h
    obtain ⟨_, _, n1, h1, rfl⟩ := h
    have := hsub h1
    exact this
  | saveVote v =>
    simp only [Node.exec, out_bind, out_pure] at h
    obtain ⟨n1, h1, rfl⟩ := h
    have := hsub h1
    exact this
  | purge u => simp only [Node.exec, out_pure] at h; subst h; rfl
  | truncate s => simp only [Node.exec, out_pure] at h; subst h; rfl
  | saveCommitted c => simp only [Node.exec, out_pure] at h; subst h; rfl
  | sendVote v l => simp only [Node.exec, out_bind, out_pure] at h; obtain ⟨_, _, rfl⟩ := h; rfl
  | transfer v l t => simp only [Node.exec, out_bind, out_pure] at h; obtain ⟨_, _, rfl⟩ := h; rfl
  | replCommitted c => simp only [Node.exec, out_pure] at h; subst h; rfl
  | heartbeat v m c => simp only [Node.exec, out_pure] at h; subst h; rfl
  | apply a u =>
    simp only [Node.exec, out_bind, out_pure] at h
    obtain ⟨_, _, _, _, rfl⟩ := h; rfl
  | replicate t i =>
    simp only [Node.exec] at h
    split at h
    · rw [out_pure] at h; subst h; rfl
    · cases h
  | rebuild ts =>
    simp only [Node.exec, Node.rebuild, out_bind] at h
    obtain ⟨_, _, h⟩ := h
    split at h
    · rw [out_pure] at h; subst h; rfl
    · cases h
  | sm c =>
    cases c with
    | install m io =>
      simp only [Node.exec, out_bind, out_pure] at h
      obtain ⟨n1, h1, rfl⟩ := h
      have := hsub h1
      exact this
    | build => simp only [Node.exec, out_pure] at h; subst h; rfl
    | apply f l => simp only [Node.exec, out_pure] at h; subst h; rfl
  | respond w tx r => simp only [Node.exec, out_pure] at h; subst h; rfl

theorem take_succ_head {c : Cmd} (hc : n.head = some c) : n.eng.out.take (n.done + 1) = n.eng.out.take n.done ++ [c] := by
  unfold Node.head at hc
  rw [List.take_add_one, hc]; rfl

theorem exec_str {c : Cmd} {r : List NodeId} (hs : StrInv r n.eng) (h : n.exec dbg c = .ok n') : StrInv r n'.eng := by
  obtain ⟨p, x, h1, _⟩ := (exec_frame h).eng
  rw [h1]; exact hs.same

theorem NodeStr.step {ev : Ev} (h : RInv g0 a0 s0 c0 P S n) (hs : NodeStr n) (ho : EvOk n ev) (hr : n.step dbg ev = .ok n') :
    NodeStr n' := by
  by_cases hrun : ev = .run
  · subst hrun
    rcases run_view hr with rfl | ⟨c, n1, h1, _, h2, rfl⟩
    · exact hs
    · have hst := exec_str hs.eng h2
      refine ⟨hst, ?_⟩
      show n1.repl = streams [] (n1.eng.out.take (n1.done + 1))
      obtain ⟨p, x, h3, _⟩ := (exec_frame h2).eng
      rw [exec_repl h2, (exec_frame h2).done, h3]
      show _ = streams [] (n.eng.out.take (n.done + 1))
      rw [take_succ_head h1, streams_append, ← hs.repl]; rfl
  · obtain ⟨hd, hrp, he | ⟨now, i, _, _, _, hin⟩⟩ := h.view ho hrun hr
    · exact ⟨by rw [he]; exact hs.eng, by rw [hrp, hd, he]; exact hs.repl⟩
    · refine ⟨Eng.str_input hs.eng i _ hin, ?_⟩
      obtain ⟨cs, hcs, _⟩ := pending_input hd h.done rfl hin
      rw [hrp, hd, hcs, List.take_append_of_le_length h.done]; exact hs.repl

theorem NodeStr.fresh (cfg : Cfg) (now : Nat) (persist : Bool) : NodeStr (Node.fresh cfg now persist) :=
  ⟨⟨HasStreams.nil _, fun l hl => by cases hl⟩, rfl⟩

/-- what `restart` runs -/
theorem restart_startup {cfg : Cfg} {now : Nat} {d : Disk} {s : Sm} (hr : restart dbg now cfg d s = .ok n) :
    ∃ st store s2, initialState now d s.reboot = .ok (st, store, s2) ∧ Eng.startup dbg now ⟨cfg, st, false, none, none, []⟩ = .ok n.eng ∧
      n.done = 0 ∧ n.repl = [] := by
  unfold restart at hr
  simp only [out_bind, lift_ok, out_pure] at hr
  obtain ⟨⟨st, store, s2⟩, h1, e, h2, rfl⟩ := hr
  exact ⟨st, store, s2, h1, h2, rfl, rfl⟩

theorem NodeStr.restart {cfg : Cfg} {now : Nat} {d : Disk} {s : Sm} (hr : restart dbg now cfg d s = .ok n) : NodeStr n := by
  obtain ⟨st, store, s2, _, h2, h3, h4⟩ := restart_startup hr
  refine ⟨Eng.str_startup ⟨HasStreams.nil _, fun l hl => by cases hl⟩ _ h2, ?_⟩
  rw [h4, h3]; rfl

theorem Life.str {cfg : Cfg} {old : List Resp} (h : Life dbg cfg old n) : NodeStr n := by
  induction h with
  | fresh now persist => exact NodeStr.fresh _ _ _
  | step ev hl ho hs ih =>
    obtain ⟨⟨g0, a0, s0, c0, P, S, hi⟩, _⟩ := hl.inv
    exact ih.step hi ho hs
  | crash k now _ _ hr _ => exact NodeStr.restart hr

/-- **A `Replicate` command finds its task.** -/
theorem NodeStr.exec (h : NodeStr n) {t : NodeId} {i : Repl.Inflight} (hc : n.head = some (.replicate t i)) : t ∈ n.repl := by
  rw [h.repl]
  unfold Node.head at hc
  obtain ⟨hlt, hget⟩ := List.getElem?_eq_some_iff.1 hc
  refine h.eng.has (n.eng.out.take n.done) t i (n.eng.out.drop (n.done + 1)) ?_
  rw [← hget, ← List.drop_eq_getElem_cons hlt, List.take_append_drop]

/-! ## Rebuilds -/

/-- every voter of a membership has a node record -/
def Mw (m : Membership) : Prop := ∀ i, m.isVoter i = true → m.contains i = true

theorem Mw.has {m : Membership} (h : Mw m) {i : NodeId} (hi : m.Has i) : m.contains i = true :=
  hi.elim (h i) id

/-- a rebuild that waits finds a leader and its nodes -/
def RebuildReady (n : Node) : Prop :=
  ∀ ts, Cmd.rebuild ts ∈ n.pending → ts ≠ [] → n.eng.leader.isSome = true ∧
    ∀ t ∈ ts.map (·.1), n.eng.st.ms.effective.mem.contains t = true

/-- while a rebuild with targets waits, the node keeps leading and loses no member -/
def RebuildCalm (n n' : Node) : Prop :=
  (∃ ts, Cmd.rebuild ts ∈ n.pending ∧ ts ≠ []) → n'.eng.leader.isSome = true ∧
    ∀ i, n.eng.st.ms.effective.mem.contains i = true → n'.eng.st.ms.effective.mem.contains i = true

/-- a membership change leaves no voter without a record -/
theorem mw_change {m m' : Membership} {ch : ChangeMembers} {retain : Bool} (h : m.change ch retain = .ok m') : Mw m' := by
  have h1 := (Membership.change_ok h).2
  unfold Membership.ensureValid at h1
  split at h1
  · cases h1
  · unfold Membership.ensureVoterNodes at h1
    split at h1
    · cases h1
    · next hf =>
      intro i hi
      have := List.find?_eq_none.1 hf i (by unfold Membership.voterIds; rw [Membership.mem_jointIds, ← Membership.isVoter_iff]; exact hi)
      unfold Membership.contains
      simpa using this

theorem evM_change {now tx : Nat} {c : ChangeMembers} {r : Bool} : EvM Mw n (.change now tx c r) := by
  intro m hm
  unfold Eng.changeApply at hm
  split at hm
  · split at hm
    · next hx => cases hm; exact mw_change hx
    · cases hm
  · cases hm

theorem RebuildReady.step {ev : Ev} (h : RInv g0 a0 s0 c0 P S n) (hx : RebuildReady n) (hs : NodeStr n') (hl : Ln n'.eng)
    (hw : Mw n'.eng.st.ms.effective.mem) (ho : EvOk n ev) (hc : RebuildCalm n n') (hr : n.step dbg ev = .ok n') : RebuildReady n' := by
  by_cases hrun : ev = .run
  · subst hrun
    rcases run_view hr with rfl | ⟨c, n1, h1, _, h2, rfl⟩
    · exact hx
    · intro ts hm hne
      have hp := pending_exec h1 h2
      obtain ⟨p, x, h3, _⟩ := (exec_frame h2).eng
      have := hx ts (by rw [hp]; exact List.mem_cons_of_mem _ hm) hne
      show n1.eng.leader.isSome = true ∧ ∀ t ∈ ts.map (·.1), n1.eng.st.ms.effective.mem.contains t = true
      rw [h3]; exact this
  · obtain ⟨hd, _, he | ⟨now, i, _, hi, _, hin⟩⟩ := h.view ho hrun hr
    · intro ts hm
      unfold Node.pending at hm
      rw [hd, he] at hm
      rw [he]; exact hx ts hm
    · obtain ⟨cs, hcs, hpd⟩ := pending_input hd h.done rfl hin
      obtain ⟨ds, hds, ht⟩ := (Eng.one_input h.flow.inv hi hin).targets hs.eng
      have : cs = ds := List.append_cancel_left (hcs.symm.trans hds)
      subst this
      intro ts hm hne
      rw [hpd] at hm
      rcases List.mem_append.1 hm with hm | hm
      · obtain ⟨k1, k2⟩ := hc ⟨ts, hm, hne⟩
        exact ⟨k1, fun t ht => k2 t ((hx ts hm hne).2 t ht)⟩
      · obtain ⟨l, hl1, hl2⟩ := ht ts hm
        refine ⟨by rw [hl1]; rfl, fun t ht => hw.has ?_⟩
        exact ((hl.lead l hl1).prog t).1 ((hl2 t).1 ht).1

theorem RebuildReady.exec_total (hx : RebuildReady n) {ts : List (NodeId × Repl.Entry)} (hc : n.head = some (.rebuild ts)) :
    ∃ n', n.exec dbg (.rebuild ts) = .ok n' := by
  have hm : Cmd.rebuild ts ∈ n.pending := by rw [pending_head hc]; simp
  refine ⟨{ n with repl := ts.map (·.1) }, ?_⟩
  simp only [Node.exec, Node.rebuild, out_bind]
  by_cases hne : ts = []
  · subst hne
    exact ⟨(), by simp [Node.needNodes], rfl⟩
  · obtain ⟨k1, k2⟩ := hx ts hm hne
    refine ⟨(), ?_, by rw [k1]; simp; rfl⟩
    unfold Node.needNodes
    rw [if_pos (by rw [List.all_eq_true]; exact k2)]

theorem needs_voters (hw : Mw n.eng.st.ms.effective.mem) : n.needNodes n.otherVoters = .ok () := by
  unfold Node.needNodes
  rw [if_pos]
  rw [List.all_eq_true]
  intro i hi
  unfold Node.otherVoters at hi
  have := (List.mem_filter.1 hi).1
  unfold Membership.voterIds at this
  rw [Membership.mem_jointIds, ← Membership.isVoter_iff] at this
  exact hw i this

theorem submit_total (n : Node) (io : IOId) : ∃ n', n.submit false io = .ok n' := by
  unfold Node.submit IOProgress.submit
  exact ⟨_, rfl⟩

/-- **Executing the next command does not abort the node** if no waiting `Apply` starts below the snapshot and no waiting
rebuild has lost its leader or a target. -/
theorem exec_total {c : Cmd} (h : RInv g0 a0 s0 c0 P S n) (ha : ApplyReady n) (hb : RebuildReady n) (hs : NodeStr n)
    (hw : Mw n.eng.st.ms.effective.mem) (hc : n.head = some c) : ∃ n', n.exec false c = .ok n' := by
  have hm : c ∈ n.pending := by rw [pending_head hc]; simp
  cases c with
  | updateIO v io =>
    obtain ⟨n1, h1⟩ := submit_total n io
    simp only [Node.exec, out_bind, out_pure]
    exact ⟨_, n1, h1, rfl⟩
  | append v es =>
    have hok := h.pend_oks
    rw [pending_head hc] at hok
    have hne : es ≠ [] := hok.1.1
    obtain ⟨n1, h1⟩ := submit_total n (IOId.newLog v (some (es.getLast hne).id))
    simp only [Node.exec, out_bind, out_pure, lift_ok, unwrap_ok]
    exact ⟨_, es.getLast hne, List.getLast?_eq_some_getLast hne, n1, h1, rfl⟩
  | saveVote v =>
    obtain ⟨n1, h1⟩ := submit_total n (IOId.new v)
    simp only [Node.exec, out_bind, out_pure]
    exact ⟨_, n1, h1, rfl⟩
  | purge u => exact ⟨_, rfl⟩
  | truncate s => exact ⟨_, rfl⟩
  | saveCommitted c => exact ⟨_, rfl⟩
  | sendVote v l =>
    simp only [Node.exec, out_bind, out_pure]
    exact ⟨n, (), needs_voters hw, rfl⟩
  | transfer v l t =>
    simp only [Node.exec, out_bind, out_pure]
    exact ⟨n, (), needs_voters hw, rfl⟩
  | replCommitted c => exact ⟨_, rfl⟩
  | heartbeat v m c => exact ⟨_, rfl⟩
  | apply a u => exact ha.exec_total h hc
  | replicate t i =>
    refine ⟨n, ?_⟩
    simp only [Node.exec]
    rw [if_pos (by rw [List.contains_iff_mem]; exact hs.exec hc)]; rfl
  | rebuild ts => exact hb.exec_total hc
  | sm c =>
    cases c with
    | install m io =>
      obtain ⟨n1, h1⟩ := submit_total n io
      simp only [Node.exec, out_bind, out_pure]
      exact ⟨_, n1, h1, rfl⟩
    | build => exact ⟨_, rfl⟩
    | apply f l => exact ⟨_, rfl⟩
  | respond w tx r => exact ⟨_, rfl⟩

/-! ## Lives in which commands do not abort -/

/-- the life of a node (`Life`) in which no snapshot is installed while an `Apply` command waits -/
inductive ApplyLife (dbg : Bool) (cfg : Cfg) : List Resp → Node → Prop
  | fresh (now : Nat) (persist : Bool) : ApplyLife dbg cfg [] (Node.fresh cfg now persist)
  | step {old : List Resp} {n n' : Node} (ev : Ev) : ApplyLife dbg cfg old n → EvOk n ev → ApplyCalm n ev →
      n.step dbg ev = .ok n' → ApplyLife dbg cfg old n'
  | crash {old : List Resp} {n n' : Node} (k now : Nat) : ApplyLife dbg cfg old n → Fits (n.crashDisk k) n.sm.reboot →
      restart dbg now cfg (n.crashDisk k) n.sm = .ok n' → ApplyLife dbg cfg (old ++ n.sent.map (·.2.2)) n'

namespace ApplyLife
variable {cfg : Cfg} {old : List Resp}

theorem life (h : ApplyLife dbg cfg old n) : Life dbg cfg old n := by
  induction h with
  | fresh now persist => exact .fresh now persist
  | step ev _ ho _ hr ih => exact .step ev ih ho hr
  | crash k now _ hf hr ih => exact .crash k now ih hf hr

theorem ready (h : ApplyLife dbg cfg old n) : ApplyReady n := by
  induction h with
  | fresh now persist => intro a u hm; cases hm
  | step ev hl ho ha hr ih =>
    obtain ⟨⟨g0, a0, s0, c0, P, S, hi⟩, _⟩ := hl.life.inv
    exact ih.step hi ho ha hr
  | @crash old n n' k now hl hf hr _ =>
    obtain ⟨⟨g0, a0, s0, c0, P, S, hi⟩, _⟩ := hl.life.inv
    obtain ⟨st, store, s2, base, hin, hld, hri, _⟩ := restart_inv (hi.crash_ok k) hf hr
    obtain ⟨st', store', s2', h1, h2, h3, _⟩ := restart_startup hr
    rw [h1] at hin
    cases hin
    intro a u hm
    have h4 := (apply_at hri.pend_oks hm).1.next
    have hsn : n'.eng.st.snap.lastLogId = s2.snap.lastLogId := by
      have hk : n'.eng.st.snap = st.snap := Eng.keeps_snap (Eng.keeps_startup _ _ h2)
      rw [hk, hld.snap]
    rw [hsn]
    exact Nat.le_trans hri.flow.snap0.next h4

end ApplyLife

/-- the life of a node (`SafeLife`) in which all memberships have records of their voters, no snapshot is installed while an
`Apply` command waits, and the node keeps leading and loses no member while a rebuild waits -/
inductive CalmLife (cfg : Cfg) : List Resp → Node → Prop
  | fresh (now : Nat) (persist : Bool) : CalmLife cfg [] (Node.fresh cfg now persist)
  | step {old : List Resp} {n n' : Node} (ev : Ev) : CalmLife cfg old n → EvOk n ev → EvSafe n ev → EvM Mw n ev → ApplyCalm n ev →
      n.step false ev = .ok n' → RebuildCalm n n' → CalmLife cfg old n'
  | crash {old : List Resp} {n n' : Node} (k now : Nat) : CalmLife cfg old n → Fits (n.crashDisk k) n.sm.reboot →
      restart false now cfg (n.crashDisk k) n.sm = .ok n' → CalmLife cfg (old ++ n.sent.map (·.2.2)) n'

theorem mw_empty : Mw StoredMem.empty.mem := by
  intro i hi; cases hi

namespace CalmLife
variable {cfg : Cfg} {old : List Resp}

theorem safe (h : CalmLife cfg old n) : SafeLife cfg old n := by
  induction h with
  | fresh now persist => exact .fresh now persist
  | step ev _ ho hs _ _ hr _ ih => exact .step ev ih ho hs hr
  | crash k now _ hf hr ih => exact .crash k now ih hf hr

theorem mem (h : CalmLife cfg old n) : NodeM Mw n := by
  induction h with
  | fresh now persist => exact NodeM.fresh mw_empty _ _ _
  | step ev _ _ _ hm _ hr _ ih => exact ih.step hm hr
  | crash k now _ _ hr ih => exact ih.restart hr

theorem str (h : CalmLife cfg old n) : NodeStr n := h.safe.life.str

theorem apply (h : CalmLife cfg old n) : ApplyLife false cfg old n := by
  induction h with
  | fresh now persist => exact .fresh now persist
  | step ev _ ho _ _ ha hr _ ih => exact .step ev ih ho ha hr
  | crash k now _ hf hr ih => exact .crash k now ih hf hr

theorem applyReady (h : CalmLife cfg old n) : ApplyReady n := h.apply.ready

theorem rebuildReady (h : CalmLife cfg old n) : RebuildReady n := by
  induction h with
  | fresh now persist => intro ts hm; cases hm
  | @step old n n' ev hl ho hs hm ha hr hc ih =>
    obtain ⟨⟨g0, a0, s0, c0, P, S, hi⟩, _⟩ := hl.safe.life.inv
    have hl' : CalmLife cfg old n' := .step ev hl ho hs hm ha hr hc
    exact ih.step hi hl'.str hl'.safe.ln hl'.mem.eng.eff ho hc hr
  | @crash old n n' k now hl hf hr _ =>
    have hl' : CalmLife cfg (old ++ n.sent.map (·.2.2)) n' := .crash k now hl hf hr
    obtain ⟨⟨g0, a0, s0, c0, P, S, hi⟩, _⟩ := hl.safe.life.inv
    obtain ⟨st, store, s2, h1, h2, h3, _⟩ := restart_startup hr
    obtain ⟨st', store', s2', hi', hld⟩ := initialState_ok now (hi.crash_ok k) hf
    rw [h1] at hi'
    cases hi'
    obtain ⟨base, hst⟩ := hld.startOk (cfg := cfg) (hi.crash_ok k) hf
    obtain ⟨ds, hds, ht⟩ := (Eng.one_startup hst h2).targets hl'.str.eng
    have hout : n'.pending = ds := by
      unfold Node.pending
      rw [h3, hds]; rfl
    intro ts hm hne
    rw [hout] at hm
    obtain ⟨l, hl1, hl2⟩ := ht ts hm
    refine ⟨by rw [hl1]; rfl, fun t ht => Mw.has hl'.mem.eng.eff ?_⟩
    exact ((hl'.safe.ln.lead l hl1).prog t).1 ((hl2 t).1 ht).1

/-- **The node executes its next command.** -/
theorem run_total (h : CalmLife cfg old n) : ∃ n', n.step false .run = .ok n' := by
  obtain ⟨⟨g0, a0, s0, c0, P, S, hi⟩, _⟩ := h.safe.life.inv
  show ∃ n', n.run1 false = .ok n'
  unfold Node.run1
  cases hc : n.head with
  | none => exact ⟨n, rfl⟩
  | some c =>
    simp only
    split
    · obtain ⟨n1, h1⟩ := exec_total hi h.applyReady h.rebuildReady h.str h.mem.eng.eff hc
      simp only [out_bind, out_pure]
      exact ⟨_, n1, h1, rfl⟩
    · exact ⟨n, rfl⟩

end CalmLife

end Openraft.Runtime
