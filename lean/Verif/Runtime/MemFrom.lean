import Verif.Engine.MemFrom
import Verif.Runtime.Life

/-!
# Where the memberships that a node uses and stores come from

For any property `M` of memberships that the empty one and those of all inputs have: the memberships that a node
uses, that it has on disk, in the state machine, in its snapshot and in its queues have it, over any number of
crashes and restarts.
-/

set_option autoImplicit false

namespace Openraft.Runtime
open Openraft.Engine
open Openraft.Repl (Panic dassert)
open Openraft.Cluster (Payload)

variable {M : Membership → Prop}

/-- nothing is asked of a leader's clock and progress -/
def anyRule : PRule := fun _ _ _ _ => True

theorem anyRule_ok : ClockRule M anyRule := ⟨fun _ _ => trivial, fun _ _ => trivial⟩

/-- `KInv` for memberships only -/
abbrev EngM (M : Membership → Prop) (e : Eng) : Prop := KInv M anyRule (fun _ => True) e

theorem engM_input {e e' : Eng} {dbg : Bool} {now : Nat} {i : Input} (h : EngM M e) (hi : InM M (fun _ => True) e i)
    (hr : e.input dbg now i = .ok e') : EngM M e' := by
  refine Eng.k_input anyRule_ok h hi ?_ e' hr
  cases i with
  | hbProgress s t x => exact fun _ _ _ _ _ _ => trivial
  | replProgress s t r =>
    cases r with
    | matching m => exact fun _ _ _ _ _ _ => ⟨trivial, fun _ _ _ => trivial⟩
    | _ => trivial
  | localIO io => exact fun _ _ _ _ _ _ _ _ => ⟨trivial, fun _ _ _ => trivial⟩
  | _ => trivial

/-- the memberships that a write stores have `M` -/
def OpM (M : Membership → Prop) : DiskOp → Prop
  | .append _ es => EntsOk M es
  | _ => True

/-- all memberships of a node have `M` -/
structure NodeM (M : Membership → Prop) (n : Node) : Prop where
  eng : EngM M n.eng
  out : ∀ c ∈ n.eng.out, CmdM M c
  rd : EntsOk M n.rd.entries
  disk : EntsOk M n.disk.store.entries
  pend : ∀ o ∈ n.pend, OpM M o
  smq : ∀ m io, SmCmd.install m io ∈ n.smq → M m.mem.mem
  sm : M n.sm.mem.mem
  snap : M n.sm.snap.mem.mem
  builds : ∀ m ∈ n.builds, M m.mem.mem

/-- the memberships of an event have `M` -/
def EvM (M : Membership → Prop) (n : Node) : Ev → Prop
  | .msg _ i => InM M (fun _ => True) n.eng i
  | .write _ _ p => PaysOk M [p]
  | .change _ _ c r => ∀ m, n.eng.changeApply c r = some m → M m
  | _ => True

theorem EntsOk.app {a b : List Ent} (h : EntsOk M a) (k : EntsOk M b) : EntsOk M (a ++ b) := by
  intro x hx
  rcases List.mem_append.1 hx with hx | hx
  · exact h x hx
  · exact k x hx

theorem EntsOk.filter {a : List Ent} (h : EntsOk M a) (p : Ent → Bool) : EntsOk M (a.filter p) :=
  fun x hx => h x (List.mem_filter.1 hx).1

theorem write_ok {d : Disk} {o : DiskOp} (h : EntsOk M d.store.entries) (ho : OpM M o) : EntsOk M (d.write o).store.entries := by
  cases o with
  | append io es => exact EntsOk.app h ho
  | truncate s => exact EntsOk.filter h _
  | purge u => exact EntsOk.filter h _
  | saveCommitted c => exact h

theorem writes_ok {os : List DiskOp} {d : Disk} (h : EntsOk M d.store.entries) (ho : ∀ o ∈ os, OpM M o) :
    EntsOk M (os.foldl Disk.write d).store.entries := by
  induction os generalizing d with
  | nil => exact h
  | cons o os ih => exact ih (write_ok h (ho o (by simp))) fun x hx => ho x (List.mem_cons_of_mem _ hx)

theorem memAfter_ok {m : StoredMem} {es : List Ent} (h : M m.mem) (he : EntsOk M es) : M (Node.memAfter m es).mem := by
  unfold Node.memAfter
  cases hx : es.filterMap (·.stored?) with
  | nil => exact h
  | cons a l =>
    have hne : a :: l ≠ [] := by simp
    have : (a :: l).getLastD m = (a :: l).getLast hne := rfl
    rw [this]
    exact he.stored _ (by rw [hx]; exact List.getLast_mem hne)

theorem read_ok {s : LogStore} (h : EntsOk M s.entries) (a b : Nat) : EntsOk M (s.read a b) := EntsOk.filter h _

namespace NodeM
variable {n n' : Node} {dbg : Bool}

theorem fresh (h0 : M StoredMem.empty.mem) (cfg : Cfg) (now : Nat) (persist : Bool) : NodeM M (Node.fresh cfg now persist) := by
  refine ⟨⟨h0, h0, (fun c hc => by cases hc), (fun l hl => by cases hl), trivial⟩, (fun c hc => by cases hc), (fun x hx => by cases hx),
    (fun x hx => by cases hx), (fun x hx => by cases hx), (fun m io hx => by cases hx), h0, h0, (fun x hx => by cases hx)⟩

/-- the engine handles an input -/
theorem engine {e : Eng} (h : NodeM M n) (he : EngM M e) (ho : ∀ c ∈ e.out, CmdM M c) : NodeM M { n with eng := e } :=
  ⟨he, ho, h.rd, h.disk, h.pend, h.smq, h.sm, h.snap, h.builds⟩

theorem input {e : Eng} {now : Nat} {i : Input} (h : NodeM M n) (hi : InM M (fun _ => True) n.eng i)
    (hr : n.eng.input dbg now i = .ok e) : NodeM M { n with eng := e } := by
  refine h.engine (engM_input h.eng hi hr) ?_
  obtain ⟨cs, h1, h2⟩ := Eng.mf_input n.eng hi e hr
  intro c hc
  have h1 : e.out = n.eng.out ++ cs := h1
  rw [h1] at hc
  rcases List.mem_append.1 hc with hc | hc
  · exact h.out c hc
  · exact h2 c hc

theorem registerOk (h : NodeM M n) (tx : Nat) (o : Option Nat) : NodeM M (n.register tx o) := by
  cases o <;> exact ⟨h.eng, h.out, h.rd, h.disk, h.pend, h.smq, h.sm, h.snap, h.builds⟩

theorem answerOk (es : List Ent) (h : NodeM M n) : NodeM M (n.answer es) := by
  induction es generalizing n with
  | nil => exact h
  | cons x es ih =>
    unfold Node.answer
    cases BMap.get n.clients x.id.index with
    | none => exact ih h
    | some tx => exact ih ⟨h.eng, h.out, h.rd, h.disk, h.pend, h.smq, h.sm, h.snap, h.builds⟩

theorem submit {io : IOId} (h : NodeM M n) (hr : n.submit dbg io = .ok n') : NodeM M n' := by
  rw [submit_ok hr]
  exact ⟨h.eng.same, h.out, h.rd, h.disk, h.pend, h.smq, h.sm, h.snap, h.builds⟩

theorem write {o : DiskOp} (h : NodeM M n) (ho : OpM M o) : NodeM M (n.write o) := by
  refine ⟨h.eng, h.out, ?_, h.disk, ?_, h.smq, h.sm, h.snap, h.builds⟩
  · exact write_ok (d := ⟨n.disk.vote, none, n.rd⟩) h.rd ho
  · intro x hx
    rcases List.mem_append.1 hx with hx | hx
    · exact h.pend x hx
    · rw [List.mem_singleton] at hx; rw [hx]; exact ho

theorem exec {c : Cmd} (h : NodeM M n) (hc : CmdM M c) (hr : n.exec dbg c = .ok n') : NodeM M n' := by
  have keep : ∀ {n : Node}, NodeM M n → ∀ rx sent, NodeM M { n with rx := rx, sent := sent } :=
    fun h _ _ => ⟨h.eng, h.out, h.rd, h.disk, h.pend, h.smq, h.sm, h.snap, h.builds⟩
  cases c with
  | updateIO v io =>
    simp only [Node.exec, out_bind, out_pure] at hr
    obtain ⟨n1, h1, rfl⟩ := hr
    exact keep (h.submit h1) _ n1.sent
  | append v es =>
    simp only [Node.exec, out_bind, out_pure] at hr
    obtain ⟨_, _, n1, h1, rfl⟩ := hr
    exact (h.submit h1).write hc
  | saveVote v =>
    simp only [Node.exec, out_bind, out_pure] at hr
    obtain ⟨n1, h1, rfl⟩ := hr
    have k := h.submit h1
    refine ⟨k.eng, k.out, k.rd, ?_, (fun o ho => by cases ho), k.smq, k.sm, k.snap, k.builds⟩
    exact writes_ok k.disk k.pend
  | purge u =>
    simp only [Node.exec, out_pure] at hr
    subst hr
    have k := h.write (o := .purge u) trivial
    exact ⟨k.eng.same, k.out, k.rd, k.disk, k.pend, k.smq, k.sm, k.snap, k.builds⟩
  | truncate s =>
    simp only [Node.exec, out_pure] at hr
    subst hr
    have k := h.write (o := .truncate s) trivial
    exact ⟨k.eng, k.out, k.rd, k.disk, k.pend, k.smq, k.sm, k.snap, k.builds⟩
  | saveCommitted c => simp only [Node.exec, out_pure] at hr; subst hr; exact h.write trivial
  | sendVote v l => simp only [Node.exec, out_bind, out_pure] at hr; obtain ⟨_, _, rfl⟩ := hr; exact h
  | transfer v l t => simp only [Node.exec, out_bind, out_pure] at hr; obtain ⟨_, _, rfl⟩ := hr; exact h
  | replCommitted c => simp only [Node.exec, out_pure] at hr; subst hr; exact h
  | heartbeat v m c => simp only [Node.exec, out_pure] at hr; subst hr; exact h
  | apply a u =>
    simp only [Node.exec, out_bind, out_pure] at hr
    obtain ⟨_, _, _, _, rfl⟩ := hr
    refine ⟨h.eng, h.out, h.rd, h.disk, h.pend, ?_, h.sm, h.snap, h.builds⟩
    intro m io hm
    rcases List.mem_append.1 hm with hm | hm
    · exact h.smq m io hm
    · rw [List.mem_singleton] at hm; cases hm
  | replicate t i =>
    simp only [Node.exec] at hr
    split at hr
    · rw [out_pure] at hr; subst hr; exact h
    · cases hr
  | rebuild ts =>
    simp only [Node.exec, Node.rebuild, out_bind] at hr
    obtain ⟨_, _, hr⟩ := hr
    split at hr
    · rw [out_pure] at hr; subst hr
      exact ⟨h.eng, h.out, h.rd, h.disk, h.pend, h.smq, h.sm, h.snap, h.builds⟩
    · cases hr
  | sm c =>
    have push : ∀ {n : Node} (h : NodeM M n) (hm : ∀ m io, c = .install m io → M m.mem.mem), NodeM M { n with smq := n.smq ++ [c] } := by
      intro n h hm
      refine ⟨h.eng, h.out, h.rd, h.disk, h.pend, ?_, h.sm, h.snap, h.builds⟩
      intro m io hx
      rcases List.mem_append.1 hx with hx | hx
      · exact h.smq m io hx
      · rw [List.mem_singleton] at hx; exact hm m io hx.symm
    cases c with
    | install m io =>
      simp only [Node.exec, out_bind, out_pure] at hr
      obtain ⟨n1, h1, rfl⟩ := hr
      exact push (h.submit h1) fun m' io' hx => by cases hx; exact hc
    | build => simp only [Node.exec, out_pure] at hr; subst hr; exact push h fun m' io' hx => by cases hx
    | apply f l => simp only [Node.exec, out_pure] at hr; subst hr; exact push h fun m' io' hx => by cases hx
  | respond w tx r => simp only [Node.exec, out_pure] at hr; subst hr; exact keep h n.rx _

theorem smStep (h : NodeM M n) (hr : n.smStep = .ok n') : NodeM M n' := by
  unfold Node.smStep at hr
  split at hr
  · rw [out_pure] at hr; subst hr; exact h
  · next f l q hq =>
    have hq' : ∀ m io, SmCmd.install m io ∈ q → M m.mem.mem := fun m io hm => h.smq m io (by rw [hq]; exact List.mem_cons_of_mem _ hm)
    simp only at hr
    split at hr
    · rw [out_pure] at hr; subst hr
      exact ⟨h.eng, h.out, h.rd, h.disk, h.pend, hq', memAfter_ok h.sm (read_ok h.rd _ _), h.snap, h.builds⟩
    · cases hr
  · next m io q hq =>
    have hq' : ∀ m io, SmCmd.install m io ∈ q → M m.mem.mem := fun m io hm => h.smq m io (by rw [hq]; exact List.mem_cons_of_mem _ hm)
    have hm := h.smq m io (by rw [hq]; simp)
    rw [out_pure] at hr; subst hr
    exact ⟨h.eng, h.out, h.rd, h.disk, h.pend, hq', hm, hm, h.builds⟩
  · next q hq =>
    have hq' : ∀ m io, SmCmd.install m io ∈ q → M m.mem.mem := fun m io hm => h.smq m io (by rw [hq]; exact List.mem_cons_of_mem _ hm)
    rw [out_pure] at hr; subst hr
    refine ⟨h.eng, h.out, h.rd, h.disk, h.pend, hq', h.sm, h.snap, ?_⟩
    intro m hm
    rcases List.mem_append.1 hm with hm | hm
    · exact h.builds m hm
    · rw [List.mem_singleton] at hm; rw [hm]; exact h.sm

theorem step {ev : Ev} (h : NodeM M n) (he : EvM M n ev) (hr : n.step dbg ev = .ok n') : NodeM M n' := by
  cases ev with
  | msg now i =>
    simp only [Node.step] at hr
    split at hr
    · simp only [out_bind, lift_ok, out_pure] at hr
      obtain ⟨e, h1, hr⟩ := hr
      subst hr
      exact h.input he h1
    · rw [out_pure] at hr; subst hr; exact h
  | write now tx p =>
    simp only [Node.step] at hr
    split at hr
    · simp only [out_bind, lift_ok, out_pure] at hr
      obtain ⟨⟨i, e⟩, h1, hr⟩ := hr
      subst hr
      refine registerOk (h.input (now := now) (i := .write p) (dbg := dbg) he ?_) _ _
      simp only [Eng.input, Engine.bind_ok, Engine.pure_ok]
      exact ⟨_, h1, rfl⟩
    · rw [out_pure] at hr; subst hr; exact h
  | change now tx c r =>
    simp only [Node.step] at hr
    split at hr
    · simp only [out_bind, lift_ok, out_pure] at hr
      obtain ⟨⟨i, e⟩, h1, hr⟩ := hr
      subst hr
      refine registerOk (h.input (now := now) (i := .change c r) (dbg := dbg) he ?_) _ _
      simp only [Eng.input, Engine.bind_ok, Engine.pure_ok]
      exact ⟨_, h1, rfl⟩
    · rw [out_pure] at hr; subst hr; exact h
  | note now =>
    simp only [Node.step] at hr
    split at hr
    · cases hx : n.rx with
      | nil => rw [hx] at hr; simp only [out_pure] at hr; subst hr; exact h
      | cons x xs =>
        rw [hx] at hr
        have h0 : NodeM M { n with rx := xs } := ⟨h.eng, h.out, h.rd, h.disk, h.pend, h.smq, h.sm, h.snap, h.builds⟩
        cases x with
        | localIO io =>
          simp only [Node.handle, out_bind, lift_ok, out_pure] at hr
          obtain ⟨e, h1, hr⟩ := hr
          subst hr
          exact h0.input (i := .localIO io) trivial h1
        | selfVote v =>
          simp only [Node.handle, out_bind, lift_ok, out_pure] at hr
          obtain ⟨e, h1, hr⟩ := hr
          subst hr
          exact h0.input (i := .voteResp n.eng.cfg.id v none true v) trivial h1
        | built m =>
          simp only [Node.handle, out_bind, lift_ok, out_pure] at hr
          obtain ⟨e, h1, hr⟩ := hr
          subst hr
          exact h0.input (i := .built m) trivial h1
        | installed io m =>
          simp only [Node.handle, out_bind, lift_ok, out_pure] at hr
          obtain ⟨e, h1, hr⟩ := hr
          subst hr
          exact h0.input (i := .installed io m) trivial h1
        | applied l es =>
          simp only [Node.handle, out_bind, lift_ok, out_pure] at hr
          obtain ⟨e, h1, hr⟩ := hr
          subst hr
          exact answerOk es (h0.input (i := .applied l) trivial h1)
    · rw [out_pure] at hr; subst hr; exact h
  | run =>
    simp only [Node.step, Node.run1] at hr
    split at hr
    · rw [out_pure] at hr; subst hr; exact h
    · next c hc =>
      split at hr
      · simp only [out_bind, out_pure] at hr
        obtain ⟨n1, h1, rfl⟩ := hr
        have k := h.exec (h.out c (List.mem_of_getElem? hc)) h1
        exact ⟨k.eng, k.out, k.rd, k.disk, k.pend, k.smq, k.sm, k.snap, k.builds⟩
      · rw [out_pure] at hr; subst hr; exact h
  | flush =>
    simp only [Node.step, out_pure] at hr
    unfold Node.flush1 at hr
    cases hp : n.pend with
    | nil => rw [hp] at hr; simp only at hr; subst hr; exact h
    | cons o os =>
      rw [hp] at hr
      simp only at hr
      subst hr
      exact ⟨h.eng, h.out, h.rd, write_ok h.disk (h.pend o (by rw [hp]; simp)),
        fun x hx => h.pend x (by rw [hp]; exact List.mem_cons_of_mem _ hx), h.smq, h.sm, h.snap, h.builds⟩
  | sm => exact h.smStep hr
  | build k =>
    simp only [Node.step, out_pure] at hr
    unfold Node.buildDone at hr
    cases hb : n.builds[k]? with
    | none => rw [hb] at hr; simp only at hr; subst hr; exact h
    | some m =>
      rw [hb] at hr
      simp only at hr
      subst hr
      refine ⟨h.eng, h.out, h.rd, h.disk, h.pend, h.smq, h.sm, ?_, fun x hx => h.builds x (List.mem_of_mem_eraseIdx hx)⟩
      show M (if n.sm.snap.lastLogId ≤ m.lastLogId then m else n.sm.snap).mem.mem
      split
      · exact h.builds m (List.mem_of_getElem? hb)
      · exact h.snap

end NodeM

theorem scanChunk_ok {es : List Ent} {res : List StoredMem} (he : EntsOk M es) (hr : ∀ x ∈ res, M x.mem) :
    ∀ x ∈ (match scanChunk es res with | .ok r => r | .error r => r), M x.mem := by
  induction es generalizing res with
  | nil => exact hr
  | cons e es ih =>
    have he' : EntsOk M es := fun x hx => he x (List.mem_cons_of_mem _ hx)
    unfold scanChunk
    cases hs : e.stored? with
    | none => exact ih he' hr
    | some m =>
      have hm : ∀ x ∈ m :: res, M x.mem := by
        intro x hx
        rcases List.mem_cons.1 hx with rfl | hx
        · exact EntsOk.stored he _ (List.mem_filterMap.2 ⟨e, by simp, hs⟩)
        · exact hr x hx
      by_cases h2 : (m :: res).length = 2
      · simp only [if_pos h2]; exact hm
      · simp only [if_neg h2]; exact ih he' hm

theorem lastMemLoop_ok {s : LogStore} (h : EntsOk M s.entries) (st start : Nat) (hs : 0 < st) (e : Nat) {res : List StoredMem}
    (hr : ∀ x ∈ res, M x.mem) : ∀ x ∈ lastMemLoop s st start hs e res, M x.mem := by
  induction e using Nat.strongRecOn generalizing res with
  | _ e ih =>
    unfold lastMemLoop
    split
    · next hlt =>
      have hk := scanChunk_ok (M := M) (es := (s.read (max start (e - st)) e).reverse) (res := res)
        (fun x hx => read_ok h _ _ x (List.mem_reverse.1 hx)) hr
      split
      · next r hh => rw [hh] at hk; exact hk
      · next r hh => rw [hh] at hk; exact ih (e - st) (by omega) hk
    · exact hr

theorem getMembership_ok {s : LogStore} {a : Option LogId} {m : StoredMem} (h : EntsOk M s.entries) (hm : M m.mem) :
    MemOk M (getMembership s a m) := by
  have hk := lastMemLoop_ok h 64 (max (nextIndex s.purged) (nextIndex a)) (by omega) (nextIndex s.lastLogId) (res := []) (fun x hx => by cases hx)
  unfold getMembership lastMembershipInLog
  split
  · next x y hh => rw [hh] at hk; exact ⟨hk y (by simp), hk x (by simp)⟩
  · exact ⟨hm, hm⟩
  · next x _ _ hh => rw [hh] at hk; exact ⟨hk x (by simp), hm⟩

theorem reapply_mem {st : LogStore} (h : EntsOk M st.entries) {stop fuel start : Nat} {s s' : Sm} (hs : M s.mem.mem)
    (hr : reapply st stop fuel start s = .ok s') : M s'.mem.mem ∧ s'.snap = s.snap := by
  induction fuel generalizing start s with
  | zero => cases hr; exact ⟨hs, rfl⟩
  | succ k ih =>
    unfold reapply at hr
    split at hr
    · simp only at hr
      split at hr
      · split at hr
        · have := ih (s := s.apply _) (memAfter_ok hs (read_ok h _ _)) hr
          exact this
        · cases hr
      · cases hr
    · cases hr; exact ⟨hs, rfl⟩

theorem reapplied_mem {st : LogStore} (h : EntsOk M st.entries) {c : Option LogId} {s s' : Sm} (hs : M s.mem.mem)
    (hr : reapplied st c s = .ok s') : M s'.mem.mem ∧ s'.snap = s.snap := by
  unfold reapplied at hr
  split at hr
  · exact reapply_mem h hs hr
  · cases hr; exact ⟨hs, rfl⟩

theorem cleaned_mem {st st' : LogStore} (h : EntsOk M st.entries) {c : Option LogId} (hr : cleaned st c = .ok st') : EntsOk M st'.entries := by
  unfold cleaned at hr
  split at hr
  · split at hr
    · cases hr; exact EntsOk.filter h _
    · cases hr
  · cases hr; exact h

theorem NodeM.restart {dbg : Bool} {cfg : Cfg} {n n' : Node} {k now : Nat} (h : NodeM M n)
    (hr : restart dbg now cfg (n.crashDisk k) n.sm = .ok n') : NodeM M n' := by
  have hd : EntsOk M (n.crashDisk k).store.entries := writes_ok h.disk fun o ho => h.pend o (List.mem_of_mem_take ho)
  have hb : M n.sm.reboot.mem.mem ∧ M n.sm.reboot.snap.mem.mem := by
    unfold Sm.reboot
    split
    · exact ⟨h.sm, h.snap⟩
    · exact ⟨h.snap, h.snap⟩
  unfold Runtime.restart at hr
  simp only [out_bind, lift_ok, out_pure] at hr
  obtain ⟨⟨st, store, s1⟩, h1, e, h2, rfl⟩ := hr
  unfold initialState at h1
  simp only [out_bind, out_pure] at h1
  obtain ⟨sa, ha, store', hstore, ids, hids, h1⟩ := h1
  obtain ⟨k1, k2⟩ := reapplied_mem hd hb.1 ha
  have hsa : M sa.mem.mem ∧ M sa.snap.mem.mem := ⟨k1, by rw [k2]; exact hb.2⟩
  have hst : EntsOk M store'.entries := cleaned_mem hd hstore
  have pick : ∀ (q : Prop) [Decidable q], M (if q then { sa with snap := ⟨sa.applied, sa.mem, 0⟩ } else sa : Sm).mem.mem ∧
      M (if q then { sa with snap := ⟨sa.applied, sa.mem, 0⟩ } else sa : Sm).snap.mem.mem := by
    intro q _
    split
    · exact ⟨hsa.1, hsa.1⟩
    · exact hsa
  have hms := getMembership_ok (M := M) (a := sa.applied) hd hsa.1
  cases h1
  have he : EngM M e := Eng.k_startup anyRule_ok
    ⟨hms.1, hms.2, (fun c hc => by cases hc), (fun l hl => by cases hl), trivial⟩ e h2
  obtain ⟨cs, k1, k2⟩ := Eng.mf_startup (M := M) _ e h2
  refine ⟨he, ?_, hst, hst, (fun o ho => by cases ho), (fun m io hx => by cases hx), ?_, ?_, (fun x hx => by cases hx)⟩
  · intro c hc
    have k1 : e.out = [] ++ cs := k1
    have hc : c ∈ e.out := hc
    rw [k1] at hc
    exact k2 c hc
  · exact (pick _).1
  · exact (pick _).2

end Openraft.Runtime
