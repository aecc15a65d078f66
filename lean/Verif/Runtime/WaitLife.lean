import Verif.Runtime.Waits
import Verif.Runtime.Builds

/-!
# A command that waits is not kept waiting: lives of a node

Every state of a life in which the recorded positions do not go back has something under way when the first command waits.
-/

namespace Openraft.Engine
open Openraft.Repl (Panic dassert)

/-- the accepted IO is not behind the stored vote -/
theorem vote_le_lvl {g : Gh} {a : IOId} {c : Cmd} (h : g.vote ≤ a.vote) (hk : COk g a c) : (g.run c).vote ≤ (lvl a c).vote := by
  have hmax : ∀ io : IOId, io.vote = a.vote → (max a io).vote = a.vote := by
    intro io hio
    rcases max_choice a io with h1 | h1
    · rw [h1]
    · rw [h1, hio]
  cases c with
  | append v es =>
    obtain ⟨x, h1, h2, _⟩ := hk
    show g.vote ≤ (lvl a (.append v es)).vote
    simp only [lvl, h1]
    refine le_trans h ?_
    rcases h2 with h2 | h2
    · exact le_of_lt h2
    · exact le_of_eq h2.1
  | saveVote v => exact le_refl _
  | updateIO w io => show g.vote ≤ (max a io).vote; rw [hmax io hk.1]; exact h
  | sm c =>
    cases c with
    | install m io => show g.vote ≤ (max a io).vote; rw [hmax io (by rw [show io = _ from hk])]; exact h
    | _ => exact h
  | _ => exact h

theorem vote_le_lvls {g : Gh} {a : IOId} {cs : List Cmd} (h : g.vote ≤ a.vote) (hk : COks g a cs) : (g.runs cs).vote ≤ (lvls a cs).vote := by
  induction cs generalizing g a with
  | nil => exact h
  | cons c cs ih => exact ih (vote_le_lvl h hk.1) hk.2

/-- what a command that waits for an IO waits for is accepted before it -/
theorem COk.io_le {g : Gh} {a io : IOId} {c : Cmd} (h : g.vote ≤ a.vote) (hk : COk g a c) (hc : c.condition = some (.ioFlushed io)) : io ≤ a := by
  have hnew : ∀ v, g.vote = v → IOId.new v ≤ a := by
    intro v hv
    rw [hv] at h
    rcases lt_or_eq_of_le h with h | h
    · exact Or.inl h
    · exact Or.inr ⟨h, OptOrd.none_le' _⟩
  cases c with
  | purge u => cases hc
  | updateIO w x =>
    have hc : w = some _ := hc
    rcases hk.2.1 with h1 | h1
    · rw [h1.1] at hc; cases hc; exact le_refl _
    · rw [h1.1] at hc; cases hc
  | respond w tx r =>
    have hc : w = some _ := hc
    cases r with
    | append x v u =>
      cases x with
      | success => rw [hk.1] at hc; cases hc; exact le_refl _
      | conflict => rw [show w = none from hk] at hc; cases hc
      | higherVote v' => rw [hk.2] at hc; cases hc
    | vote v l g => rw [hk.1] at hc; cases hc; exact hnew _ hk.2
    | snapshot v =>
      rcases hk.2 _ hc with h1 | ⟨l, h1⟩
      · cases h1; exact hnew _ hk.1
      · cases h1
    | init b => obtain ⟨l, h1⟩ := hk _ hc; cases h1
  | _ => cases hc

/-- nothing waits for the state machine -/
theorem COk.not_applied {g : Gh} {a : IOId} {l : Option LogId} {c : Cmd} (hk : COk g a c) (hc : c.condition = some (.applied l)) : False := by
  cases c with
  | purge u => cases hc
  | updateIO w x =>
    have hc : w = some _ := hc
    rcases hk.2.1 with h1 | h1
    · rw [h1.1] at hc; cases hc
    · rw [h1.1] at hc; cases hc
  | respond w tx r =>
    have hc : w = some _ := hc
    cases r with
    | append x v u =>
      cases x with
      | success => rw [hk.1] at hc; cases hc
      | conflict => rw [show w = none from hk] at hc; cases hc
      | higherVote v' => rw [hk.2] at hc; cases hc
    | vote v l g => rw [hk.1] at hc; cases hc
    | snapshot v =>
      rcases hk.2 _ hc with h1 | ⟨l, h1⟩
      · cases h1
      · cases h1
    | init b => obtain ⟨l, h1⟩ := hk _ hc; cases h1
  | _ => cases hc

end Openraft.Engine

namespace Openraft.Runtime
open Openraft.Engine
open Openraft.Repl (Panic dassert)

variable {dbg : Bool} {n n' : Node}

/-- the first command waits, and no write, no work of the state machine and no report is under way -/
def Halted (n : Node) : Prop := (∃ c, n.head = some c ∧ n.ready c = false) ∧ n.pend = [] ∧ n.rx = [] ∧ n.smq = []

theorem Waits.not_halted {g0 : Gh} {a0 : IOId} {s0 c0 : Option LogId} {P S : List Cmd} (h : Waits a0 n) (hi : RInv g0 a0 s0 c0 P S n)
    (hv : g0.vote ≤ a0.vote) : ¬ Halted n := by
  rintro ⟨⟨c, hc, hr⟩, hp, hx, hq⟩
  have hk := (hi.head hc).2.1
  have hvl := vote_le_lvls hv hi.coks
  have hdue : ∀ y, ¬ n.due y := by
    rintro y (hy | ⟨es, hy⟩)
    · rw [hx] at hy; cases hy
    · rw [hp] at hy; cases hy
  unfold Node.ready at hr
  cases hcond : c.condition with
  | none => rw [hcond] at hr; cases hr
  | some k =>
    rw [hcond] at hr
    cases k with
    | ioFlushed io =>
      have h1 := hk.io_le hvl hcond
      obtain ⟨x, h2, h3⟩ := h.ios
      rw [hi.split] at h2
      rcases h3 with h3 | h3 | ⟨m, h3⟩ | ⟨m, h3⟩
      · have h3 : n.eng.st.io.prog.flushed = some x := h3
        simp only [Node.holds, h3, Bool.not_eq_false', decide_eq_true_eq] at hr
        exact absurd (OptOrd.some_le_some'.2 (le_trans h1 h2)) (not_le.2 hr)
      · exact hdue x h3
      · rw [hx] at h3; cases h3
      · rw [hq] at h3; cases h3
    | logFlushed l =>
      obtain ⟨i, v, x, h1, h2, h3, h4, h5⟩ := h.waitL n.done c l (Nat.le_refl _) hc hcond
      rcases h5 with h5 | h5 | ⟨io, h5, h6⟩
      · omega
      · simp only [Node.holds, Bool.not_eq_false', decide_eq_true_eq] at hr
        exact absurd h5 (not_le.2 hr)
      · exact hdue io h6
    | applied l => exact hk.not_applied hcond
    | snapshot l =>
      simp only [Node.holds, Bool.not_eq_false', decide_eq_true_eq] at hr
      rcases h.waitS n.done c l (Nat.le_refl _) hc hcond with h1 | ⟨m, h1, h2⟩
      · exact absurd h1 (not_le.2 hr)
      · rcases h2 with ⟨i, io, k1, k2, k3⟩ | ⟨io, k⟩ | ⟨io, k⟩
        · omega
        · rw [hq] at k; cases k
        · rw [hx] at k; cases k

theorem Waits.boot {a0 : IOId} {e : Eng} {d : Disk} {s : Sm} (hf : e.st.io.prog.flushed = some a0) (hs : e.st.snap.lastLogId ≤ e.st.io.snapshot)
    (ho : ∀ c ∈ e.out, c.awaits = false) (hk : ∀ c ∈ e.out, ∃ g a, COk g a c) : Waits a0 (Node.boot e d s) := by
  refine ⟨Nat.zero_le _, ⟨a0, by exact le_refl _, Or.inl hf⟩, Or.inl hs, ?_, ?_⟩
  · intro j c l _ hc hl
    have hc := List.mem_of_getElem? hc
    obtain ⟨g, a, k⟩ := hk c hc
    have := k.awaits hl (fun _ hx => by cases hx)
    rw [ho c hc] at this; cases this
  · intro j c l _ hc hl
    have hc := List.mem_of_getElem? hc
    obtain ⟨g, a, k⟩ := hk c hc
    have := k.awaits hl (fun _ hx => by cases hx)
    rw [ho c hc] at this; cases this

theorem Waits.fresh (cfg : Cfg) (now : Nat) (persist : Bool) : Waits (IOId.new ⟨⟨0, 0⟩, false⟩) (Node.fresh cfg now persist) :=
  Waits.boot rfl (le_refl _) (fun c hc => by cases hc) (fun c hc => by cases hc)

/-- what holds of a node in the course of a steady life -/
def WaitsOk (n : Node) : Prop := ∃ g0 a0 s0 c0 P S, RInv g0 a0 s0 c0 P S n ∧ Waits a0 n ∧ g0.vote ≤ a0.vote

theorem WaitsOk.fresh (cfg : Cfg) (now : Nat) (persist : Bool) : WaitsOk (Node.fresh cfg now persist) :=
  ⟨_, _, _, _, _, _, RInv.fresh cfg now persist, Waits.fresh cfg now persist, le_refl _⟩

theorem Waits.restarted {cfg : Cfg} {now : Nat} {d : Disk} {s s2 : Sm} {st : RState} {store : LogStore} {g0 : Gh} {s0 c0 : Option LogId} {e : Eng}
    (h2 : Loaded now d s st store s2) (h3 : RInv g0 (IOId.new d.vote) s0 c0 [] [] n) (h5 : n = Node.boot e { d with store := store } s2)
    (h6 : Eng.startup dbg now ⟨cfg, st, false, none, none, []⟩ = .ok e) : Waits (IOId.new d.vote) n ∧ e.st.io.prog.flushed = some (IOId.new d.vote) := by
  have hst : e.reported = _ := Eng.stay_startup _ _ h6
  have hkp : e.st.snap = st.snap := by
    have := Eng.keeps_startup _ _ h6
    simpa [Keeps, Eng.theSnap] using this
  obtain ⟨cs, k1, k2⟩ : Emits Cmd.mild _ e := Eng.emits_startup _ _ h6
  have hfl := h3.flow
  subst h5
  have hfl : Flow _ _ _ e := hfl
  have hf : e.st.io.prog.flushed = some (IOId.new d.vote) := by
    have : e.st.io.prog.flushed = st.io.prog.flushed := by
      simp only [Eng.reported] at hst
      grind
    rw [this, h2.io]; rfl
  refine ⟨Waits.boot hf ?_ ?_ ?_, hf⟩
  · have : e.st.io.snapshot = st.io.snapshot := by
      simp only [Eng.reported] at hst
      grind
    rw [this, hkp, h2.snap, h2.io]; exact le_refl _
  · intro c hc
    rw [k1] at hc
    exact (k2 c hc).awaits
  · intro c hc
    exact hfl.ios.mem hc

theorem WaitsOk.restart {cfg : Cfg} {now : Nat} {d : Disk} {s : Sm} (hd : DiskOk d) (hf : Fits d s.reboot)
    (hr : restart dbg now cfg d s = .ok n) : WaitsOk n := by
  obtain ⟨st, store, s2, base, e, h1, h2, h3, h4, h5, h6, _⟩ := restart_base hd hf hr
  exact ⟨_, _, _, _, _, _, h3, (Waits.restarted h2 h3 h5 h6).1, le_refl _⟩

theorem WaitsOk.step {ev : Ev} (h : WaitsOk n) (ho : EvOk n ev) (hst : Steady n n') (hr : n.step dbg ev = .ok n') : WaitsOk n' := by
  obtain ⟨g0, a0, s0, c0, P, S, hi, hw, hv⟩ := h
  obtain ⟨P', S', k1, _, _⟩ := hi.step ho hr
  exact ⟨g0, a0, s0, c0, P', S', k1, hw.step k1 hst hr, hv⟩

theorem WaitsOk.not_halted (h : WaitsOk n) : ¬ Halted n := by
  obtain ⟨g0, a0, s0, c0, P, S, hi, hw, hv⟩ := h
  exact hw.not_halted hi hv

/-! ## What a step does to the queues and the recorded positions -/

/-- the queues -/
def Node.queues (n : Node) : Nat × List Note × List DiskOp × List SmCmd × List SnapMeta × Sm := (n.done, n.rx, n.pend, n.smq, n.builds, n.sm)

/-- what a report sets: `io` the flushed IO, `sp` the snapshot -/
def Note.records (f : Option IOId) (sp : Option LogId) : Note → Option IOId × Option LogId
  | .localIO io => (some io, sp)
  | .installed io m => (some io, m.lastLogId)
  | .built m => (f, m.lastLogId)
  | _ => (f, sp)

/-- the recorded positions -/
def Node.recorded (n : Node) : Option IOId × Option LogId := (n.flushed, n.eng.st.io.snapshot)

/-- an event in which the node does something that it has to do: it executes a command, finishes a write, lets the state machine
work, takes a report or finishes a snapshot -/
def Node.acts (n : Node) : Ev → Prop
  | .run => ∃ c, n.head = some c ∧ n.ready c = true
  | .flush => n.pend ≠ []
  | .sm => n.smq ≠ []
  | .note _ => n.idle = true ∧ n.rx ≠ []
  | .build k => k < n.builds.length
  | _ => False

/-- the kinds of steps -/
inductive View (dbg : Bool) (n n' : Node) : Ev → Prop
  | none (ev : Ev) : n' = n → ¬ n.acts ev → View dbg n n' ev
  | run (c : Cmd) (n1 : Node) : n.head = some c → n.ready c = true → n.exec dbg c = .ok n1 → n' = { n1 with done := n1.done + 1 } → View dbg n n' .run
  | input (ev : Ev) : ¬ n.acts ev → n.idle = true → n'.queues = n.queues → n'.recorded = n.recorded → n.eng.out <+: n'.eng.out → View dbg n n' ev
  | note (now : Nat) (x : Note) (xs : List Note) : n.idle = true → n.rx = x :: xs → n'.queues = (n.done, xs, n.pend, n.smq, n.builds, n.sm) →
      n'.recorded = x.records n.flushed n.eng.st.io.snapshot → n.eng.out <+: n'.eng.out → (dbg = true → Steady n n') → View dbg n n' (.note now)
  | flush (op : DiskOp) (ops : List DiskOp) : n.pend = op :: ops → n' = { n with disk := n.disk.write op, pend := ops, rx := n.rx ++ op.note } → View dbg n n' .flush
  | apply (f l : LogId) (q : List SmCmd) (es : List Ent) : n.smq = .apply f l :: q → n.rx ++ [.applied l es] = n'.rx → n'.smq = q →
      n'.pend = n.pend → n'.builds = n.builds → n'.done = n.done → n'.eng = n.eng → n'.sm.snap = n.sm.snap → View dbg n n' .sm
  | install (m : SnapMeta) (io : IOId) (q : List SmCmd) : n.smq = .install m io :: q → n'.rx = n.rx ++ [.installed io m] → n'.smq = q →
      n'.pend = n.pend → n'.builds = n.builds → n'.done = n.done → n'.eng = n.eng → View dbg n n' .sm
  | startBuild (q : List SmCmd) : n.smq = .build :: q → n' = { n with smq := q, builds := n.builds ++ [⟨n.sm.applied, n.sm.mem, 0⟩] } → View dbg n n' .sm
  | build (k : Nat) (m : SnapMeta) : n.builds[k]? = some m → n'.rx = n.rx ++ [.built m] → n'.builds = n.builds.eraseIdx k →
      n'.pend = n.pend → n'.smq = n.smq → n'.done = n.done → n'.eng = n.eng → View dbg n n' (.build k)

theorem answer_rest (es : List Ent) (n : Node) : (n.answer es).builds = n.builds ∧ (n.answer es).sm = n.sm := by
  induction es generalizing n with
  | nil => exact ⟨rfl, rfl⟩
  | cons e es ih =>
    unfold Node.answer
    cases BMap.get n.clients e.id.index with
    | none => exact ih n
    | some tx => exact ih { n with clients := BMap.remove n.clients e.id.index, replies := n.replies ++ [(tx, some e)] }

theorem steady_flush {e : Eng} {io : IOId} {p : IOProgress} (h : e.st.io.prog.flush true io = .ok p) : e.st.io.prog.flushed ≤ some io := by
  unfold IOProgress.flush at h
  rw [bind_ok] at h
  obtain ⟨u, h1, _⟩ := h
  exact of_decide_eq_true (dassert_ok.1 h1 rfl)

theorem steady_snapshot {s s' : IOState} {l : Option LogId} (h : s.updateSnapshot true l = .ok s') : s.snapshot ≤ l := by
  unfold IOState.updateSnapshot at h
  rw [bind_ok] at h
  obtain ⟨u, h1, _⟩ := h
  exact of_decide_eq_true (dassert_ok.1 h1 rfl)

theorem step_view {ev : Ev} (hr : n.step dbg ev = .ok n') : View dbg n n' ev := by
  have hinput : ∀ {now : Nat} {i : Input} {e : Eng}, Input.noReport i = true → n.eng.input dbg now i = .ok e →
      e.st.io.prog.flushed = n.flushed ∧ e.st.io.snapshot = n.eng.st.io.snapshot ∧ n.eng.out <+: e.out := by
    intro now i e hi he
    have hst : e.reported = n.eng.reported := Eng.stay_input n.eng i hi e he
    exact ⟨congrArg (·.2.1) hst, congrArg (·.2.2.1) hst, (Eng.grow_input _ _ _ he).2⟩
  cases ev with
  | run =>
    simp only [Node.step, Node.run1] at hr
    split at hr
    · next h1 => rw [out_pure] at hr; subst hr; exact .none _ rfl (by simp [Node.acts, h1])
    · next c h1 =>
      split at hr
      · next h2 =>
        simp only [out_bind, out_pure] at hr
        obtain ⟨n1, h3, rfl⟩ := hr
        exact .run c n1 h1 h2 h3 rfl
      · next h2 => rw [out_pure] at hr; subst hr; exact .none _ rfl (by simp [Node.acts, h1, h2])
  | flush =>
    simp only [Node.step, out_pure] at hr
    subst hr
    unfold Node.flush1
    split
    · next hp => exact .none _ rfl (by simp [Node.acts, hp])
    · next op ops hp => exact .flush op ops hp rfl
  | sm =>
    simp only [Node.step, Node.smStep] at hr
    split at hr
    · next hq => rw [out_pure] at hr; subst hr; exact .none _ rfl (by simp [Node.acts, hq])
    · next first last q hq =>
      split at hr
      · rw [out_pure] at hr; subst hr
        exact .apply first last q _ hq rfl rfl rfl rfl rfl rfl rfl
      · cases hr
    · next m io q hq =>
      rw [out_pure] at hr; subst hr
      exact .install m io q hq rfl rfl rfl rfl rfl rfl
    · next q hq =>
      rw [out_pure] at hr; subst hr
      exact .startBuild q hq rfl
  | build k =>
    simp only [Node.step, out_pure] at hr
    subst hr
    unfold Node.buildDone
    split
    · next hm => exact .none _ rfl (by simpa [Node.acts] using hm)
    · next m hm => exact .build k m hm rfl rfl rfl rfl rfl rfl
  | msg now i =>
    simp only [Node.step] at hr
    split at hr
    · next hc =>
      simp only [out_bind, lift_ok, out_pure] at hr
      obtain ⟨e, he, rfl⟩ := hr
      simp only [Bool.and_eq_true] at hc
      have hnr : Input.noReport i = true := by cases i <;> first | rfl | exact absurd hc.2 (by simp [external])
      obtain ⟨k1, k2, k3⟩ := hinput hnr he
      exact .input _ id hc.1 rfl (Prod.ext k1 k2) k3
    · rw [out_pure] at hr; subst hr; exact .none _ rfl id
  | write now tx p =>
    simp only [Node.step] at hr
    split at hr
    · next hc =>
      simp only [out_bind, lift_ok, out_pure] at hr
      obtain ⟨⟨i, e⟩, he, rfl⟩ := hr
      have hin : n.eng.input dbg now (.write p) = .ok e := by
        simp only [Eng.input, he]; rfl
      obtain ⟨k1, k2, k3⟩ := hinput rfl hin
      cases i <;> exact .input _ id hc rfl (Prod.ext k1 k2) k3
    · rw [out_pure] at hr; subst hr; exact .none _ rfl id
  | change now tx c r =>
    simp only [Node.step] at hr
    split at hr
    · next hc =>
      simp only [out_bind, lift_ok, out_pure] at hr
      obtain ⟨⟨i, e⟩, he, rfl⟩ := hr
      have hin : n.eng.input dbg now (.change c r) = .ok e := by
        simp only [Eng.input, he]; rfl
      obtain ⟨k1, k2, k3⟩ := hinput rfl hin
      cases i <;> exact .input _ id hc rfl (Prod.ext k1 k2) k3
    · rw [out_pure] at hr; subst hr; exact .none _ rfl id
  | note now =>
    simp only [Node.step] at hr
    split at hr
    · next hc =>
      split at hr
      · next hx => rw [out_pure] at hr; subst hr; exact .none _ rfl (by simp [Node.acts, hx])
      · next x xs hx =>
        cases x with
        | localIO io =>
          simp only [Node.handle, out_bind, lift_ok, out_pure] at hr
          obtain ⟨e, he, rfl⟩ := hr
          obtain ⟨k1, k2, _⟩ := Eng.localIO_reports he
          refine .note now _ xs hc hx rfl (Prod.ext k1 k2) (Eng.grow_input _ _ _ he).2 ?_
          intro hd; subst hd
          simp only [Eng.input, Eng.coreLocalIO, bind_ok] at he
          obtain ⟨p, hp, _⟩ := he
          exact ⟨le_trans (steady_flush hp) (le_of_eq k1.symm), le_of_eq k2.symm⟩
        | selfVote v =>
          simp only [Node.handle, out_bind, lift_ok, out_pure] at hr
          obtain ⟨e, he, rfl⟩ := hr
          obtain ⟨k1, k2, k3⟩ := hinput rfl he
          exact .note now _ xs hc hx rfl (Prod.ext k1 k2) k3 fun _ => ⟨le_of_eq k1.symm, le_of_eq k2.symm⟩
        | built m =>
          simp only [Node.handle, out_bind, lift_ok, out_pure] at hr
          obtain ⟨e, he, rfl⟩ := hr
          obtain ⟨k1, k2, _⟩ := Eng.built_reports he
          refine .note now _ xs hc hx rfl (Prod.ext k1 k2) (Eng.grow_input _ _ _ he).2 ?_
          intro hd; subst hd
          refine ⟨le_of_eq k1.symm, ?_⟩
          simp only [Eng.input, Eng.coreBuilt, bind_ok, pure_ok] at he
          obtain ⟨e1, h1, io, h2, rfl⟩ := he
          have hst : e1.reported = n.eng.reported := Eng.stay_finishBuilding _ _ _ h1
          have h3 := steady_snapshot h2
          rw [show e1.st.io.snapshot = n.eng.st.io.snapshot from congrArg (·.2.2.1) hst] at h3
          exact le_trans h3 (le_of_eq k2.symm)
        | installed io m =>
          simp only [Node.handle, out_bind, lift_ok, out_pure] at hr
          obtain ⟨e, he, rfl⟩ := hr
          obtain ⟨k1, k2, _⟩ := Eng.installed_reports he
          refine .note now _ xs hc hx rfl (Prod.ext k1 k2) (Eng.grow_input _ _ _ he).2 ?_
          intro hd; subst hd
          simp only [Eng.input, Eng.coreInstalled, bind_ok, pure_ok] at he
          obtain ⟨p, hp, s1, h1, s2, h2, rfl⟩ := he
          refine ⟨le_trans (steady_flush hp) (le_of_eq k1.symm), ?_⟩
          have h3 := steady_snapshot h2
          rw [Eng.updateApplied_ok h1] at h3
          exact le_trans h3 (le_of_eq k2.symm)
        | applied last es =>
          simp only [Node.handle, out_bind, lift_ok, out_pure] at hr
          obtain ⟨e, he, rfl⟩ := hr
          obtain ⟨k1, k2, _⟩ := Eng.applied_reports he
          obtain ⟨_, h2, h3⟩ := handed_answer es { n with rx := xs, eng := e }
          obtain ⟨h4, h5, h6⟩ := answer_queues es { n with rx := xs, eng := e }
          obtain ⟨h7, h8⟩ := answer_rest es { n with rx := xs, eng := e }
          refine .note now _ xs hc hx ?_ ?_ (by rw [h2]; exact (Eng.grow_input _ _ _ he).2) ?_
          · unfold Node.queues
            rw [h3, h4, h5, h6, h7, h8]
          · unfold Node.recorded Node.flushed
            rw [h2]; exact Prod.ext k1 k2
          · intro _
            unfold Steady Node.flushed
            rw [h2]
            exact ⟨le_of_eq k1.symm, le_of_eq k2.symm⟩
    · next hc => rw [out_pure] at hr; subst hr; exact .none _ rfl (by simp [Node.acts, hc])

/-- **In a debug build the recorded positions do not go back.** -/
theorem View.steady {ev : Ev} (hv : View true n n' ev) : Steady n n' := by
  cases hv with
  | none ev h _ => subst h; exact Steady.refl _
  | run c n1 _ _ hx h =>
    subst h
    obtain ⟨p, x, h1, _, h2⟩ := (exec_frame hx).eng
    unfold Steady Node.flushed
    rw [show ({ n1 with done := n1.done + 1 } : Node).eng = _ from h1]
    exact ⟨le_of_eq h2.symm, le_refl _⟩
  | input ev _ _ _ h _ => exact ⟨le_of_eq (congrArg (·.1) h).symm, le_of_eq (congrArg (·.2) h).symm⟩
  | note now x xs _ _ _ _ _ h => exact h rfl
  | flush op ops _ h => subst h; exact Steady.refl _
  | apply f l q es _ _ _ _ _ _ h _ => unfold Steady Node.flushed; rw [h]; exact ⟨le_refl _, le_refl _⟩
  | install m io q _ _ _ _ _ _ h => unfold Steady Node.flushed; rw [h]; exact ⟨le_refl _, le_refl _⟩
  | startBuild q _ h => subst h; exact Steady.refl _
  | build k m _ _ _ _ _ _ h => unfold Steady Node.flushed; rw [h]; exact ⟨le_refl _, le_refl _⟩

end Openraft.Runtime
