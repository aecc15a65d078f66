import Verif.Engine.Validate
import Verif.Runtime.Waits
import Verif.Runtime.WaitLife

/-!
# The self-check of the raft state holds in every state of a node's life
-/

set_option autoImplicit false

namespace Openraft.Runtime
open Openraft.Engine Openraft.LogIdList
open Openraft.Repl (Panic dassert)

/-- the reports not yet handled lead the applied position from `a` to `q`: each moves it forward, and no finished snapshot is ahead of
what was applied before it -/
def Noted : Option LogId → List Note → Option LogId → Prop
  | a, [], q => a = q
  | a, .applied l _ :: xs, q => a < some l ∧ Noted (some l) xs q
  | a, .installed _ m :: xs, q => a < m.lastLogId ∧ Noted m.lastLogId xs q
  | a, .built m :: xs, q => m.lastLogId ≤ a ∧ Noted a xs q
  | a, .localIO _ :: xs, q => Noted a xs q
  | a, .selfVote _ :: xs, q => Noted a xs q

theorem Noted.append {a r : Option LogId} {xs ys : List Note} : Noted a (xs ++ ys) r ↔ ∃ q, Noted a xs q ∧ Noted q ys r := by
  induction xs generalizing a with
  | nil => exact ⟨fun h => ⟨a, rfl, h⟩, fun ⟨q, h1, h2⟩ => by cases h1; exact h2⟩
  | cons x xs ih =>
    cases x with
    | applied l es => simp only [List.cons_append, Noted, ih]; tauto
    | installed io m => simp only [List.cons_append, Noted, ih]; tauto
    | built m => simp only [List.cons_append, Noted, ih]; tauto
    | localIO io => simp only [List.cons_append, Noted, ih]
    | selfVote v => simp only [List.cons_append, Noted, ih]

/-- reports about writes do not count -/
def Note.ofWrite : Note → Bool
  | .localIO _ | .selfVote _ => true
  | _ => false

theorem Noted.writes {a q : Option LogId} {xs ys : List Note} (h : Noted a xs q) (hy : ∀ y ∈ ys, y.ofWrite = true) : Noted a (xs ++ ys) q := by
  refine Noted.append.2 ⟨q, h, ?_⟩
  clear h
  induction ys with
  | nil => rfl
  | cons y ys ih =>
    have h1 := hy y (by simp)
    have h2 := ih fun z hz => hy z (by simp [hz])
    cases y with
    | localIO io => exact h2
    | selfVote v => exact h2
    | _ => cases h1

/-- what holds besides the invariant of a running node: the purged position that is recorded is the one of the log store; the
submitted IO is one of the executed commands, in a debug build the greatest; the reports lead to the position of the state machine -/
structure RecInv (dbg : Bool) (a0 : IOId) (n : Node) : Prop where
  purged : n.eng.st.io.purged = n.rd.purged
  sub : ∃ s, n.eng.st.io.prog.submitted = some s ∧ s ≤ lvls a0 (n.eng.out.take n.done) ∧ (dbg = true → s = lvls a0 (n.eng.out.take n.done))
  noted : Noted n.eng.st.io.applied n.rx n.sm.applied
  snapApp : n.eng.st.io.snapshot ≤ n.eng.st.io.applied
  purgedSnap : dbg = true → n.eng.st.io.purged ≤ n.eng.st.io.snapshot

variable {dbg : Bool} {n n' : Node}

theorem write_purged (n : Node) (op : DiskOp) (h : ∀ u, op ≠ .purge u) : (n.write op).rd.purged = n.rd.purged := by
  cases op with
  | purge u => exact absurd rfl (h u)
  | _ => rfl

theorem submit_dbg {io : IOId} (h : n.submit dbg io = .ok n') : dbg = true → n.eng.st.io.prog.submitted ≤ some io := by
  unfold Node.submit at h
  simp only [out_bind, lift_ok, out_pure] at h
  obtain ⟨p, hp, h⟩ := h
  unfold IOProgress.submit at hp
  simp only [Engine.bind_ok, Engine.pure_ok] at hp
  obtain ⟨_, h1, _⟩ := hp
  exact fun hd => of_decide_eq_true (dassert_ok.1 h1 hd)

/-- what the execution of a command does to the recorded positions -/
theorem exec_records {c : Cmd} (h : n.exec dbg c = .ok n') :
    n'.sm = n.sm ∧ n'.eng.st.io.applied = n.eng.st.io.applied ∧ n'.eng.st.io.snapshot = n.eng.st.io.snapshot ∧
    (∃ ys, n'.rx = n.rx ++ ys ∧ ∀ y ∈ ys, y.ofWrite = true) ∧
    ((∃ u, c = .purge u ∧ n'.eng.st.io.purged = some u ∧ n'.rd.purged = some u) ∨
      n'.eng.st.io.purged = n.eng.st.io.purged ∧ n'.rd.purged = n.rd.purged) ∧
    ((n'.eng.st.io.prog.submitted = n.eng.st.io.prog.submitted ∧ ∀ a, lvl a c = a) ∨
      ∃ io, n'.eng.st.io.prog.submitted = some io ∧ (dbg = true → n.eng.st.io.prog.submitted ≤ some io) ∧
        ∀ a, lvl a c = io ∨ lvl a c = max a io) := by
  have hid : ∀ {m : Node}, m.sm = n.sm → m.eng = n.eng → m.rx = n.rx → m.rd.purged = n.rd.purged → (∀ a, lvl a c = a) →
      m.sm = n.sm ∧ m.eng.st.io.applied = n.eng.st.io.applied ∧ m.eng.st.io.snapshot = n.eng.st.io.snapshot ∧
      (∃ ys, m.rx = n.rx ++ ys ∧ ∀ y ∈ ys, y.ofWrite = true) ∧
      ((∃ u, c = .purge u ∧ m.eng.st.io.purged = some u ∧ m.rd.purged = some u) ∨
        m.eng.st.io.purged = n.eng.st.io.purged ∧ m.rd.purged = n.rd.purged) ∧
      ((m.eng.st.io.prog.submitted = n.eng.st.io.prog.submitted ∧ ∀ a, lvl a c = a) ∨
        ∃ io, m.eng.st.io.prog.submitted = some io ∧ (dbg = true → n.eng.st.io.prog.submitted ≤ some io) ∧
          ∀ a, lvl a c = io ∨ lvl a c = max a io) := by
    intro m h1 h2 h3 h4 h5
    rw [h2]
    exact ⟨h1, rfl, rfl, ⟨[], by rw [h3, List.append_nil], fun y hy => by cases hy⟩, Or.inr ⟨rfl, h4⟩, Or.inl ⟨rfl, h5⟩⟩
  cases c with
  | updateIO v io =>
    simp only [Node.exec, out_bind, out_pure] at h
    obtain ⟨n1, h1, rfl⟩ := h
    have hd := submit_dbg h1
    have h1 := submit_ok h1; subst h1
    exact ⟨rfl, rfl, rfl, ⟨[.localIO io], rfl, fun y hy => by cases List.mem_singleton.1 hy; rfl⟩, Or.inr ⟨rfl, rfl⟩, Or.inr ⟨io, rfl, hd, fun a => Or.inr rfl⟩⟩
  | append v es =>
    simp only [Node.exec, out_bind, lift_ok, unwrap_ok, out_pure] at h
    obtain ⟨last, hl, n1, h1, rfl⟩ := h
    have hd := submit_dbg h1
    have h1 := submit_ok h1; subst h1
    exact ⟨rfl, rfl, rfl, ⟨[], (List.append_nil _).symm, fun y hy => by cases hy⟩, Or.inr ⟨rfl, rfl⟩,
      Or.inr ⟨_, rfl, hd, fun a => Or.inl (by simp only [lvl, hl])⟩⟩
  | saveVote v =>
    simp only [Node.exec, out_bind, out_pure] at h
    obtain ⟨n1, h1, rfl⟩ := h
    have hd := submit_dbg h1
    have h1 := submit_ok h1; subst h1
    refine ⟨rfl, rfl, rfl, ⟨n.pend.flatMap DiskOp.note ++ [.localIO (IOId.new v), .selfVote v], ?_, ?_⟩, Or.inr ⟨rfl, rfl⟩, Or.inr ⟨_, rfl, hd, fun a => Or.inl rfl⟩⟩
    · show n.rx ++ _ ++ _ = _
      rw [List.append_assoc]
    · intro y hy
      rcases List.mem_append.1 hy with hy | hy
      · obtain ⟨op, _, hy⟩ := List.mem_flatMap.1 hy
        cases op with
        | append io es => cases List.mem_singleton.1 hy; rfl
        | _ => cases hy
      · simp only [List.mem_cons, List.not_mem_nil, or_false] at hy
        rcases hy with rfl | rfl <;> rfl
  | purge u =>
    simp only [Node.exec, out_pure] at h; subst h
    exact ⟨rfl, rfl, rfl, ⟨[], (List.append_nil _).symm, fun y hy => by cases hy⟩, Or.inl ⟨u, rfl, rfl, rfl⟩, Or.inl ⟨rfl, fun a => rfl⟩⟩
  | truncate s => simp only [Node.exec, out_pure] at h; subst h; exact hid rfl rfl rfl rfl fun a => rfl
  | saveCommitted c => simp only [Node.exec, out_pure] at h; subst h; exact hid rfl rfl rfl rfl fun a => rfl
  | sendVote v l =>
    simp only [Node.exec, out_bind, out_pure] at h; obtain ⟨_, _, rfl⟩ := h
    exact hid rfl rfl rfl rfl fun a => rfl
  | transfer v l t =>
    simp only [Node.exec, out_bind, out_pure] at h; obtain ⟨_, _, rfl⟩ := h
    exact hid rfl rfl rfl rfl fun a => rfl
  | replCommitted c => simp only [Node.exec, out_pure] at h; subst h; exact hid rfl rfl rfl rfl fun a => rfl
  | heartbeat v m c => simp only [Node.exec, out_pure] at h; subst h; exact hid rfl rfl rfl rfl fun a => rfl
  | apply a u =>
    simp only [Node.exec, out_bind, out_pure] at h
    obtain ⟨_, _, _, _, rfl⟩ := h
    exact hid rfl rfl rfl rfl fun a => rfl
  | replicate t i =>
    simp only [Node.exec] at h
    split at h
    · rw [out_pure] at h; subst h; exact hid rfl rfl rfl rfl fun a => rfl
    · cases h
  | rebuild ts =>
    simp only [Node.exec, Node.rebuild, out_bind] at h
    obtain ⟨_, _, h⟩ := h
    split at h
    · rw [out_pure] at h; subst h; exact hid rfl rfl rfl rfl fun a => rfl
    · cases h
  | sm c =>
    cases c with
    | install m io =>
      simp only [Node.exec, out_bind, out_pure] at h
      obtain ⟨n1, h1, rfl⟩ := h
      have hd := submit_dbg h1
      have h1 := submit_ok h1; subst h1
      exact ⟨rfl, rfl, rfl, ⟨[], (List.append_nil _).symm, fun y hy => by cases hy⟩, Or.inr ⟨rfl, rfl⟩, Or.inr ⟨io, rfl, hd, fun a => Or.inr rfl⟩⟩
    | build => simp only [Node.exec, out_pure] at h; subst h; exact hid rfl rfl rfl rfl fun a => rfl
    | apply f l => simp only [Node.exec, out_pure] at h; subst h; exact hid rfl rfl rfl rfl fun a => rfl
  | respond w tx r => simp only [Node.exec, out_pure] at h; subst h; exact hid rfl rfl rfl rfl fun a => rfl

/-- a command is executed -/
theorem RecInv.run {g0 : Gh} {a0 : IOId} {s0 c0 : Option LogId} {P S : List Cmd} {c : Cmd} {n1 : Node} (h : RecInv dbg a0 n)
    (hi : RInv g0 a0 s0 c0 P S n) (hc : n.head = some c) (hrdy : n.ready c = true) (hx : n.exec dbg c = .ok n1) :
    RecInv dbg a0 { n1 with done := n1.done + 1 } := by
  obtain ⟨h1, h2, h3, ⟨ys, h4, h5⟩, h6, h7⟩ := exec_records hx
  obtain ⟨_, hcok, htk, _⟩ := hi.head hc
  have hdone : n1.done = n.done := (exec_frame hx).done
  have hout := exec_out hx
  have hl : lvls a0 (n1.eng.out.take (n1.done + 1)) = lvl (lvls a0 (n.eng.out.take n.done)) c := by
    rw [hdone, hout, htk, hi.split, lvls_snoc]
  have hle := lvl_le hcok
  rw [← hi.split] at hle
  refine ⟨?_, ?_, ?_, ?_, ?_⟩
  · rcases h6 with ⟨u, _, k1, k2⟩ | ⟨k1, k2⟩
    · exact k1.trans k2.symm
    · exact k1.trans (h.purged.trans k2.symm)
  · obtain ⟨s, s1, s2, s3⟩ := h.sub
    show ∃ s, n1.eng.st.io.prog.submitted = some s ∧ s ≤ lvls a0 (n1.eng.out.take (n1.done + 1)) ∧ (dbg = true → s = lvls a0 (n1.eng.out.take (n1.done + 1)))
    rw [hl]
    rcases h7 with ⟨k1, k2⟩ | ⟨io, k1, k2, k3⟩
    · exact ⟨s, k1.trans s1, by rw [k2]; exact s2, fun hd => by rw [k2]; exact s3 hd⟩
    · refine ⟨io, k1, ?_, ?_⟩
      · rcases k3 (lvls a0 (n.eng.out.take n.done)) with k | k
        · rw [k]
        · rw [k]; exact le_max_right _ _
      · intro hd
        rcases k3 (lvls a0 (n.eng.out.take n.done)) with k | k
        · rw [k]
        · rw [k]
          have k4 := k2 hd
          rw [s1, s3 hd] at k4
          exact (max_eq_right (OptOrd.some_le_some'.1 k4)).symm
  · show Noted n1.eng.st.io.applied n1.rx n1.sm.applied
    rw [h2, h4, h1]
    exact h.noted.writes h5
  · show n1.eng.st.io.snapshot ≤ n1.eng.st.io.applied
    rw [h2, h3]; exact h.snapApp
  · intro hd
    show n1.eng.st.io.purged ≤ n1.eng.st.io.snapshot
    rw [h3]
    rcases h6 with ⟨u, k, k1, _⟩ | ⟨k1, _⟩
    · rw [k1]
      subst k
      unfold Node.ready at hrdy
      simp only [Cmd.condition] at hrdy
      simpa [Node.holds] using hrdy
    · rw [k1]; exact h.purgedSnap hd

/-- only the engine changed, and not what was reported to it -/
theorem RecInv.eng {a0 : IOId} {e : Eng} (h : RecInv dbg a0 n) (hd : n.done ≤ n.eng.out.length) (hst : e.reported = n.eng.reported)
    (ho : n.eng.out <+: e.out) (h1 : n'.eng = e) (h2 : n'.done = n.done) (h3 : n'.rd = n.rd) (h4 : n'.rx = n.rx) (h5 : n'.sm = n.sm) : RecInv dbg a0 n' := by
  simp only [Eng.reported, Prod.mk.injEq] at hst
  obtain ⟨t1, t2, t3, t4, t5⟩ := hst
  have htk : n'.eng.out.take n'.done = n.eng.out.take n.done := by
    rw [h1, h2]
    obtain ⟨r, hr⟩ := ho
    rw [← hr, List.take_append_of_le_length hd]
  refine ⟨?_, ?_, ?_, ?_, ?_⟩
  · rw [h1, h3, t5]; exact h.purged
  · rw [htk, h1, t1]; exact h.sub
  · rw [h1, h4, h5, t4]; exact h.noted
  · rw [h1, t3, t4]; exact h.snapApp
  · rw [h1, t5, t3]; exact h.purgedSnap

/-- reports leave the submitted IO and the purged position alone -/
theorem report_keeps {now : Nat} {e e' : Eng} {i : Input} (hr : e.input dbg now i = .ok e') :
    e'.st.io.prog.submitted = e.st.io.prog.submitted ∧ e'.st.io.purged = e.st.io.purged := by
  by_cases hi : Input.noReport i = true
  · have hst : e'.reported = e.reported := Eng.stay_input e i hi e' hr
    exact ⟨congrArg (·.1) hst, congrArg (·.2.2.2.2) hst⟩
  · cases i with
    | localIO io =>
      simp only [Eng.input, Eng.coreLocalIO, Engine.bind_ok] at hr
      obtain ⟨p, hp, hr⟩ := hr
      have hp := Eng.flush_ok hp
      subst hp
      have hst : Stay (e.withProg { e.st.io.prog with flushed := some io }) e' := by
        split at hr
        · split at hr
          · split at hr
            · exact Eng.stay_rhUpdateLocal _ _ _ _ hr
            · rw [Engine.pure_ok] at hr; subst hr; rfl
          · rw [Engine.pure_ok] at hr; subst hr; rfl
        · rw [Engine.pure_ok] at hr; subst hr; rfl
      exact ⟨congrArg (·.1) hst, congrArg (·.2.2.2.2) hst⟩
    | built m =>
      simp only [Eng.input, Eng.coreBuilt, Engine.bind_ok, Engine.pure_ok] at hr
      obtain ⟨e1, h1, io, h2, hr⟩ := hr
      have h2 := Eng.updateSnapshotIO_ok h2
      subst hr; subst h2
      have hst : Stay e e1 := Eng.stay_finishBuilding _ _ _ h1
      exact ⟨congrArg (·.1) hst, congrArg (·.2.2.2.2) hst⟩
    | installed io m =>
      simp only [Eng.input, Eng.coreInstalled, Engine.bind_ok, Engine.pure_ok] at hr
      obtain ⟨p, hp, s1, h1, s2, h2, hr⟩ := hr
      have hp := Eng.flush_ok hp
      have h1 := Eng.updateApplied_ok h1
      have h2 := Eng.updateSnapshotIO_ok h2
      subst hp; subst h1; subst h2; subst hr
      exact ⟨rfl, rfl⟩
    | applied l =>
      simp only [Eng.input, Eng.coreApplied, Engine.bind_ok, Engine.pure_ok] at hr
      obtain ⟨s, h1, hr⟩ := hr
      have h1 := Eng.updateApplied_ok h1
      subst h1; subst hr
      exact ⟨rfl, rfl⟩
    | _ => exact absurd rfl hi

/-- a report is handled: what the engine knows afterwards -/
theorem RecInv.report {a0 : IOId} {now : Nat} {e : Eng} {i : Input} {x : Note} {xs : List Note} (h : RecInv dbg a0 n) (hd : n.done ≤ n.eng.out.length)
    (hx : n.rx = x :: xs) (hr : n.eng.input dbg now i = .ok e) (hs : dbg = true → n.eng.st.io.snapshot ≤ e.st.io.snapshot)
    (hn : Noted n.eng.st.io.applied (x :: xs) n.sm.applied → Noted e.st.io.applied xs n.sm.applied ∧ (n.eng.st.io.snapshot ≤ n.eng.st.io.applied → e.st.io.snapshot ≤ e.st.io.applied))
    (h1 : n'.eng = e) (h2 : n'.done = n.done) (h3 : n'.rd = n.rd) (h4 : n'.rx = xs) (h5 : n'.sm = n.sm) : RecInv dbg a0 n' := by
  obtain ⟨k1, k2⟩ := report_keeps hr
  have hn0 := h.noted
  rw [hx] at hn0
  obtain ⟨m1, m2⟩ := hn hn0
  have htk : n'.eng.out.take n'.done = n.eng.out.take n.done := by
    rw [h1, h2]
    obtain ⟨r, hr⟩ : n.eng.out <+: e.out := (Eng.grow_input _ _ _ hr).2
    rw [← hr, List.take_append_of_le_length hd]
  refine ⟨?_, ?_, ?_, ?_, ?_⟩
  · rw [h1, h3, k2]; exact h.purged
  · rw [htk, h1, k1]; exact h.sub
  · rw [h1, h4, h5]; exact m1
  · rw [h1]; exact m2 h.snapApp
  · intro hdb
    rw [h1, k2]; exact le_trans (h.purgedSnap hdb) (hs hdb)

theorem answer_rd (es : List Ent) (n : Node) : (n.answer es).rd = n.rd := by
  induction es generalizing n with
  | nil => rfl
  | cons e es ih =>
    unfold Node.answer
    cases BMap.get n.clients e.id.index with
    | none => exact ih n
    | some tx => exact ih { n with clients := BMap.remove n.clients e.id.index, replies := n.replies ++ [(tx, some e)] }

theorem RecInv.step {g0 : Gh} {a0 : IOId} {s0 c0 : Option LogId} {P S : List Cmd} {ev : Ev} (h : RecInv dbg a0 n) (hi : RInv g0 a0 s0 c0 P S n)
    (hr : n.step dbg ev = .ok n') : RecInv dbg a0 n' := by
  have hinput : ∀ {now : Nat} {i : Input} {e : Eng} {m : Node}, Input.noReport i = true → n.eng.input dbg now i = .ok e →
      m.eng = e → m.done = n.done → m.rd = n.rd → m.rx = n.rx → m.sm = n.sm → RecInv dbg a0 m := by
    intro now i e m hni he h1 h2 h3 h4 h5
    exact h.eng hi.done (Eng.stay_input n.eng i hni e he) (Eng.grow_input _ _ _ he).2 h1 h2 h3 h4 h5
  have hsm : ∀ {m : Node}, m.eng = n.eng → m.done = n.done → m.rd = n.rd → Noted n.eng.st.io.applied m.rx m.sm.applied → RecInv dbg a0 m := by
    intro m h1 h2 h3 h4
    refine ⟨by rw [h1, h3]; exact h.purged, by rw [h1, h2]; exact h.sub, by rw [h1]; exact h4, by rw [h1]; exact h.snapApp, by rw [h1]; exact h.purgedSnap⟩
  cases ev with
  | run =>
    simp only [Node.step, Node.run1] at hr
    split at hr
    · rw [out_pure] at hr; subst hr; exact h
    · next c h1 =>
      split at hr
      · next h2 =>
        simp only [out_bind, out_pure] at hr
        obtain ⟨n1, h3, rfl⟩ := hr
        exact h.run hi h1 h2 h3
      · rw [out_pure] at hr; subst hr; exact h
  | flush =>
    simp only [Node.step, out_pure] at hr
    subst hr
    unfold Node.flush1
    split
    · exact h
    · next op ops hp =>
      refine hsm rfl rfl rfl (h.noted.writes fun y hy => ?_)
      cases op with
      | append io es => cases List.mem_singleton.1 hy; rfl
      | _ => cases hy
  | sm =>
    simp only [Node.step, Node.smStep] at hr
    have hch := hi.s.chain
    split at hr
    · rw [out_pure] at hr; subst hr; exact h
    · next first last q hq =>
      split at hr
      · rw [out_pure] at hr; subst hr
        rw [hq] at hch
        exact hsm rfl rfl rfl (Noted.append.2 ⟨_, h.noted, hch.2.1, rfl⟩)
      · cases hr
    · next m io q hq =>
      rw [out_pure] at hr; subst hr
      rw [hq] at hch
      exact hsm rfl rfl rfl (Noted.append.2 ⟨_, h.noted, hch.1, rfl⟩)
    · next q hq =>
      rw [out_pure] at hr; subst hr
      exact hsm rfl rfl rfl h.noted
  | build k =>
    simp only [Node.step, out_pure] at hr
    subst hr
    unfold Node.buildDone
    split
    · exact h
    · next m hm =>
      exact hsm rfl rfl rfl (Noted.append.2 ⟨_, h.noted, (hi.s.builds m (List.mem_of_getElem? hm)).2, rfl⟩)
  | msg now i =>
    simp only [Node.step] at hr
    split at hr
    · next hc =>
      simp only [out_bind, lift_ok, out_pure] at hr
      obtain ⟨e, he, rfl⟩ := hr
      simp only [Bool.and_eq_true] at hc
      have hnr : Input.noReport i = true := by cases i <;> first | rfl | exact absurd hc.2 (by simp [external])
      exact hinput hnr he rfl rfl rfl rfl rfl
    · rw [out_pure] at hr; subst hr; exact h
  | write now tx p =>
    simp only [Node.step] at hr
    split at hr
    · next hc =>
      simp only [out_bind, lift_ok, out_pure] at hr
      obtain ⟨⟨i, e⟩, he, rfl⟩ := hr
      have hin : n.eng.input dbg now (.write p) = .ok e := by
        simp only [Eng.input, he]; rfl
      cases i <;> exact hinput rfl hin rfl rfl rfl rfl rfl
    · rw [out_pure] at hr; subst hr; exact h
  | change now tx c r =>
    simp only [Node.step] at hr
    split at hr
    · next hc =>
      simp only [out_bind, lift_ok, out_pure] at hr
      obtain ⟨⟨i, e⟩, he, rfl⟩ := hr
      have hin : n.eng.input dbg now (.change c r) = .ok e := by
        simp only [Eng.input, he]; rfl
      cases i <;> exact hinput rfl hin rfl rfl rfl rfl rfl
    · rw [out_pure] at hr; subst hr; exact h
  | note now =>
    have hst : dbg = true → n.eng.st.io.snapshot ≤ n'.eng.st.io.snapshot := by
      intro hd; subst hd
      exact (step_view hr).steady.2
    simp only [Node.step] at hr
    split at hr
    · next hc =>
      split at hr
      · rw [out_pure] at hr; subst hr; exact h
      · next x xs hx =>
        cases x with
        | localIO io =>
          simp only [Node.handle, out_bind, lift_ok, out_pure] at hr
          obtain ⟨e, he, rfl⟩ := hr
          obtain ⟨_, k2, k3⟩ := Eng.localIO_reports he
          exact h.report hi.done hx he hst (fun hn => ⟨by rw [k3]; exact hn, fun hs => by rw [k2, k3]; exact hs⟩) rfl rfl rfl rfl rfl
        | selfVote v =>
          simp only [Node.handle, out_bind, lift_ok, out_pure] at hr
          obtain ⟨e, he, rfl⟩ := hr
          have hst' : e.reported = n.eng.reported := Eng.stay_input n.eng _ rfl e he
          have k2 : e.st.io.snapshot = n.eng.st.io.snapshot := congrArg (·.2.2.1) hst'
          have k3 : e.st.io.applied = n.eng.st.io.applied := congrArg (·.2.2.2.1) hst'
          exact h.report hi.done hx he hst (fun hn => ⟨by rw [k3]; exact hn, fun hs => by rw [k2, k3]; exact hs⟩) rfl rfl rfl rfl rfl
        | built m =>
          simp only [Node.handle, out_bind, lift_ok, out_pure] at hr
          obtain ⟨e, he, rfl⟩ := hr
          obtain ⟨_, k2, k3⟩ := Eng.built_reports he
          exact h.report hi.done hx he hst (fun hn => ⟨by rw [k3]; exact hn.2, fun hs => by rw [k2, k3]; exact hn.1⟩) rfl rfl rfl rfl rfl
        | installed io m =>
          simp only [Node.handle, out_bind, lift_ok, out_pure] at hr
          obtain ⟨e, he, rfl⟩ := hr
          obtain ⟨_, k2, k3⟩ := Eng.installed_reports he
          exact h.report hi.done hx he hst (fun hn => ⟨by rw [k3]; exact hn.2, fun hs => by rw [k2, k3]⟩) rfl rfl rfl rfl rfl
        | applied last es =>
          simp only [Node.handle, out_bind, lift_ok, out_pure] at hr
          obtain ⟨e, he, rfl⟩ := hr
          obtain ⟨_, k2, k3⟩ := Eng.applied_reports he
          obtain ⟨_, h2, h3⟩ := handed_answer es { n with rx := xs, eng := e }
          obtain ⟨h4, h5, h6⟩ := answer_queues es { n with rx := xs, eng := e }
          obtain ⟨h7, h8⟩ := answer_rest es { n with rx := xs, eng := e }
          have h9 := answer_rd es { n with rx := xs, eng := e }
          refine h.report hi.done hx he (fun hd => le_of_eq k2.symm) (fun hn => ⟨by rw [k3]; exact hn.2, fun hs => by rw [k2, k3]; exact le_trans hs (le_of_lt hn.1)⟩)
            h2 h3 h9 h4 h8
    · rw [out_pure] at hr; subst hr; exact h

theorem RecInv.fresh (cfg : Cfg) (now : Nat) (persist : Bool) : RecInv dbg (IOId.new ⟨⟨0, 0⟩, false⟩) (Node.fresh cfg now persist) :=
  ⟨rfl, ⟨_, rfl, le_refl _, fun _ => rfl⟩, rfl, le_refl _, fun _ => le_refl _⟩

theorem RecInv.restarted {cfg : Cfg} {now : Nat} {d : Disk} {s s2 : Sm} {st : RState} {store : LogStore} {e : Eng} (hd : DiskOk d) (hf : Fits d s.reboot)
    (h2 : Loaded now d s.reboot st store s2) (h5 : n = Node.boot e { d with store := store } s2)
    (h6 : Eng.startup dbg now ⟨cfg, st, false, none, none, []⟩ = .ok e) : RecInv dbg (IOId.new d.vote) n := by
  have hst : e.reported = _ := Eng.stay_startup _ _ h6
  simp only [Eng.reported, Prod.mk.injEq] at hst
  obtain ⟨t1, t2, t3, t4, t5⟩ := hst
  obtain ⟨k1, k2, k3⟩ := h2.snap_ok hd hf
  subst h5
  refine ⟨?_, ?_, ?_, ?_, ?_⟩
  · show e.st.io.purged = store.purged
    rw [t5, h2.io]; rfl
  · refine ⟨IOId.new d.vote, ?_, ?_, fun _ => ?_⟩
    · show e.st.io.prog.submitted = _
      rw [t1, h2.io]; rfl
    · exact le_refl _
    · rfl
  · show e.st.io.applied = s2.applied
    rw [t4, h2.io]; rfl
  · show e.st.io.snapshot ≤ e.st.io.applied
    rw [t3, t4, h2.io]; exact k2.le
  · intro _
    show e.st.io.purged ≤ e.st.io.snapshot
    rw [t5, t3, h2.io]; exact k1.le

/-- the invariants hold in every state of a life -/
theorem Life.valid {cfg : Cfg} {old : List Resp} (h : Life dbg cfg old n) :
    ∃ g0 a0 s0 c0 P S, RInv g0 a0 s0 c0 P S n ∧ RecInv dbg a0 n := by
  induction h with
  | fresh now persist => exact ⟨_, _, _, _, _, _, RInv.fresh cfg now persist, RecInv.fresh cfg now persist⟩
  | @step old n n' ev _ ho hs ih =>
    obtain ⟨g0, a0, s0, c0, P, S, hi, hv⟩ := ih
    obtain ⟨P', S', k1, _, _⟩ := hi.step ho hs
    exact ⟨g0, a0, s0, c0, P', S', k1, hv.step hi hs⟩
  | @crash old n n' k now _ hf hr ih =>
    obtain ⟨g0, a0, s0, c0, P, S, hi, hv⟩ := ih
    obtain ⟨st, store, s2, base, e, h1, h2, h3, h4, h5, h6, _⟩ := restart_base (hi.crash_ok k) hf hr
    exact ⟨_, _, _, _, _, _, h3, RecInv.restarted (hi.crash_ok k) hf h2 h5 h6⟩

theorem lvls_mono {g : Gh} {a : IOId} {cs ds : List Cmd} (h : COks g a (cs ++ ds)) : lvls a cs ≤ lvls a (cs ++ ds) := by
  induction ds using List.reverseRecOn with
  | nil => rw [List.append_nil]
  | append_singleton ds d ih =>
    rw [← List.append_assoc] at h ⊢
    rw [COks_append] at h
    rw [lvls_snoc]
    exact le_trans (ih h.1) (lvl_le h.2.1)

/-- the order of the progress of writes -/
theorem RecInv.prog {g0 : Gh} {a0 : IOId} {s0 c0 : Option LogId} {P S : List Cmd} (h : RecInv dbg a0 n) (hi : RInv g0 a0 s0 c0 P S n) :
    n.eng.st.io.prog.submitted ≤ n.eng.st.io.prog.accepted ∧ n.eng.st.io.prog.flushed ≤ n.eng.st.io.prog.accepted ∧
    (dbg = true → n.eng.st.io.prog.flushed ≤ n.eng.st.io.prog.submitted) := by
  obtain ⟨s, h1, h2, h3⟩ := h.sub
  have hacc := hi.flow.acc
  have hm : lvls a0 (P ++ S) ≤ lvls a0 n.eng.out := by
    have := hi.flow.ios
    rw [hi.rest] at this ⊢
    exact lvls_mono this
  rw [hi.split] at h2 h3
  have hf : n.eng.st.io.prog.flushed ≤ some (lvls a0 (P ++ S)) := by
    cases hfl : n.eng.st.io.prog.flushed with
    | none => exact OptOrd.none_le' _
    | some f => exact OptOrd.some_le_some'.2 (hi.f.flushed f hfl).1
  rw [h1, hacc]
  refine ⟨OptOrd.some_le_some'.2 (le_trans h2 hm), le_trans hf (OptOrd.some_le_some'.2 hm), fun hd => ?_⟩
  rw [h3 hd]; exact hf

end Openraft.Runtime
