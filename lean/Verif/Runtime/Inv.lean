import Verif.Runtime.Demo
import Verif.Engine.Flow
import Verif.Engine.Bound

/-!
# Invariant of a running node

The commands executed so far are `P ++ S`: the effects of `P` are durable, those of `S` are not yet. What
the log store returns is the log after `P ++ S`; what is on disk is the log and the vote after `P`.
-/

set_option autoImplicit false

namespace Openraft.Runtime
open Openraft.Engine
open Openraft.Repl (Panic dassert)
open Openraft.Cluster (Payload)

/-- the write a command submits -/
def opOf : Cmd → Option DiskOp
  | .append v es => es.getLast?.map fun x => .append (IOId.newLog v (some x.id)) es
  | .truncate s => some (.truncate s)
  | .purge u => some (.purge u)
  | .saveCommitted c => some (.saveCommitted c)
  | _ => none

/-- the entries a command writes are all at or below `k` -/
def Covered (k : Option LogId) : Cmd → Prop
  | .append _ es => ∀ x ∈ es, some x.id ≤ k
  | _ => False

theorem Covered.mono {k k' : Option LogId} {c : Cmd} (h : Covered k c) (hk : k ≤ k') : Covered k' c := by
  cases c with
  | append v es => exact fun x hx => le_trans (h x hx) hk
  | _ => exact h

/-- what it means that `f` is reported as flushed: every write with an id up to `f` is durable, or the
state machine has it durably -/
def Fl (a0 : IOId) (P S : List Cmd) (k : Option LogId) (f : IOId) : Prop :=
  f ≤ lvls a0 (P ++ S) ∧ ∀ c ∈ S, ∀ io, c.hard = some io → io ≤ f → Covered k c

namespace Fl
variable {a0 f : IOId} {P S : List Cmd} {k : Option LogId}

theorem snoc {g : Gh} {c : Cmd} (h : Fl a0 P S k f) (hc : COk g (lvls a0 (P ++ S)) c) : Fl a0 P (S ++ [c]) k f := by
  refine ⟨?_, ?_⟩
  · rw [← List.append_assoc, lvls_snoc]; exact le_trans h.1 (lvl_le hc)
  · intro d hd io hio hle
    rcases List.mem_append.1 hd with hd | hd
    · exact h.2 d hd io hio hle
    · rw [List.mem_singleton] at hd; subst hd
      exact absurd (le_trans hle h.1) (not_le.2 (hard_lvl hc hio).1)

theorem kept {k' : Option LogId} (h : Fl a0 P S k f) (hk : k ≤ k') : Fl a0 P S k' f :=
  ⟨h.1, fun c hc io hio hle => (h.2 c hc io hio hle).mono hk⟩

theorem flush {S1 S2 : List Cmd} (h : Fl a0 P S k f) (hs : S = S1 ++ S2) : Fl a0 (P ++ S1) S2 k f := by
  refine ⟨by rw [List.append_assoc, ← hs]; exact h.1, fun c hc => h.2 c (by rw [hs]; exact List.mem_append_right _ hc)⟩

theorem all {g : Gh} {c : Cmd} (h : Fl a0 P S k f) (hc : COk g (lvls a0 (P ++ S)) c) : Fl a0 (P ++ S ++ [c]) [] k f := by
  refine ⟨?_, fun c hc => by cases hc⟩
  rw [List.append_nil, lvls_snoc]; exact le_trans h.1 (lvl_le hc)

end Fl

/-- the commands the state machine worker has not yet handled lead from position `p` to position `q` -/
def SmOk (V : Option LogId → Prop) : Option LogId → List SmCmd → Option LogId → Prop
  | p, [], q => p = q
  | p, .apply f l :: cs, q => f.index = nextIndex p ∧ p < some l ∧ nextIndex p ≤ l.index ∧ V (some l) ∧ SmOk V (some l) cs q
  | p, .install m _ :: cs, q => p < m.lastLogId ∧ nextIndex p < nextIndex m.lastLogId ∧ V m.lastLogId ∧ SmOk V m.lastLogId cs q
  | p, .build :: cs, q => SmOk V p cs q

theorem SmOk.mono {V W : Option LogId → Prop} (hvw : ∀ x, V x → W x) {p q : Option LogId} {cs : List SmCmd}
    (h : SmOk V p cs q) : SmOk W p cs q := by
  induction cs generalizing p with
  | nil => exact h
  | cons c cs ih =>
    cases c with
    | apply f l => exact ⟨h.1, h.2.1, h.2.2.1, hvw _ h.2.2.2.1, ih h.2.2.2.2⟩
    | install m io => exact ⟨h.1, h.2.1, hvw _ h.2.2.1, ih h.2.2.2⟩
    | build => exact ih h

theorem SmOk.append {V : Option LogId → Prop} {p r : Option LogId} {cs ds : List SmCmd} :
    SmOk V p (cs ++ ds) r ↔ ∃ q, SmOk V p cs q ∧ SmOk V q ds r := by
  induction cs generalizing p with
  | nil => exact ⟨fun h => ⟨p, rfl, h⟩, fun ⟨q, h1, h2⟩ => by cases h1; exact h2⟩
  | cons c cs ih =>
    cases c with
    | apply f l => simp only [List.cons_append, SmOk, ih]; tauto
    | install m io => simp only [List.cons_append, SmOk, ih]; tauto
    | build => simp only [List.cons_append, SmOk, ih]

/-- not greater, both in the order of log ids and by index -/
def LeI (a b : Option LogId) : Prop := a ≤ b ∧ nextIndex a ≤ nextIndex b

theorem LeI.trans {a b c : Option LogId} (h : LeI a b) (k : LeI b c) : LeI a c :=
  ⟨le_trans h.1 k.1, Nat.le_trans h.2 k.2⟩
theorem LeI.refl (a : Option LogId) : LeI a a := ⟨le_refl _, Nat.le_refl _⟩
theorem _root_.Openraft.Engine.Le2.leI {a b : Option LogId} (h : Le2 a b) : LeI a b := ⟨h.le, h.next⟩

/-- the committed position that was saved last -/
def saved (c : Option LogId) (cs : List Cmd) : Option LogId :=
  cs.foldl (fun c x => match x with | .saveCommitted l => some l | _ => c) c

/-- log store and disk -/
structure DiskInv (g0 : Gh) (c0 : Option LogId) (P S : List Cmd) (n : Node) : Prop where
  rd : n.rd = (g0.runs (P ++ S)).store
  pend : n.pend = S.filterMap opOf
  store : n.disk.store = (g0.runs P).store
  vote : n.disk.vote = (g0.runs P).vote
  novote : ∀ v, Cmd.saveVote v ∉ S
  purged : LeI n.rd.purged n.sm.snap.lastLogId
  committed : n.disk.committed = saved c0 P

/-- what is reported as flushed, or will be -/
structure FlInv (a0 : IOId) (P S : List Cmd) (n : Node) : Prop where
  flushed : ∀ f, n.eng.st.io.prog.flushed = some f → Fl a0 P S n.sm.kept f
  local_ : ∀ f, Note.localIO f ∈ n.rx → Fl a0 P S n.sm.kept f ∧ (f.last = none ∨ ∃ c ∈ P ++ S, c.reports = some f)
  inst : ∀ f m, Note.installed f m ∈ n.rx → Fl a0 P S n.sm.kept f
  queued : ∀ m f, SmCmd.install m f ∈ n.smq → Fl a0 P S m.lastLogId f

/-- the state machine and what is reported of it -/
structure SmInv (g0 : Gh) (s0 : Option LogId) (cs : List Cmd) (n : Node) : Prop where
  chain : SmOk (ComVal g0 cs) n.sm.applied n.smq (g0.runs cs).com
  cur : ComVal g0 cs n.sm.applied
  snap : n.sm.snap.lastLogId ≤ n.sm.applied
  ioSnap : n.eng.st.io.snapshot ≤ n.sm.snap.lastLogId
  ioApp : n.eng.st.io.applied ≤ n.sm.applied
  ioAppV : ComVal g0 cs n.eng.st.io.applied
  builds : ∀ m ∈ n.builds, ComVal g0 cs m.lastLogId ∧ m.lastLogId ≤ n.sm.applied
  built : ∀ m, Note.built m ∈ n.rx → ComVal g0 cs m.lastLogId ∧ m.lastLogId ≤ n.sm.snap.lastLogId
  inst : ∀ f m, Note.installed f m ∈ n.rx → ComVal g0 cs m.lastLogId ∧ m.lastLogId ≤ n.sm.snap.lastLogId
  appl : ∀ l es, Note.applied l es ∈ n.rx → ComVal g0 cs (some l) ∧ some l ≤ n.sm.applied
  snapV : n.sm.snap.lastLogId = s0 ∨ ComVal g0 cs n.sm.snap.lastLogId

/-- the log at the start is consecutive and has no entry that is beyond the position of the state machine
or the snapshot but not greater; the saved committed position is in the log or purged -/
structure Start (g0 : Gh) (a0 : IOId) (s0 c0 : Option LogId) : Prop where
  row : g0.Row
  first : g0.First
  com : g0.Below g0.com
  snap : g0.Below s0
  bnd : Bnd g0 a0
  sav : Le2 c0 g0.com
  savIn : ∀ x, c0 = some x → x ∈ g0.ids ∨ Le2 c0 g0.store.purged

/-- the invariant. `g0`, `a0`, `s0`: the log store, the accepted IO and the snapshot at the start;
`c0`: the saved committed position at the start. -/
structure RInv (g0 : Gh) (a0 : IOId) (s0 c0 : Option LogId) (P S : List Cmd) (n : Node) : Prop where
  flow : Flow g0 a0 s0 n.eng
  done : n.done ≤ n.eng.out.length
  split : n.eng.out.take n.done = P ++ S
  d : DiskInv g0 c0 P S n
  f : FlInv a0 P S n
  s : SmInv g0 s0 (P ++ S) n
  self : ∀ v, Note.selfVote v ∈ n.rx → v ≤ (g0.runs P).vote
  z : Start g0 a0 s0 c0

theorem vote_runs_same (cs : List Cmd) (g : Gh) (hn : ∀ v, Cmd.saveVote v ∉ cs) : (g.runs cs).vote = g.vote := by
  induction cs generalizing g with
  | nil => rfl
  | cons c cs ih =>
    refine (ih (g.run c) fun v hv => hn v (by simp [hv])).trans ?_
    cases c with
    | saveVote v => exact absurd (by simp) (hn v)
    | sm c => cases c <;> rfl
    | _ => rfl

theorem Sm.kept_le {s : Sm} (h : s.snap.lastLogId ≤ s.applied) : s.snap.lastLogId ≤ s.kept := by
  unfold Sm.kept; split
  · exact h
  · exact le_refl _

theorem le_applied {s : Sm} (h : s.snap.lastLogId ≤ s.applied) : s.kept ≤ s.applied := by
  unfold Sm.kept; split
  · exact le_refl _
  · exact h

namespace RInv
variable {g0 : Gh} {a0 : IOId} {s0 c0 : Option LogId} {P S : List Cmd} {n n' : Node} {dbg : Bool}

theorem rest (h : RInv g0 a0 s0 c0 P S n) : n.eng.out = P ++ S ++ n.eng.out.drop n.done := by
  rw [← h.split, List.take_append_drop]

theorem oks (h : RInv g0 a0 s0 c0 P S n) : g0.Oks (P ++ S) := by
  have := h.flow.oks
  rw [h.rest, Gh.oks_append] at this
  exact this.1

theorem coks (h : RInv g0 a0 s0 c0 P S n) : COks g0 a0 (P ++ S) := by
  have := h.flow.ios
  rw [h.rest, COks_append] at this
  exact this.1

theorem head (h : RInv g0 a0 s0 c0 P S n) {c : Cmd} (hc : n.head = some c) :
    (g0.runs (P ++ S)).Ok c ∧ COk (g0.runs (P ++ S)) (lvls a0 (P ++ S)) c ∧ n.eng.out.take (n.done + 1) = P ++ S ++ [c] ∧
    n.done + 1 ≤ n.eng.out.length := by
  unfold Node.head at hc
  have hlt := List.getElem?_eq_some_iff.1 hc
  obtain ⟨hlt, hget⟩ := hlt
  have hdrop : n.eng.out.drop n.done = c :: n.eng.out.drop (n.done + 1) := by
    rw [List.drop_eq_getElem_cons hlt, hget]
  have h1 := h.flow.oks
  rw [h.rest, Gh.oks_append, hdrop] at h1
  have h2 := h.flow.ios
  rw [h.rest, COks_append, hdrop] at h2
  refine ⟨h1.2.1, h2.2.1, ?_, hlt⟩
  rw [List.take_succ_eq_append_getElem hlt, h.split, hget]

/-- the vote on disk is the one of the commands executed -/
theorem disk_vote (h : RInv g0 a0 s0 c0 P S n) : n.disk.vote = (g0.runs (P ++ S)).vote := by
  rw [h.d.vote, Gh.runs_append]
  exact (vote_runs_same S _ h.d.novote).symm

/-! ## the engine handles something -/

theorem eng {e : Eng} (h : RInv g0 a0 s0 c0 P S n) (hf : Flow g0 a0 s0 e) (hg : n.eng.out <+: e.out)
    (hfl : ∀ f, e.st.io.prog.flushed = some f → Fl a0 P S n.sm.kept f) (hs : e.st.io.snapshot ≤ n.sm.snap.lastLogId)
    (ha : e.st.io.applied ≤ n.sm.applied) (hv : ComVal g0 (P ++ S) e.st.io.applied) :
    RInv g0 a0 s0 c0 P S { n with eng := e } := by
  obtain ⟨cs, hcs⟩ := hg
  refine ⟨hf, ?_, ?_, ⟨h.d.rd, h.d.pend, h.d.store, h.d.vote, h.d.novote, h.d.purged, h.d.committed⟩, ⟨hfl, h.f.local_, h.f.inst, h.f.queued⟩,
    ⟨h.s.chain, h.s.cur, h.s.snap, hs, ha, hv, h.s.builds, h.s.built, h.s.inst, h.s.appl, h.s.snapV⟩, h.self, h.z⟩
  · show n.done ≤ e.out.length
    rw [← hcs, List.length_append]; exact Nat.le_add_right_of_le h.done
  · show e.out.take n.done = _
    rw [← hcs, List.take_append_of_le_length h.done]; exact h.split

theorem notes {xs : List Note} {x : Note} (h : RInv g0 a0 s0 c0 P S n) (hx : n.rx = x :: xs) :
    RInv g0 a0 s0 c0 P S { n with rx := xs } := by
  have hm : ∀ y, y ∈ xs → y ∈ n.rx := fun y hy => by rw [hx]; exact List.mem_cons_of_mem _ hy
  exact ⟨h.flow, h.done, h.split, ⟨h.d.rd, h.d.pend, h.d.store, h.d.vote, h.d.novote, h.d.purged, h.d.committed⟩,
    ⟨h.f.flushed, fun f hf => h.f.local_ f (hm _ hf), fun f m hf => h.f.inst f m (hm _ hf), h.f.queued⟩,
    ⟨h.s.chain, h.s.cur, h.s.snap, h.s.ioSnap, h.s.ioApp, h.s.ioAppV, h.s.builds, fun m hf => h.s.built m (hm _ hf),
      fun f m hf => h.s.inst f m (hm _ hf), fun l es hf => h.s.appl l es (hm _ hf), h.s.snapV⟩, fun v hf => h.self v (hm _ hf), h.z⟩

/-- inputs that report nothing -/
theorem input {e : Eng} {i : Input} {now : Nat} (h : RInv g0 a0 s0 c0 P S n) (ho : InputOk n.eng i) (hi : i.noReport = true)
    (hr : n.eng.input dbg now i = .ok e) : RInv g0 a0 s0 c0 P S { n with eng := e } := by
  have hst : e.reported = n.eng.reported := Eng.stay_input n.eng i hi e hr
  have h1 : e.st.io.prog.flushed = n.eng.st.io.prog.flushed := congrArg (·.2.1) hst
  have h2 : e.st.io.snapshot = n.eng.st.io.snapshot := congrArg (·.2.2.1) hst
  have h3 : e.st.io.applied = n.eng.st.io.applied := congrArg (·.2.2.2.1) hst
  have hf := h.flow.step ho (fun m hm => by subst hm; cases hi) hr
  exact h.eng hf (Eng.grow_input _ _ _ hr).2 (by rw [h1]; exact h.f.flushed) (by rw [h2]; exact h.s.ioSnap)
    (by rw [h3]; exact h.s.ioApp) (by rw [h3]; exact h.s.ioAppV)

theorem held_known {g0 : Gh} {e : Eng} (h : LM g0 e) {o : Option LogId} (hh : Held (g0.runs e.out) o) : KnownO e.st.lv o := by
  intro x hx
  rcases hh x hx with h1 | h1
  · left; rw [h.log.cpl]; exact List.mem_append_right _ h1
  · right
    rw [h.log.stp] at h1
    refine le_trans h1.1 ?_
    cases hp : e.st.lv.lastPurged with
    | none => exact OptOrd.none_le' _
    | some p =>
      have hpm := h.log.purged_mem hp
      have hpc := Eng.purged_le_com h
      have hpn : e.st.purgedNext = nextIndex e.st.lv.lastPurged := h.log.pn
      rw [hp] at hpn
      have hpn : e.st.purgedNext = p.index + 1 := hpn
      cases hc : e.st.lv.committed with
      | none =>
        have hc : e.st.committed = none := hc
        rw [hc] at hpc; simp at hpc; omega
      | some c =>
        have hcm := h.log.comIn c hc
        have hc : e.st.committed = some c := hc
        rw [hc] at hpc; simp at hpc
        exact show p ≤ c from (h.log.cons.le_iff hpm hcm).2 (by omega)

/-- an id that the log has or had is not beyond its end -/
theorem held_index {g0 : Gh} {e : Eng} (h : LM g0 e) {o : Option LogId} (hh : Held (g0.runs e.out) o) :
    nextIndex o ≤ nextIndex e.st.lastLogId := by
  cases o with
  | none => exact Nat.zero_le _
  | some x =>
    show x.index + 1 ≤ nextIndex e.st.lv.last
    rcases hh x rfl with h1 | h1
    · exact h.log.le_last (by rw [h.log.cpl]; exact List.mem_append_right _ h1)
    · have h2 := h1.2
      rw [h.log.stp] at h2
      cases hp : e.st.lv.lastPurged with
      | none => rw [hp] at h2; simp at h2
      | some p =>
        rw [hp] at h2
        have h2 : x.index < p.index + 1 := h2
        have h3 : p.index < nextIndex e.st.lv.last := h.log.le_last (h.log.purged_mem hp)
        omega

/-- a notification may be handled -/
theorem noteOk (h : RInv g0 a0 s0 c0 P S n) {f : IOId} (hf : Note.localIO f ∈ n.rx) : InputOk n.eng (.localIO f) := by
  intro hc hm
  obtain ⟨_, hr⟩ := h.f.local_ f hf
  rcases hr with hr | ⟨c, hc1, hc2⟩
  · intro x hx; rw [hr] at hx; cases hx
  · unfold Eng.voteMatch at hm
    rw [if_pos hc] at hm
    cases hl : n.eng.leader with
    | none => rw [hl] at hm; cases hm
    | some l =>
      rw [hl] at hm
      have hv : l.vote = f.vote := by simpa using hm
      refine held_known h.flow.inv.lm (h.flow.lead l hl c ?_ f hc2 hv.symm)
      rw [h.rest]; exact List.mem_append_left _ hc1

theorem note {now : Nat} (h : RInv g0 a0 s0 c0 P S n) {x : Note} {xs : List Note} (hx : n.rx = x :: xs)
    (hr : Node.handle dbg now { n with rx := xs } x = .ok n') : RInv g0 a0 s0 c0 P S n' := by
  have hmem : x ∈ n.rx := by rw [hx]; simp
  have h' := h.notes hx
  cases x with
  | localIO io =>
    simp only [Node.handle, out_bind, lift_ok, out_pure] at hr
    obtain ⟨e, he, hr⟩ := hr
    subst hr
    have ho := h.noteOk hmem
    have hf := h.flow.step ho (fun m hm => by cases hm) he
    obtain ⟨h1, h2, h3⟩ := Eng.localIO_reports he
    refine h'.eng hf (Eng.grow_input _ _ _ he).2 ?_ (by rw [h2]; exact h.s.ioSnap) (by rw [h3]; exact h.s.ioApp)
      (by rw [h3]; exact h.s.ioAppV)
    intro f hf'
    rw [h1] at hf'
    cases hf'
    exact (h.f.local_ io hmem).1
  | selfVote v =>
    simp only [Node.handle, out_bind, lift_ok, out_pure] at hr
    obtain ⟨e, he, hr⟩ := hr
    subst hr
    refine h'.input ?_ rfl he
    intro _
    have h1 := h.self v hmem
    have h2 : (g0.runs P).vote ≤ (g0.runs n.eng.out).vote := by
      have := h.flow.oks
      rw [h.rest, List.append_assoc, Gh.oks_append] at this
      rw [h.rest, List.append_assoc, Gh.runs_append]
      exact Gh.vote_runs this.2
    rw [h.flow.inv.pj.gv] at h2
    exact le_trans h1 h2
  | built m =>
    simp only [Node.handle, out_bind, lift_ok, out_pure] at hr
    obtain ⟨e, he, hr⟩ := hr
    subst hr
    have hb := h.s.built m hmem
    have hval : ComVal g0 n.eng.out m.lastLogId := by rw [h.rest]; exact hb.1.append
    have hf := h.flow.step (i := .built m) (h.flow.builtOk hval) (fun k hk => by cases hk; exact hval) he
    obtain ⟨h1, h2, h3⟩ := Eng.built_reports he
    exact h'.eng hf (Eng.grow_input _ _ _ he).2 (by rw [h1]; exact h.f.flushed) (by rw [h2]; exact hb.2)
      (by rw [h3]; exact h.s.ioApp) (by rw [h3]; exact h.s.ioAppV)
  | installed io m =>
    simp only [Node.handle, out_bind, lift_ok, out_pure] at hr
    obtain ⟨e, he, hr⟩ := hr
    subst hr
    have hb := h.s.inst io m hmem
    have hf := h.flow.step (i := .installed io m) trivial (fun k hk => by cases hk) he
    obtain ⟨h1, h2, h3⟩ := Eng.installed_reports he
    refine h'.eng hf (Eng.grow_input _ _ _ he).2 ?_ (by rw [h2]; exact hb.2) (by rw [h3]; exact le_trans hb.2 h.s.snap)
      (by rw [h3]; exact hb.1)
    intro f hf'
    rw [h1] at hf'
    cases hf'
    exact h.f.inst io m hmem
  | applied l es =>
    simp only [Node.handle, out_bind, lift_ok, out_pure] at hr
    obtain ⟨e, he, hr⟩ := hr
    subst hr
    have hb := h.s.appl l es hmem
    have hf := h.flow.step (i := .applied l) trivial (fun k hk => by cases hk) he
    obtain ⟨h1, h2, h3⟩ := Eng.applied_reports he
    have h4 := h'.eng hf (Eng.grow_input _ _ _ he).2 (by rw [h1]; exact h.f.flushed) (by rw [h2]; exact h.s.ioSnap)
      (by rw [h3]; exact hb.2) (by rw [h3]; exact hb.1)
    exact answer_inv h4 es
where
  answer_inv {n : Node} (h : RInv g0 a0 s0 c0 P S n) (es : List Ent) : RInv g0 a0 s0 c0 P S (n.answer es) := by
    induction es generalizing n with
    | nil => exact h
    | cons e es ih =>
      unfold Node.answer
      refine ih ?_
      split
      · exact ⟨h.flow, h.done, h.split, ⟨h.d.rd, h.d.pend, h.d.store, h.d.vote, h.d.novote, h.d.purged, h.d.committed⟩,
          ⟨h.f.flushed, h.f.local_, h.f.inst, h.f.queued⟩,
          ⟨h.s.chain, h.s.cur, h.s.snap, h.s.ioSnap, h.s.ioApp, h.s.ioAppV, h.s.builds, h.s.built, h.s.inst, h.s.appl, h.s.snapV⟩, h.self, h.z⟩
      · exact h

end RInv
end Openraft.Runtime
