import Verif.Runtime.Inv

/-!
# The invariant of a running node holds at every event
-/

set_option autoImplicit false

namespace Openraft.Runtime
open Openraft.Engine
open Openraft.Repl (Panic dassert)
open Openraft.Cluster (Payload)

/-! ## writes and the abstract store -/

theorem store_run (g : Gh) (c : Cmd) (d : Disk) (hd : d.store = g.store) :
    ((opOf c).toList.foldl Disk.write d).store = (g.run c).store := by
  cases c with
  | append v es =>
    simp only [opOf]
    cases hl : es.getLast? with
    | none =>
      rw [List.getLast?_eq_none_iff] at hl
      subst hl
      simp [Gh.run, LogStore.append, hd]
    | some x => simp [Gh.run, Disk.write, hd]
  | truncate s => simp [opOf, Gh.run, Disk.write, hd]
  | purge u => simp [opOf, Gh.run, Gh.purge, Disk.write, hd]
  | saveCommitted s => simp [opOf, Gh.run, Disk.write, hd]
  | sm c => cases c <;> exact hd
  | _ => exact hd

theorem store_runs (g : Gh) (cs : List Cmd) (d : Disk) (hd : d.store = g.store) :
    ((cs.filterMap opOf).foldl Disk.write d).store = (g.runs cs).store := by
  induction cs generalizing g d with
  | nil => exact hd
  | cons c cs ih =>
    have h1 := store_run g c d hd
    have h2 := ih (g.run c) _ h1
    rw [← List.foldl_append] at h2
    refine Eq.trans ?_ h2
    congr 2
    cases h : opOf c <;> simp [List.filterMap_cons, h]

theorem write_vote (ops : List DiskOp) (d : Disk) : (ops.foldl Disk.write d).vote = d.vote := by
  induction ops generalizing d with
  | nil => rfl
  | cons op ops ih => rw [List.foldl_cons, ih]; cases op <;> rfl

theorem saved_append (c : Option LogId) (a b : List Cmd) : saved c (a ++ b) = saved (saved c a) b := by simp [saved]

theorem saved_snoc_vote (c : Option LogId) (a : List Cmd) (v : Vote) : saved c (a ++ [.saveVote v]) = saved c a := by simp [saved]

theorem saved_writes (cs : List Cmd) (d : Disk) : ((cs.filterMap opOf).foldl Disk.write d).committed = saved d.committed cs := by
  induction cs generalizing d with
  | nil => rfl
  | cons c cs ih =>
    show _ = saved (saved d.committed [c]) cs
    have h1 : ((opOf c).toList.foldl Disk.write d).committed = saved d.committed [c] := by
      cases c with
      | append v es => simp only [opOf]; cases es.getLast? <;> rfl
      | _ => rfl
    rw [← h1, ← ih]
    cases h : opOf c <;> simp [List.filterMap_cons, h]

/-- the callback of a write reports the id of the command -/
theorem note_of_op {c : Cmd} {op : DiskOp} {x : Note} (h : opOf c = some op) (hx : x ∈ op.note) :
    ∃ io, x = .localIO io ∧ c.hard = some io ∧ c.reports = some io := by
  cases c with
  | append v es =>
    simp only [opOf, Option.map_eq_some_iff] at h
    obtain ⟨y, hy, rfl⟩ := h
    simp only [DiskOp.note, List.mem_singleton] at hx
    exact ⟨_, hx, by simp [Cmd.hard, hy], by simp [Cmd.reports, hy]⟩
  | truncate s => simp only [opOf, Option.some.injEq] at h; subst h; cases hx
  | purge s => simp only [opOf, Option.some.injEq] at h; subst h; cases hx
  | saveCommitted s => simp only [opOf, Option.some.injEq] at h; subst h; cases hx
  | _ => cases h

namespace RInv
variable {g0 : Gh} {a0 : IOId} {s0 c0 : Option LogId} {P S : List Cmd} {n n' n1 : Node} {dbg : Bool} {c : Cmd}

/-! ## a command is executed -/

theorem flow_frame (h : RInv g0 a0 s0 c0 P S n) (hf : ExecFrame n n1) : Flow g0 a0 s0 n1.eng := by
  obtain ⟨p, x, h1, h2, h3⟩ := hf.eng
  rw [h1]
  exact h.flow.same ((Eng.frame_io (e := n.eng) { n.eng.st.io with prog := p, purged := x } h2).inv h.flow.inv) rfl h2 rfl rfl

theorem push (h : RInv g0 a0 s0 c0 P S n) (hc : n.head = some c) (hv : ∀ v, c ≠ .saveVote v) (hf : ExecFrame n n1)
    (hrd : n1.rd = ((g0.runs (P ++ S)).run c).store) (hpd : n1.pend = n.pend ++ (opOf c).toList) (hdk : n1.disk = n.disk)
    (hpg : LeI n1.rd.purged n.sm.snap.lastLogId) (hsm : n1.sm = n.sm) (hbd : n1.builds = n.builds)
    (hrx : ∀ x ∈ n1.rx, x ∈ n.rx ∨ ∃ f, x = .localIO f ∧ Fl a0 P (S ++ [c]) n.sm.kept f ∧ (f.last = none ∨ c.reports = some f))
    (hq : ∃ qs, n1.smq = n.smq ++ qs ∧ SmOk (ComVal g0 (P ++ S ++ [c])) (g0.runs (P ++ S)).com qs (g0.runs (P ++ S ++ [c])).com ∧
      ∀ m f, SmCmd.install m f ∈ qs → Fl a0 P (S ++ [c]) m.lastLogId f) :
    RInv g0 a0 s0 c0 P (S ++ [c]) { n1 with done := n1.done + 1 } := by
  obtain ⟨k1, k2, k3, k4⟩ := h.head hc
  have hflow := h.flow_frame hf
  obtain ⟨p, x, he, hacc, hfl⟩ := hf.eng
  have hout : n1.eng.out = n.eng.out := by rw [he]
  have hap : P ++ (S ++ [c]) = P ++ S ++ [c] := by rw [List.append_assoc]
  have hio1 : n1.eng.st.io.prog.flushed = n.eng.st.io.prog.flushed := by rw [he]; exact hfl
  have hio2 : n1.eng.st.io.snapshot = n.eng.st.io.snapshot := by rw [he]
  have hio3 : n1.eng.st.io.applied = n.eng.st.io.applied := by rw [he]
  have hnote : ∀ x, x ∈ n1.rx → (∀ f, x ≠ .localIO f) → x ∈ n.rx := by
    intro x hx hne
    rcases hrx x hx with h1 | ⟨f, h1, _⟩
    · exact h1
    · exact absurd h1 (hne f)
  obtain ⟨qs, hq1, hq2, hq3⟩ := hq
  refine ⟨hflow, ?_, ?_, ⟨?_, ?_, ?_, ?_, ?_, ?_, ?_⟩, ⟨?_, ?_, ?_, ?_⟩, ?_, ?_, h.z⟩
  · show n1.done + 1 ≤ n1.eng.out.length
    rw [hout, hf.done]; exact k4
  · show n1.eng.out.take (n1.done + 1) = _
    rw [hout, hf.done, k3, hap]
  · show n1.rd = _
    rw [hrd, hap, Gh.runs_snoc]
  · show n1.pend = _
    rw [hpd, h.d.pend, List.filterMap_append]
    congr 1
  · show n1.disk.store = _
    rw [hdk]; exact h.d.store
  · show n1.disk.vote = _
    rw [hdk]; exact h.d.vote
  · intro v hm
    rcases List.mem_append.1 hm with hm | hm
    · exact h.d.novote v hm
    · exact hv v (List.mem_singleton.1 hm).symm
  · show LeI n1.rd.purged n1.sm.snap.lastLogId
    rw [hsm]; exact hpg
  · show n1.disk.committed = _
    rw [hdk]; exact h.d.committed
  · intro f hf'
    show Fl a0 P (S ++ [c]) n1.sm.kept f
    rw [hsm]
    exact (h.f.flushed f (hio1 ▸ hf')).snoc k2
  · intro f hf'
    show Fl a0 P (S ++ [c]) n1.sm.kept f ∧ _
    rw [hsm]
    rcases hrx _ hf' with h1 | ⟨f', h1, h2, h3⟩
    · obtain ⟨h2, h3⟩ := h.f.local_ f h1
      refine ⟨h2.snoc k2, h3.imp id ?_⟩
      rintro ⟨d, hd, hd2⟩
      exact ⟨d, by rw [hap]; exact List.mem_append_left _ hd, hd2⟩
    · cases h1
      exact ⟨h2, h3.imp id fun h4 => ⟨c, by simp, h4⟩⟩
  · intro f m hf'
    show Fl a0 P (S ++ [c]) n1.sm.kept f
    rw [hsm]
    exact (h.f.inst f m (hnote _ hf' (by simp))).snoc k2
  · intro m f hm
    have hm : SmCmd.install m f ∈ n1.smq := hm
    rw [hq1] at hm
    rcases List.mem_append.1 hm with hm | hm
    · exact (h.f.queued m f hm).snoc k2
    · exact hq3 m f hm
  · rw [hap]
    refine ⟨?_, ?_, ?_, ?_, ?_, ?_, ?_, ?_, ?_, ?_, ?_⟩
    · show SmOk _ n1.sm.applied n1.smq _
      rw [hsm, hq1, SmOk.append]
      exact ⟨_, h.s.chain.mono fun x hx => hx.append, hq2⟩
    · show ComVal _ _ n1.sm.applied
      rw [hsm]; exact h.s.cur.append
    · show n1.sm.snap.lastLogId ≤ n1.sm.applied
      rw [hsm]; exact h.s.snap
    · show n1.eng.st.io.snapshot ≤ n1.sm.snap.lastLogId
      rw [hsm, hio2]; exact h.s.ioSnap
    · show n1.eng.st.io.applied ≤ n1.sm.applied
      rw [hsm, hio3]; exact h.s.ioApp
    · show ComVal _ _ n1.eng.st.io.applied
      rw [hio3]; exact h.s.ioAppV.append
    · intro m hm
      have hm : m ∈ n1.builds := hm
      rw [hbd] at hm
      obtain ⟨h1, h2⟩ := h.s.builds m hm
      refine ⟨h1.append, ?_⟩
      show _ ≤ n1.sm.applied
      rw [hsm]; exact h2
    · intro m hm
      obtain ⟨h1, h2⟩ := h.s.built m (hnote _ hm (by simp))
      refine ⟨h1.append, ?_⟩
      show _ ≤ n1.sm.snap.lastLogId
      rw [hsm]; exact h2
    · intro f m hm
      obtain ⟨h1, h2⟩ := h.s.inst f m (hnote _ hm (by simp))
      refine ⟨h1.append, ?_⟩
      show _ ≤ n1.sm.snap.lastLogId
      rw [hsm]; exact h2
    · intro l es hm
      obtain ⟨h1, h2⟩ := h.s.appl l es (hnote _ hm (by simp))
      refine ⟨h1.append, ?_⟩
      show _ ≤ n1.sm.applied
      rw [hsm]; exact h2
    · show n1.sm.snap.lastLogId = _ ∨ ComVal _ _ n1.sm.snap.lastLogId
      rw [hsm]; exact h.s.snapV.imp id fun hx => hx.append
  · intro v hm
    exact h.self v (hnote _ hm (by simp))

/-- commands that touch neither log, disk nor state machine -/
theorem push_quiet (h : RInv g0 a0 s0 c0 P S n) (hc : n.head = some c) (hv : ∀ v, c ≠ .saveVote v) (hf : ExecFrame n n1)
    (hst : ((g0.runs (P ++ S)).run c).store = (g0.runs (P ++ S)).store) (hco : ((g0.runs (P ++ S)).run c).com = (g0.runs (P ++ S)).com)
    (hop : opOf c = none)
    (h1 : n1.rd = n.rd) (h2 : n1.pend = n.pend) (h3 : n1.disk = n.disk) (h4 : n1.sm = n.sm) (h5 : n1.builds = n.builds)
    (h6 : n1.rx = n.rx) (h7 : n1.smq = n.smq) : RInv g0 a0 s0 c0 P (S ++ [c]) { n1 with done := n1.done + 1 } := by
  refine h.push hc hv hf (by rw [h1, hst]; exact h.d.rd) (by rw [h2, hop]; simp) h3 (by rw [h1]; exact h.d.purged) h4 h5
    (fun x hx => Or.inl (h6 ▸ hx)) ⟨[], by rw [h7]; simp, ?_, fun m f hm => by cases hm⟩
  show (g0.runs (P ++ S)).com = (g0.runs (P ++ S ++ [c])).com
  rw [Gh.runs_snoc, hco]

/-- a write that the state machine does not see -/
theorem push_write (h : RInv g0 a0 s0 c0 P S n) (hc : n.head = some c) (hv : ∀ v, c ≠ .saveVote v) (hf : ExecFrame n n1) {op : DiskOp}
    (hco : ((g0.runs (P ++ S)).run c).com = (g0.runs (P ++ S)).com) (hop : opOf c = some op)
    (h1 : n1.rd = (Disk.write ⟨n.disk.vote, none, n.rd⟩ op).store) (h2 : n1.pend = n.pend ++ [op]) (h3 : n1.disk = n.disk)
    (h4 : n1.sm = n.sm) (h5 : n1.builds = n.builds) (h6 : n1.rx = n.rx) (h7 : n1.smq = n.smq)
    (hpg : LeI n1.rd.purged n.sm.snap.lastLogId) : RInv g0 a0 s0 c0 P (S ++ [c]) { n1 with done := n1.done + 1 } := by
  refine h.push hc hv hf ?_ (by rw [h2, hop]; simp) h3 hpg h4 h5
    (fun x hx => Or.inl (h6 ▸ hx)) ⟨[], by rw [h7]; simp, ?_, fun m f hm => by cases hm⟩
  · have := store_run (g0.runs (P ++ S)) c ⟨n.disk.vote, none, n.rd⟩ h.d.rd
    rw [hop] at this
    rw [h1]; exact this
  · show (g0.runs (P ++ S)).com = (g0.runs (P ++ S ++ [c])).com
    rw [Gh.runs_snoc, hco]

/-- writes not yet durable, with the vote of the level -/
theorem soft (h : RInv g0 a0 s0 c0 P S n) {d : Cmd} {io : IOId} (hd : d ∈ S) (hio : d.hard = some io) :
    io ≤ lvls a0 (P ++ S) ∧ io.vote = (lvls a0 (P ++ S)).vote ∧
    ∃ v es x, d = .append v es ∧ es.getLast? = some x ∧ io = IOId.newLog v (some x.id) ∧ ∀ y ∈ es, y.id ≤ x.id := by
  have hck := h.coks
  rw [COks_append] at hck
  refine ⟨?_, ?_, ?_⟩
  · rw [lvls_append]; exact hard_mem_le hck.2 hd hio
  · rw [lvls_append]; exact (hard_mem_vote hck.2 hd hio h.d.novote).symm
  · cases d with
    | append v es =>
      simp only [Cmd.hard, Option.map_eq_some_iff] at hio
      obtain ⟨x, hx, rfl⟩ := hio
      refine ⟨v, es, x, rfl, hx, rfl, ?_⟩
      intro y hy
      have hoks := h.oks
      rw [Gh.oks_append] at hoks
      obtain ⟨a, b, hab⟩ := List.append_of_mem hd
      rw [hab, Gh.oks_append] at hoks
      have hcons := (cons_append.1 hoks.2.2.1.2.1).2.1
      have hl : (es.map (·.id)).getLast? = some x.id := by simp [hx]
      have h1 := hcons.le_last hl (List.mem_map_of_mem hy)
      exact (hcons.le_iff (List.mem_map_of_mem hy) (List.mem_of_getLast? hl)).2 h1
    | saveVote v => exact absurd hd (h.d.novote v)
    | _ => cases hio

/-- the answer or the id of `updateIO` that waits for all writes is covered -/
theorem fl_wait (h : RInv g0 a0 s0 c0 P S n) {w : Option Cond} {c : Cmd} (hcd : c.condition = w) (hr : n.ready c = true)
    (hw : w = some (.ioFlushed (lvls a0 (P ++ S))) ∨ w = none ∧ (lvls a0 (P ++ S)).last = none) :
    ∀ d ∈ S, ∀ io', d.hard = some io' → Covered n.sm.kept d := by
  intro d hd io' hio'
  obtain ⟨h1, h2, v, es, x, rfl, hx, rfl, hall⟩ := h.soft hd hio'
  rcases hw with hw | ⟨hw, ha⟩
  · unfold Node.ready at hr
    rw [hcd, hw] at hr
    simp only [Node.holds, Bool.not_eq_true', decide_eq_false_iff_not] at hr
    cases hf : n.eng.st.io.prog.flushed with
    | none => rw [hf] at hr; exact absurd OptOrd.none_lt_some' hr
    | some f =>
      rw [hf] at hr
      have hle : lvls a0 (P ++ S) ≤ f := not_lt.1 fun hlt => hr (OptOrd.some_lt_some'.2 hlt)
      exact (h.f.flushed f hf).2 _ hd _ hio' (le_trans h1 hle)
  · exfalso
    rcases IOId.le_def.1 h1 with h3 | ⟨_, h3⟩
    · rw [h2] at h3; exact lt_irrefl _ h3
    · rw [ha] at h3
      exact OptOrd.not_some_le_none' h3

/-- the snapshot of the state machine and a position of the stream -/
theorem snap_le (h : RInv g0 a0 s0 c0 P S n) {x : Option LogId} (hx : ComVal g0 (P ++ S) x) (hle : n.sm.snap.lastLogId ≤ x) :
    Le2 n.sm.snap.lastLogId x := by
  rcases h.s.snapV with h1 | h1
  · rw [h1]; exact h.flow.snap0.trans (hx.ge h.oks)
  · exact h1.le_iff h.oks hx hle

theorem snap_ge (h : RInv g0 a0 s0 c0 P S n) {x : Option LogId} (hx : ComVal g0 (P ++ S) x) (hle : x ≤ n.sm.snap.lastLogId) :
    Le2 x n.sm.snap.lastLogId := by
  rcases h.s.snapV with h1 | h1
  · rw [h1] at hle ⊢
    have h2 := h.flow.snap0.trans (hx.ge h.oks)
    exact Or.inl (le_antisymm hle h2.le)
  · exact hx.le_iff h.oks h1 hle

theorem snap_app (h : RInv g0 a0 s0 c0 P S n) : Le2 n.sm.snap.lastLogId n.sm.applied := h.snap_le h.s.cur h.s.snap

/-- the snapshot covers entries by index too -/
theorem below_snap (h : RInv g0 a0 s0 c0 P S n) : (g0.runs (P ++ S)).Below n.sm.snap.lastLogId := by
  rcases h.s.snapV with h1 | ⟨a, b, h1, h2⟩
  · rw [h1]; exact h.z.snap.runs h.z.row h.oks h.flow.snap0
  · rw [← h2]
    have ho := h.oks
    rw [h1] at ho ⊢
    exact h.z.com.val h.z.row ho

theorem run_saveVote {v : Vote} (h : RInv g0 a0 s0 c0 P S n) (hc : n.head = some (.saveVote v)) (hr : n.exec dbg (.saveVote v) = .ok n1) :
    RInv g0 a0 s0 c0 (P ++ S ++ [.saveVote v]) [] { n1 with done := n1.done + 1 } := by
  have hf := exec_frame hr
  obtain ⟨k1, k2, k3, k4⟩ := h.head hc
  have hflow := h.flow_frame hf
  simp only [Node.exec, out_bind, out_pure] at hr
  obtain ⟨n2, h1, hr⟩ := hr
  rw [submit_ok h1] at hr
  subst hr
  clear h1
  have hap : P ++ S ++ [Cmd.saveVote v] ++ [] = P ++ S ++ [.saveVote v] := List.append_nil _
  have hrun : g0.runs (P ++ S ++ [.saveVote v]) = { g0.runs (P ++ S) with vote := v } := by rw [Gh.runs_snoc]; rfl
  have hrx : ∀ x ∈ n.rx ++ n.pend.flatMap DiskOp.note ++ [Note.localIO (IOId.new v), .selfVote v], x ∈ n.rx ∨
      (∃ f, x = .localIO f ∧ f ≤ lvls a0 (P ++ S ++ [.saveVote v]) ∧ (f.last = none ∨ ∃ d ∈ P ++ S, d.reports = some f)) ∨
      x = .selfVote v := by
    intro x hx
    rcases List.mem_append.1 hx with hx | hx
    · rcases List.mem_append.1 hx with hx | hx
      · exact Or.inl hx
      · right; left
        obtain ⟨op, ho, hx⟩ := List.mem_flatMap.1 hx
        rw [h.d.pend] at ho
        obtain ⟨d, hd, hdo⟩ := List.mem_filterMap.1 ho
        obtain ⟨io, h2, h3, h4⟩ := note_of_op hdo hx
        have hm : d ∈ P ++ S := List.mem_append_right _ hd
        refine ⟨io, h2, ?_, Or.inr ⟨d, hm, h4⟩⟩
        rw [lvls_snoc]
        exact le_trans (hard_mem_le h.coks hm h3) (lvl_le k2)
    · simp only [List.mem_cons, List.not_mem_nil, or_false] at hx
      rcases hx with hx | hx
      · right; left
        refine ⟨_, hx, ?_, Or.inl rfl⟩
        rw [lvls_snoc]
        exact le_refl _
      · exact Or.inr (Or.inr hx)
  have hfl : ∀ k f, Fl a0 P S k f → Fl a0 (P ++ S ++ [.saveVote v]) [] k f := fun k f hf => hf.all k2
  refine ⟨hflow, ?_, ?_, ⟨?_, rfl, ?_, ?_, fun v hv => (by cases hv), h.d.purged, ?_⟩, ⟨?_, ?_, ?_, ?_⟩, ⟨?_, ?_, h.s.snap, h.s.ioSnap, h.s.ioApp, ?_, ?_, ?_, ?_, ?_, ?_⟩, ?_, h.z⟩
  · exact k4
  · show n.eng.out.take (n.done + 1) = _
    rw [k3, hap]
  · rw [hap, hrun]; exact h.d.rd
  · rw [hrun]
    show (n.pend.foldl Disk.write n.disk).store = (g0.runs (P ++ S)).store
    rw [h.d.pend, store_runs (g0.runs P) S n.disk h.d.store, Gh.runs_append]
  · rw [hrun]; rfl
  · show (n.pend.foldl Disk.write n.disk).committed = _
    rw [h.d.pend, saved_writes, h.d.committed, ← saved_append, saved_snoc_vote]
  · intro f hf'; exact hfl _ _ (h.f.flushed f hf')
  · intro f hf'
    rcases hrx _ hf' with h2 | ⟨f', h2, h3, h4⟩ | h2
    · obtain ⟨h3, h4⟩ := h.f.local_ f h2
      refine ⟨hfl _ _ h3, h4.imp id ?_⟩
      rintro ⟨d, hd, hd2⟩
      exact ⟨d, by rw [hap]; exact List.mem_append_left _ hd, hd2⟩
    · cases h2
      refine ⟨⟨by rw [hap]; exact h3, fun d hd => by cases hd⟩, h4.imp id ?_⟩
      rintro ⟨d, hd, hd2⟩
      exact ⟨d, by rw [hap]; exact List.mem_append_left _ hd, hd2⟩
    · cases h2
  · intro f m hf'
    rcases hrx _ hf' with h2 | ⟨f', h2, h3, h4⟩ | h2
    · exact hfl _ _ (h.f.inst f m h2)
    · cases h2
    · cases h2
  · intro m f hf'; exact hfl _ _ (h.f.queued m f hf')
  · rw [hap]
    have := h.s.chain.mono (W := ComVal g0 (P ++ S ++ [.saveVote v])) fun x hx => hx.append
    rw [hrun]; exact this
  · rw [hap]; exact h.s.cur.append
  · rw [hap]; exact h.s.ioAppV.append
  · rw [hap]; intro m hm
    exact ⟨(h.s.builds m hm).1.append, (h.s.builds m hm).2⟩
  · rw [hap]; intro m hm
    rcases hrx _ hm with h2 | ⟨f', h2, h3, h4⟩ | h2
    · exact ⟨(h.s.built m h2).1.append, (h.s.built m h2).2⟩
    · cases h2
    · cases h2
  · rw [hap]; intro f m hm
    rcases hrx _ hm with h2 | ⟨f', h2, h3, h4⟩ | h2
    · exact ⟨(h.s.inst f m h2).1.append, (h.s.inst f m h2).2⟩
    · cases h2
    · cases h2
  · rw [hap]; intro f m hm
    rcases hrx _ hm with h2 | ⟨f', h2, h3, h4⟩ | h2
    · exact ⟨(h.s.appl f m h2).1.append, (h.s.appl f m h2).2⟩
    · cases h2
    · cases h2
  · rw [hap]; exact h.s.snapV.imp id fun hx => hx.append
  · intro w hm
    rcases hrx _ hm with h2 | ⟨f', h2, h3, h4⟩ | h2
    · have h3 := h.self w h2
      rw [hrun]
      have h4 : (g0.runs P).vote = (g0.runs (P ++ S)).vote := by
        rw [Gh.runs_append, vote_runs_same _ _ h.d.novote]
      rw [h4] at h3
      exact le_trans h3 (le_of_lt k1)
    · cases h2
    · cases h2; rw [hrun]

theorem exec_keep (h : RInv g0 a0 s0 c0 P S n) (hc : n.head = some c) (hrd : n.ready c = true) (hsv : ∀ v, c ≠ .saveVote v) (hr : n.exec dbg c = .ok n1) :
    RInv g0 a0 s0 c0 P (S ++ [c]) { n1 with done := n1.done + 1 } := by
  have hf := exec_frame hr
  obtain ⟨k1, k2, k3, k4⟩ := h.head hc
  cases c with
  | updateIO w io =>
    have hf0 := hf
    simp only [Node.exec, out_bind, out_pure] at hr
    obtain ⟨n2, h1, hr⟩ := hr
    rw [submit_ok h1] at hr
    subst hr
    obtain ⟨hv, hw, hh⟩ := k2
    have hcov := h.fl_wait rfl hrd (hw.imp_left And.left)
    refine h.push hc (by simp) hf0 h.d.rd (by simp [opOf]) rfl h.d.purged rfl rfl ?_ ⟨[], by simp, ?_, fun m f hm => by cases hm⟩
    · intro x hx
      rcases List.mem_append.1 hx with hx | hx
      · exact Or.inl hx
      · right
        refine ⟨io, List.mem_singleton.1 hx, ⟨?_, ?_⟩, Or.inr rfl⟩
        · rw [← List.append_assoc, lvls_snoc]; exact le_max_right _ _
        · intro d hd io' hio' _
          rcases List.mem_append.1 hd with hd | hd
          · exact hcov d hd io' hio'
          · rw [List.mem_singleton] at hd; subst hd; cases hio'
    · show _ = _
      rw [Gh.runs_snoc]; rfl
  | append v es =>
    have hf0 := hf
    simp only [Node.exec, out_bind, out_pure, lift_ok, unwrap_ok] at hr
    obtain ⟨l, hl, n2, h1, hr⟩ := hr
    rw [submit_ok h1] at hr
    subst hr
    exact h.push_write hc (by simp) hf0 (op := .append (IOId.newLog v (some l.id)) es) rfl (by simp [opOf, hl]) rfl rfl rfl rfl rfl rfl rfl
      h.d.purged
  | saveVote v => exact absurd rfl (hsv v)
  | purge u =>
    have hf0 := hf
    simp only [Node.exec, out_pure] at hr
    subst hr
    refine h.push_write hc (by simp) hf0 (op := .purge u) rfl rfl rfl rfl rfl rfl rfl rfl rfl ?_
    show LeI (some u) n.sm.snap.lastLogId
    have hrd' : n.holds (.snapshot (some u)) = true := hrd
    simp only [Node.holds, Bool.not_eq_true', decide_eq_false_iff_not, not_lt] at hrd'
    have hle := le_trans hrd' h.s.ioSnap
    refine ⟨hle, ?_⟩
    rcases k1.2.2 with h1 | ⟨_, h1⟩
    · exact h.below_snap u h1 hle
    · rw [← h1] at hle ⊢
      exact (h.snap_ge (ComVal.last _ _) hle).next
  | truncate s =>
    have hf0 := hf
    simp only [Node.exec, out_pure] at hr
    subst hr
    exact h.push_write hc (by simp) hf0 (op := .truncate s) rfl rfl rfl rfl rfl rfl rfl rfl rfl h.d.purged
  | saveCommitted s =>
    have hf0 := hf
    simp only [Node.exec, out_pure] at hr
    subst hr
    exact h.push_write hc (by simp) hf0 (op := .saveCommitted s) rfl rfl rfl rfl rfl rfl rfl rfl rfl h.d.purged
  | sendVote v l =>
    simp only [Node.exec, out_bind, out_pure] at hr
    obtain ⟨_, _, hr⟩ := hr; subst hr
    exact h.push_quiet hc (by simp) hf rfl rfl rfl rfl rfl rfl rfl rfl rfl rfl
  | transfer v t l =>
    simp only [Node.exec, out_bind, out_pure] at hr
    obtain ⟨_, _, hr⟩ := hr; subst hr
    exact h.push_quiet hc (by simp) hf rfl rfl rfl rfl rfl rfl rfl rfl rfl rfl
  | replCommitted s =>
    simp only [Node.exec, out_pure] at hr; subst hr
    exact h.push_quiet hc (by simp) hf rfl rfl rfl rfl rfl rfl rfl rfl rfl rfl
  | heartbeat a b c =>
    simp only [Node.exec, out_pure] at hr; subst hr
    exact h.push_quiet hc (by simp) hf rfl rfl rfl rfl rfl rfl rfl rfl rfl rfl
  | apply a u =>
    have hf0 := hf
    simp only [Node.exec, out_bind, out_pure, lift_ok, unwrap_ok] at hr
    obtain ⟨first, hfi, _, _, hr⟩ := hr; subst hr
    obtain ⟨hpr, hmem, hni, hlt, _⟩ := k1
    refine h.push hc (by simp) hf0 h.d.rd (by simp [opOf]) rfl h.d.purged rfl rfl (fun x hx => Or.inl hx)
      ⟨[.apply first u], rfl, ?_, fun m f hm => by simp at hm⟩
    have hfx := ((Eng.getLogId_iff h.flow.inv.lm).1 hfi).2
    have hco : (g0.runs (P ++ S ++ [.apply a u])).com = some u := by rw [Gh.runs_snoc]; rfl
    refine ⟨by rw [hfx, hpr], hlt, hni, ?_, hco.symm⟩
    rw [← hco]; exact ComVal.last _ _
  | replicate t r =>
    simp only [Node.exec] at hr
    split at hr
    · rw [out_pure] at hr; subst hr
      exact h.push_quiet hc (by simp) hf rfl rfl rfl rfl rfl rfl rfl rfl rfl rfl
    · cases hr
  | rebuild ts =>
    simp only [Node.exec, Node.rebuild, out_bind] at hr
    obtain ⟨_, _, hr⟩ := hr
    split at hr
    · rw [out_pure] at hr; subst hr
      exact h.push_quiet hc (by simp) hf rfl rfl rfl rfl rfl rfl rfl rfl rfl rfl
    · cases hr
  | sm c =>
    cases c with
    | install m io =>
      have hf0 := hf
      simp only [Node.exec, out_bind, out_pure] at hr
      obtain ⟨n2, h1, hr⟩ := hr
      rw [submit_ok h1] at hr
      subst hr
      obtain ⟨⟨x, hx, hni, hlt, _⟩, _⟩ := k1
      have hio : io = ⟨(lvls a0 (P ++ S)).vote, m.lastLogId⟩ := k2
      refine h.push hc (by simp) hf0 h.d.rd (by simp [opOf]) rfl h.d.purged rfl rfl (fun x hx => Or.inl hx)
        ⟨[.install m io], rfl, ?_, ?_⟩
      · have hco : (g0.runs (P ++ S ++ [.sm (.install m io)])).com = m.lastLogId := by rw [Gh.runs_snoc]; rfl
        refine ⟨by rw [hx]; exact hlt, by rw [hx]; show _ < x.index + 1; omega, ?_, hco.symm⟩
        rw [← hco]; exact ComVal.last _ _
      · intro m' f hm
        simp only [List.mem_singleton, SmCmd.install.injEq] at hm
        obtain ⟨rfl, rfl⟩ := hm
        refine ⟨?_, ?_⟩
        · rw [← List.append_assoc, lvls_snoc]; exact le_max_right _ _
        · intro d hd io' hio' hle
          rcases List.mem_append.1 hd with hd | hd
          · obtain ⟨h1, h2, v, es, y, rfl, hy, rfl, hall⟩ := h.soft hd hio'
            intro z hz
            rw [hio] at hle
            rcases IOId.le_def.1 hle with h3 | ⟨_, h3⟩
            · exact absurd h3 (by rw [h2]; exact lt_irrefl _)
            · exact le_trans (show some z.id ≤ some y.id from hall z hz) h3
          · rw [List.mem_singleton] at hd; subst hd; cases hio'
    | build =>
      have hf0 := hf
      simp only [Node.exec, out_pure] at hr; subst hr
      refine h.push hc (by simp) hf0 h.d.rd (by simp [opOf]) rfl h.d.purged rfl rfl (fun x hx => Or.inl hx)
        ⟨[.build], rfl, ?_, fun m f hm => by simp at hm⟩
      show _ = _
      rw [Gh.runs_snoc]; rfl
    | apply a b => exact k2.elim
  | respond w tx r =>
    simp only [Node.exec, out_pure] at hr; subst hr
    exact h.push_quiet hc (by simp) hf rfl rfl rfl rfl rfl rfl rfl rfl rfl rfl

theorem exec (h : RInv g0 a0 s0 c0 P S n) (hc : n.head = some c) (hrd : n.ready c = true) (hr : n.exec dbg c = .ok n1) :
    ∃ P' S', RInv g0 a0 s0 c0 P' S' { n1 with done := n1.done + 1 } ∧ P' ++ S' = P ++ S ++ [c] ∧ P <+: P' := by
  by_cases hv : ∃ v, c = .saveVote v
  · obtain ⟨v, rfl⟩ := hv
    exact ⟨_, _, h.run_saveVote hc hr, by simp, by rw [List.append_assoc]; exact List.prefix_append _ _⟩
  · exact ⟨P, S ++ [c], h.exec_keep hc hrd (fun v hv' => hv ⟨v, hv'⟩) hr, by rw [List.append_assoc], List.prefix_refl _⟩

/-! ## a write becomes durable -/

/-- what the callback of a write reports -/
theorem flush_fl (h : RInv g0 a0 s0 c0 P S n) {S1 S2 : List Cmd} {k : Option LogId} {io : IOId} (hS : S = (S1 ++ [c]) ++ S2) (h2 : c.hard = some io) :
    Fl a0 (P ++ (S1 ++ [c])) S2 k io := by
  have hcat : P ++ (S1 ++ [c]) ++ S2 = P ++ S := by rw [List.append_assoc, ← hS]
  have hmem : c ∈ P ++ S := by rw [hS]; simp
  refine ⟨?_, ?_⟩
  · rw [hcat]; exact hard_mem_le h.coks hmem h2
  · intro d hd io' hio' hle
    exfalso
    have hck := h.coks
    rw [← hcat, ← List.append_assoc, COks_append] at hck
    have h4 := hard_mem_gt hck.2 hd hio'
    rw [lvls_snoc] at h4
    have h5 := hck.1
    rw [COks_append] at h5
    rw [(hard_lvl h5.2.1 h2).2] at h4
    exact absurd hle (not_le.2 h4)

theorem flush_at (h : RInv g0 a0 s0 c0 P S n) {S1 S2 : List Cmd} {op : DiskOp} {ops : List DiskOp} (hS : S = S1 ++ c :: S2)
    (hn : ∀ d ∈ S1, opOf d = none) (ho : opOf c = some op) (hr : S2.filterMap opOf = ops) :
    RInv g0 a0 s0 c0 (P ++ (S1 ++ [c])) S2 { n with disk := n.disk.write op, pend := ops, rx := n.rx ++ op.note } := by
  have hS' : S = (S1 ++ [c]) ++ S2 := by rw [hS]; simp
  have hcat : P ++ (S1 ++ [c]) ++ S2 = P ++ S := by rw [List.append_assoc, ← hS']
  have hops : (S1 ++ [c]).filterMap opOf = [op] := by
    rw [List.filterMap_append, List.filterMap_eq_nil_iff.2 hn]
    simp [ho]
  have hvote : (g0.runs (P ++ (S1 ++ [c]))).vote = (g0.runs P).vote := by
    rw [Gh.runs_append]
    exact vote_runs_same _ _ fun v hv => h.d.novote v (by rw [hS']; exact List.mem_append_left _ hv)
  have hfl : ∀ k f, Fl a0 P S k f → Fl a0 (P ++ (S1 ++ [c])) S2 k f := fun k f hf => hf.flush hS'
  have hrx : ∀ x ∈ n.rx ++ op.note, x ∈ n.rx ∨ ∃ io, x = .localIO io ∧ c.hard = some io ∧ c.reports = some io := by
    intro x hx
    rcases List.mem_append.1 hx with hx | hx
    · exact Or.inl hx
    · exact Or.inr (note_of_op ho hx)
  have hnote : ∀ x, x ∈ n.rx ++ op.note → (∀ f, x ≠ .localIO f) → x ∈ n.rx := by
    intro x hx hne
    rcases hrx x hx with h1 | ⟨f, h1, _⟩
    · exact h1
    · exact absurd h1 (hne f)
  refine ⟨h.flow, h.done, ?_, ⟨?_, hr.symm, ?_, ?_, ?_, h.d.purged, ?_⟩, ⟨?_, ?_, ?_, ?_⟩, ?_, ?_, h.z⟩
  · rw [hcat]; exact h.split
  · rw [hcat]; exact h.d.rd
  · have := store_runs (g0.runs P) (S1 ++ [c]) n.disk h.d.store
    rw [hops] at this
    rw [Gh.runs_append]; exact this
  · rw [hvote]
    show (n.disk.write op).vote = _
    rw [← h.d.vote]
    cases op <;> rfl
  · exact fun v hv => h.d.novote v (by rw [hS']; exact List.mem_append_right _ hv)
  · have := saved_writes (S1 ++ [c]) n.disk
    rw [hops] at this
    rw [saved_append, ← h.d.committed]; exact this
  · exact fun f hf => hfl _ _ (h.f.flushed f hf)
  · intro f hf
    rw [hcat]
    rcases hrx _ hf with h1 | ⟨io, h1, h2, h3⟩
    · exact ⟨hfl _ _ (h.f.local_ f h1).1, (h.f.local_ f h1).2⟩
    · cases h1
      have hmem : c ∈ P ++ S := by rw [hS]; simp
      exact ⟨h.flush_fl hS' h2, Or.inr ⟨c, hmem, h3⟩⟩
  · exact fun f m hf => hfl _ _ (h.f.inst f m (hnote _ hf (by simp)))
  · exact fun m f hf => hfl _ _ (h.f.queued m f hf)
  · rw [hcat]
    exact ⟨h.s.chain, h.s.cur, h.s.snap, h.s.ioSnap, h.s.ioApp, h.s.ioAppV, h.s.builds,
      fun m hm => h.s.built m (hnote _ hm (by simp)), fun f m hm => h.s.inst f m (hnote _ hm (by simp)),
      fun l es hm => h.s.appl l es (hnote _ hm (by simp)), h.s.snapV⟩
  · intro v hv
    rw [hvote]; exact h.self v (hnote _ hv (by simp))

/-- the oldest pending write -/
theorem pend_cons (h : RInv g0 a0 s0 c0 P S n) {op : DiskOp} {ops : List DiskOp} (hp : n.pend = op :: ops) :
    ∃ S1 c S2, S = S1 ++ c :: S2 ∧ (∀ d ∈ S1, opOf d = none) ∧ opOf c = some op ∧ S2.filterMap opOf = ops := by
  rw [h.d.pend, List.filterMap_eq_cons_iff] at hp
  obtain ⟨S1, c, S2, h1, h2, h3, h4⟩ := hp
  exact ⟨S1, c, S2, h1, h2, h3, h4⟩

theorem flush1 (h : RInv g0 a0 s0 c0 P S n) : ∃ P' S', RInv g0 a0 s0 c0 P' S' n.flush1 ∧ P' ++ S' = P ++ S ∧ P <+: P' := by
  unfold Node.flush1
  cases hp : n.pend with
  | nil => exact ⟨P, S, h, rfl, List.prefix_refl _⟩
  | cons op ops =>
    obtain ⟨S1, c, S2, hS, hn, ho, hr⟩ := h.pend_cons hp
    exact ⟨_, S2, h.flush_at hS hn ho hr, by rw [hS]; simp, List.prefix_append _ _⟩

/-! ## the state machine -/

/-- what the state machine worker may change -/
theorem worker (h : RInv g0 a0 s0 c0 P S n) {q : List SmCmd} {s : Sm} {bs : List SnapMeta} {xs : List Note}
    (hk : n.sm.kept ≤ s.kept) (ha : n.sm.applied ≤ s.applied) (hsn : LeI n.sm.snap.lastLogId s.snap.lastLogId)
    (hsa : s.snap.lastLogId ≤ s.applied) (hq : ∀ m f, SmCmd.install m f ∈ q → SmCmd.install m f ∈ n.smq)
    (hch : SmOk (ComVal g0 (P ++ S)) s.applied q (g0.runs (P ++ S)).com) (hcu : ComVal g0 (P ++ S) s.applied)
    (hb : ∀ m ∈ bs, m ∈ n.builds ∨ ComVal g0 (P ++ S) m.lastLogId ∧ m.lastLogId ≤ s.applied)
    (hsv : s.snap.lastLogId = s0 ∨ ComVal g0 (P ++ S) s.snap.lastLogId) (hl : ∀ f, Note.localIO f ∉ xs) (hv : ∀ v, Note.selfVote v ∉ xs)
    (h1 : ∀ m, Note.built m ∈ xs → ComVal g0 (P ++ S) m.lastLogId ∧ m.lastLogId ≤ s.snap.lastLogId)
    (h2 : ∀ f m, Note.installed f m ∈ xs → (ComVal g0 (P ++ S) m.lastLogId ∧ m.lastLogId ≤ s.snap.lastLogId) ∧ Fl a0 P S s.kept f)
    (h3 : ∀ l es, Note.applied l es ∈ xs → ComVal g0 (P ++ S) (some l) ∧ some l ≤ s.applied) :
    RInv g0 a0 s0 c0 P S { n with smq := q, sm := s, builds := bs, rx := n.rx ++ xs } := by
  refine ⟨h.flow, h.done, h.split, ⟨h.d.rd, h.d.pend, h.d.store, h.d.vote, h.d.novote, h.d.purged.trans hsn, h.d.committed⟩,
    ⟨fun f hf => (h.f.flushed f hf).kept hk, ?_, ?_, fun m f hm => h.f.queued m f (hq m f hm)⟩,
    ⟨hch, hcu, hsa, le_trans h.s.ioSnap hsn.1, le_trans h.s.ioApp ha, h.s.ioAppV, ?_, ?_, ?_, ?_, hsv⟩, ?_, h.z⟩
  · intro f hf
    rcases List.mem_append.1 hf with hf | hf
    · exact ⟨(h.f.local_ f hf).1.kept hk, (h.f.local_ f hf).2⟩
    · exact absurd hf (hl f)
  · intro f m hf
    rcases List.mem_append.1 hf with hf | hf
    · exact (h.f.inst f m hf).kept hk
    · exact (h2 f m hf).2
  · intro m hm
    rcases hb m hm with hm | hm
    · exact ⟨(h.s.builds m hm).1, le_trans (h.s.builds m hm).2 ha⟩
    · exact hm
  · intro m hm
    rcases List.mem_append.1 hm with hm | hm
    · exact ⟨(h.s.built m hm).1, le_trans (h.s.built m hm).2 hsn.1⟩
    · exact h1 m hm
  · intro f m hm
    rcases List.mem_append.1 hm with hm | hm
    · exact ⟨(h.s.inst f m hm).1, le_trans (h.s.inst f m hm).2 hsn.1⟩
    · exact (h2 f m hm).1
  · intro l es hm
    rcases List.mem_append.1 hm with hm | hm
    · exact ⟨(h.s.appl l es hm).1, le_trans (h.s.appl l es hm).2 ha⟩
    · exact h3 l es hm
  · intro v hm
    rcases List.mem_append.1 hm with hm | hm
    · exact h.self v hm
    · exact absurd hm (hv v)

theorem smStep (h : RInv g0 a0 s0 c0 P S n) (hr : n.smStep = .ok n') : RInv g0 a0 s0 c0 P S n' := by
  unfold Node.smStep at hr
  have hchain := h.s.chain
  cases hq : n.smq with
  | nil => rw [hq] at hr; simp only [out_pure] at hr; subst hr; exact h
  | cons c q =>
    rw [hq] at hr hchain
    have hsub : ∀ m f, SmCmd.install m f ∈ q → SmCmd.install m f ∈ n.smq := fun m f hm => by rw [hq]; exact List.mem_cons_of_mem _ hm
    cases c with
    | apply first last =>
      simp only at hr
      split at hr
      · rw [out_pure] at hr
        subst hr
        obtain ⟨c1, c2, c3, c4, c5⟩ := hchain
        have hka : n.sm.kept ≤ Sm.kept { n.sm with applied := some last, mem := Node.memAfter n.sm.mem (n.rd.read first.index (last.index + 1)), hist := n.sm.hist ++ n.rd.read first.index (last.index + 1) } := by
          unfold Sm.kept
          simp only
          split
          · exact le_of_lt c2
          · exact le_refl _
        refine h.worker hka (le_of_lt c2) (.refl _) (le_trans h.s.snap (le_of_lt c2)) hsub c5 c4 (fun m hm => Or.inl hm) h.s.snapV
          (by simp) (by simp) (by simp) (by simp) ?_
        intro l es hm
        simp only [List.mem_singleton, Note.applied.injEq] at hm
        rw [hm.1]
        exact ⟨c4, le_refl _⟩
      · cases hr
    | install m io =>
      simp only [out_pure] at hr
      subst hr
      obtain ⟨c1, c2, c3, c4⟩ := hchain
      have hkept : Sm.kept ⟨m.lastLogId, m.mem, [], m, n.sm.persist⟩ = m.lastLogId := by unfold Sm.kept; simp
      refine h.worker ?_ (le_of_lt c1) ⟨le_trans h.s.snap (le_of_lt c1), Nat.le_of_lt (Nat.lt_of_le_of_lt h.snap_app.next c2)⟩ (le_refl _) hsub c4 c3 (fun m hm => Or.inl hm) (Or.inr c3)
          (by simp) (by simp) (by simp) ?_ (by simp)
      · rw [hkept]; exact le_trans (le_applied h.s.snap) (le_of_lt c1)
      · intro f m' hm
        simp only [List.mem_singleton, Note.installed.injEq] at hm
        obtain ⟨rfl, rfl⟩ := hm
        refine ⟨⟨c3, le_refl _⟩, ?_⟩
        rw [hkept]
        exact h.f.queued m' f (by rw [hq]; simp)
    | build =>
      simp only [out_pure] at hr
      subst hr
      have := h.worker (q := q) (s := n.sm) (bs := n.builds ++ [⟨n.sm.applied, n.sm.mem, 0⟩]) (xs := []) (le_refl _) (le_refl _)
        (.refl _) h.s.snap hsub hchain h.s.cur ?_ h.s.snapV (by simp) (by simp) (by simp) (by simp) (by simp)
      · simpa using this
      · intro m hm
        rcases List.mem_append.1 hm with hm | hm
        · exact Or.inl hm
        · rw [List.mem_singleton] at hm; subst hm
          exact Or.inr ⟨h.s.cur, le_refl _⟩

theorem buildDone (h : RInv g0 a0 s0 c0 P S n) (k : Nat) : RInv g0 a0 s0 c0 P S (n.buildDone k) := by
  unfold Node.buildDone
  cases hk : n.builds[k]? with
  | none => exact h
  | some m =>
    have hm := h.s.builds m (List.mem_of_getElem? hk)
    have hsn : ∃ t : SnapMeta, (if n.sm.snap.lastLogId ≤ m.lastLogId then m else n.sm.snap) = t ∧ LeI n.sm.snap.lastLogId t.lastLogId ∧
        m.lastLogId ≤ t.lastLogId ∧ t.lastLogId ≤ n.sm.applied ∧ (t.lastLogId = s0 ∨ ComVal g0 (P ++ S) t.lastLogId) := by
      split
      · next hle => exact ⟨_, rfl, (h.snap_le hm.1 hle).leI, le_refl _, hm.2, Or.inr hm.1⟩
      · next hle => exact ⟨_, rfl, .refl _, le_of_lt (not_le.1 hle), h.s.snap, h.s.snapV⟩
    obtain ⟨t, ht, h1, h2, h3, h4⟩ := hsn
    simp only
    rw [ht]
    refine h.worker (s := { n.sm with snap := t }) ?_ (le_refl _) h1 h3 (fun m f hm => hm) h.s.chain h.s.cur
      (fun m hm => Or.inl (List.mem_of_mem_eraseIdx hm)) h4 (by simp) (by simp) ?_ (by simp) (by simp)
    · unfold Sm.kept
      simp only
      split
      · exact le_refl _
      · exact h1.1
    · intro m' hm'
      simp only [List.mem_singleton, Note.built.injEq] at hm'
      subst hm'
      exact ⟨hm.1, h2⟩

/-! ## all events -/

theorem register (h : RInv g0 a0 s0 c0 P S n) (tx : Nat) (o : Option Nat) : RInv g0 a0 s0 c0 P S (n.register tx o) := by
  cases o <;> exact ⟨h.flow, h.done, h.split, ⟨h.d.rd, h.d.pend, h.d.store, h.d.vote, h.d.novote, h.d.purged, h.d.committed⟩,
          ⟨h.f.flushed, h.f.local_, h.f.inst, h.f.queued⟩,
          ⟨h.s.chain, h.s.cur, h.s.snap, h.s.ioSnap, h.s.ioApp, h.s.ioAppV, h.s.builds, h.s.built, h.s.inst, h.s.appl, h.s.snapV⟩, h.self, h.z⟩

theorem run1 (h : RInv g0 a0 s0 c0 P S n) (hr : n.run1 dbg = .ok n') :
    ∃ P' S', RInv g0 a0 s0 c0 P' S' n' ∧ P ++ S <+: P' ++ S' ∧ P <+: P' := by
  unfold Node.run1 at hr
  cases hc : n.head with
  | none => rw [hc] at hr; simp only [out_pure] at hr; subst hr; exact ⟨P, S, h, List.prefix_refl _, List.prefix_refl _⟩
  | some c =>
    rw [hc] at hr
    simp only at hr
    split at hr
    · next hrd =>
      simp only [out_bind, out_pure] at hr
      obtain ⟨n1, h1, hr⟩ := hr
      subst hr
      obtain ⟨P', S', h2, h3, h4⟩ := h.exec hc hrd h1
      exact ⟨P', S', h2, by rw [h3]; exact List.prefix_append _ _, h4⟩
    · rw [out_pure] at hr; subst hr; exact ⟨P, S, h, List.prefix_refl _, List.prefix_refl _⟩

theorem step {ev : Ev} (h : RInv g0 a0 s0 c0 P S n) (ho : EvOk n ev) (hr : n.step dbg ev = .ok n') :
    ∃ P' S', RInv g0 a0 s0 c0 P' S' n' ∧ P ++ S <+: P' ++ S' ∧ P <+: P' := by
  have keep : RInv g0 a0 s0 c0 P S n' → ∃ P' S', RInv g0 a0 s0 c0 P' S' n' ∧ P ++ S <+: P' ++ S' ∧ P <+: P' :=
    fun hh => ⟨P, S, hh, List.prefix_refl _, List.prefix_refl _⟩
  cases ev with
  | msg now i =>
    apply keep
    simp only [Node.step] at hr
    split at hr
    · next hi =>
      simp only [out_bind, lift_ok, out_pure] at hr
      obtain ⟨e, he, hr⟩ := hr
      subst hr
      refine h.input ho ?_ he
      simp only [Bool.and_eq_true] at hi
      have := hi.2
      cases i <;> first | rfl | cases this
    · rw [out_pure] at hr; subst hr; exact h
  | write now tx p =>
    apply keep
    simp only [Node.step] at hr
    split at hr
    · simp only [out_bind, lift_ok, out_pure] at hr
      obtain ⟨⟨i, e⟩, he, hr⟩ := hr
      subst hr
      refine RInv.register (h.input (now := now) (i := .write p) (dbg := dbg) trivial rfl ?_) tx i
      simp only [Eng.input, Engine.bind_ok, Engine.pure_ok]
      exact ⟨_, he, rfl⟩
    · rw [out_pure] at hr; subst hr; exact h
  | change now tx c r =>
    apply keep
    simp only [Node.step] at hr
    split at hr
    · simp only [out_bind, lift_ok, out_pure] at hr
      obtain ⟨⟨i, e⟩, he, hr⟩ := hr
      subst hr
      refine RInv.register (h.input (now := now) (i := .change c r) (dbg := dbg) trivial rfl ?_) tx i
      simp only [Eng.input, Engine.bind_ok, Engine.pure_ok]
      exact ⟨_, he, rfl⟩
    · rw [out_pure] at hr; subst hr; exact h
  | note now =>
    apply keep
    simp only [Node.step] at hr
    split at hr
    · cases hx : n.rx with
      | nil => rw [hx] at hr; simp only [out_pure] at hr; subst hr; exact h
      | cons x xs => rw [hx] at hr; exact h.note hx hr
    · rw [out_pure] at hr; subst hr; exact h
  | run => exact h.run1 hr
  | flush =>
    simp only [Node.step, out_pure] at hr
    subst hr
    obtain ⟨P', S', h1, h2, h3⟩ := h.flush1
    exact ⟨P', S', h1, by rw [h2]; exact List.prefix_refl _, h3⟩
  | sm => exact keep (h.smStep hr)
  | build k =>
    simp only [Node.step, out_pure] at hr
    subst hr
    exact keep (h.buildDone k)

end RInv

/-- the invariant holds along every run -/
theorem Node.Run.inv {g0 : Gh} {a0 : IOId} {s0 c0 : Option LogId} {P S : List Cmd} {n n' : Node} {dbg : Bool}
    (h : Node.Run dbg n n') (hi : RInv g0 a0 s0 c0 P S n) :
    ∃ P' S', RInv g0 a0 s0 c0 P' S' n' ∧ P ++ S <+: P' ++ S' ∧ P <+: P' := by
  induction h with
  | refl => exact ⟨P, S, hi, List.prefix_refl _, List.prefix_refl _⟩
  | step _ _ ho hs ih =>
    obtain ⟨P1, S1, h1, h2, h3⟩ := ih
    obtain ⟨P2, S2, k1, k2, k3⟩ := h1.step ho hs
    exact ⟨P2, S2, k1, h2.trans k2, h3.trans k3⟩

end Openraft.Runtime
