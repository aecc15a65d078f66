import Verif.Runtime.WaitLife

/-!
# Without snapshots from a leader the recorded positions do not go back

The IO ids on their way to the engine are in order: the recorded one, those in the notification queue, those of pending
writes. This holds in every build as long as no snapshot is installed.
-/

namespace Openraft.Runtime
open Openraft.Engine
open Openraft.Repl (Panic dassert)

variable {dbg : Bool} {n n' : Node}

/-- `f` is recorded, `l1` are reported, `l2` are being written, `L` is the greatest of all -/
structure Chain (f : IOId) (l1 l2 : List IOId) (L : IOId) : Prop where
  s1 : (f :: l1).Pairwise (· ≤ ·)
  s2 : l2.Pairwise (· < ·)
  s3 : ∀ x ∈ f :: l1, ∀ y ∈ l2, x < y
  s4 : ∀ y ∈ l2, y.last ≠ none
  top : ∀ x ∈ f :: l1 ++ l2, x ≤ L
  mem : L ∈ f :: l1 ++ l2

namespace Chain
variable {f : IOId} {l1 l2 : List IOId} {L : IOId}

theorem one (f : IOId) : Chain f [] [] f :=
  ⟨by simp, by simp, by simp, by simp, by simp, by simp⟩

/-- something is reported while nothing is being written -/
theorem report (h : Chain f l1 [] L) {x : IOId} (hx : L ≤ x) : Chain f (l1 ++ [x]) [] x := by
  have hall : ∀ y ∈ f :: l1, y ≤ x := fun y hy => le_trans (h.top y (by simpa using hy)) hx
  refine ⟨?_, List.Pairwise.nil, fun _ _ y hy => (by cases hy), fun y hy => (by cases hy), ?_, by simp⟩
  · rw [← List.cons_append, List.pairwise_append]
    exact ⟨h.s1, List.pairwise_singleton _ _, fun a ha b hb => by rw [List.mem_singleton.1 hb]; exact hall a ha⟩
  · intro y hy
    rw [List.append_nil, ← List.cons_append, List.mem_append] at hy
    rcases hy with hy | hy
    · exact hall y hy
    · exact le_of_eq (List.mem_singleton.1 hy)

/-- something later is written -/
theorem push (h : Chain f l1 l2 L) {x : IOId} (hx : L < x) (hl : x.last ≠ none) : Chain f l1 (l2 ++ [x]) x := by
  refine ⟨h.s1, ?_, ?_, ?_, ?_, by simp⟩
  · rw [List.pairwise_append]
    exact ⟨h.s2, List.pairwise_singleton _ _, fun a ha b hb => by
      rw [List.mem_singleton.1 hb]; exact lt_of_le_of_lt (h.top a (List.mem_append_right _ ha)) hx⟩
  · intro a ha y hy
    rcases List.mem_append.1 hy with hy | hy
    · exact h.s3 a ha y hy
    · rw [List.mem_singleton.1 hy]; exact lt_of_le_of_lt (h.top a (List.mem_append_left _ ha)) hx
  · intro y hy
    rcases List.mem_append.1 hy with hy | hy
    · exact h.s4 y hy
    · rw [List.mem_singleton.1 hy]; exact hl
  · intro y hy
    rw [← List.append_assoc, List.mem_append] at hy
    rcases hy with hy | hy
    · exact le_of_lt (lt_of_le_of_lt (h.top y hy) hx)
    · exact le_of_eq (List.mem_singleton.1 hy)

/-- the oldest write is done -/
theorem shift {x : IOId} (h : Chain f l1 (x :: l2) L) : Chain f (l1 ++ [x]) l2 L := by
  have hp := List.pairwise_cons.1 h.s2
  have hm : ∀ y, y ∈ f :: (l1 ++ [x]) ++ l2 ↔ y ∈ f :: l1 ++ x :: l2 := by intro y; simp
  refine ⟨?_, hp.2, ?_, fun y hy => h.s4 y (by simp [hy]), fun y hy => h.top y ((hm y).1 hy), (hm L).2 h.mem⟩
  · rw [← List.cons_append, List.pairwise_append]
    exact ⟨h.s1, List.pairwise_singleton _ _, fun a ha b hb => by
      rw [List.mem_singleton.1 hb]; exact le_of_lt (h.s3 a ha x (by simp))⟩
  · intro a ha y hy
    rw [← List.cons_append, List.mem_append] at ha
    rcases ha with ha | ha
    · exact h.s3 a ha y (by simp [hy])
    · rw [List.mem_singleton.1 ha]; exact hp.1 y hy

/-- all writes are done -/
theorem shifts (h : Chain f l1 l2 L) : Chain f (l1 ++ l2) [] L := by
  induction l2 generalizing l1 with
  | nil => rw [List.append_nil]; exact h
  | cons x l2 ih =>
    have := ih h.shift
    rwa [List.append_assoc, List.singleton_append] at this

/-- the oldest report is handled -/
theorem pop {x : IOId} (h : Chain f (x :: l1) l2 L) : Chain x l1 l2 L := by
  refine ⟨(List.pairwise_cons.1 h.s1).2, h.s2, fun a ha => h.s3 a (List.mem_cons_of_mem _ ha), h.s4,
    fun y hy => h.top y (by simp only [List.cons_append, List.mem_cons] at hy ⊢; exact Or.inr hy), ?_⟩
  have hm := h.mem
  simp only [List.cons_append, List.mem_cons] at hm ⊢
  rcases hm with hm | hm
  · left
    refine le_antisymm ?_ (h.top x (by simp))
    rw [hm]; exact (List.pairwise_cons.1 h.s1).1 x (by simp)
  · exact hm

theorem first_le {x : IOId} (h : Chain f (x :: l1) l2 L) : f ≤ x := (List.pairwise_cons.1 h.s1).1 x (by simp)

/-- nothing is being written when all is recorded -/
theorem none_of_le (h : Chain f l1 l2 L) (hf : L ≤ f) : l2 = [] := by
  cases l2 with
  | nil => rfl
  | cons y l2 =>
    exact absurd (h.s3 f (by simp) y (by simp)) (not_lt.2 (le_trans (h.top y (by simp)) hf))

/-- nothing is being written when the greatest IO is that of a vote -/
theorem none_of_vote (h : Chain f l1 l2 L) (hf : L.last = none) : l2 = [] := by
  cases l2 with
  | nil => rfl
  | cons y l2 =>
    rcases List.mem_append.1 h.mem with hm | hm
    · exact absurd (h.s3 L hm y (by simp)) (not_lt.2 (h.top y (by simp)))
    · exact absurd hf (h.s4 L hm)

end Chain

/-- the IO a report is of -/
def Note.io? : Note → Option IOId
  | .localIO io => some io
  | _ => none

/-- the IO of a write -/
def DiskOp.io? : DiskOp → Option IOId
  | .append io _ => some io
  | _ => none

/-- the reports that are waiting -/
def Node.ids1 (n : Node) : List IOId := n.rx.filterMap Note.io?
/-- the appends that are being written -/
def Node.ids2 (n : Node) : List IOId := n.pend.filterMap DiskOp.io?

theorem note_ids (ops : List DiskOp) : (ops.flatMap DiskOp.note).filterMap Note.io? = ops.filterMap DiskOp.io? := by
  induction ops with
  | nil => rfl
  | cons op ops ih =>
    rw [List.flatMap_cons, List.filterMap_append, ih]
    cases op <;> rfl

/-- no snapshot of a leader is installed -/
def Calm (n : Node) : Prop := ∀ m io, Cmd.sm (.install m io) ∉ n.eng.out

/-- the order of the reports -/
structure KInv (a0 : IOId) (n : Node) : Prop where
  chain : ∃ f, n.flushed = some f ∧ Chain f n.ids1 n.ids2 (lvls a0 (n.eng.out.take n.done))
  smq : ∀ m io, SmCmd.install m io ∉ n.smq
  rx : ∀ io m, Note.installed io m ∉ n.rx
  built : ∀ m, m ∈ n.builds ∨ Note.built m ∈ n.rx → n.eng.st.io.snapshot ≤ m.lastLogId

/-- only the vote, the log and the state machine differ, and reports of no IO are added -/
theorem KInv.same {a0 : IOId} (h : KInv a0 n) (h1 : n'.flushed = n.flushed) (h2 : n'.eng.st.io.snapshot = n.eng.st.io.snapshot)
    (h3 : n'.ids1 = n.ids1) (h4 : n'.ids2 = n.ids2) (h5 : lvls a0 (n'.eng.out.take n'.done) = lvls a0 (n.eng.out.take n.done))
    (h6 : ∀ m io, SmCmd.install m io ∈ n'.smq → SmCmd.install m io ∈ n.smq) (h7 : ∀ io m, Note.installed io m ∈ n'.rx → Note.installed io m ∈ n.rx)
    (h8 : ∀ m, m ∈ n'.builds ∨ Note.built m ∈ n'.rx → (m ∈ n.builds ∨ Note.built m ∈ n.rx) ∨ n.eng.st.io.snapshot ≤ m.lastLogId) : KInv a0 n' := by
  obtain ⟨f, k1, k2⟩ := h.chain
  refine ⟨⟨f, by rw [h1, k1], by rw [h3, h4, h5]; exact k2⟩, fun m io hm => h.smq m io (h6 m io hm), fun io m hm => h.rx io m (h7 io m hm), ?_⟩
  intro m hm
  rw [h2]
  rcases h8 m hm with k | k
  · exact h.built m k
  · exact k

theorem filterMap_snoc {α β : Type} (g : α → Option β) (l : List α) (x : α) (h : g x = none) : (l ++ [x]).filterMap g = l.filterMap g := by
  rw [List.filterMap_append]; simp [h]

/-- a command is executed -/
theorem KInv.run {g0 : Gh} {a0 : IOId} {s0 c0 : Option LogId} {P S : List Cmd} {c : Cmd} {n1 : Node} (h : KInv a0 n) (hi : RInv g0 a0 s0 c0 P S n)
    (hcalm : Calm n) (hc : n.head = some c) (hr : n.ready c = true) (hx : n.exec dbg c = .ok n1) : KInv a0 { n1 with done := n1.done + 1 } := by
  obtain ⟨f, hf, hch⟩ := h.chain
  have hk := (hi.head hc).2.1
  have hlt := (hi.head hc).2.2.2
  have hL : lvls a0 (n.eng.out.take (n.done + 1)) = lvl (lvls a0 (n.eng.out.take n.done)) c := by
    rw [take_succ_head hc, lvls_snoc]
  rw [← hi.split] at hk
  have hcm : c ∈ n.eng.out := List.mem_of_getElem? hc
  generalize lvls a0 (n.eng.out.take n.done) = L at hch hk hL
  -- what stays when a command is not about IO
  have hquiet : ∀ m : Node, m.done = n.done → m.eng.out = n.eng.out → m.flushed = n.flushed → m.eng.st.io.snapshot = n.eng.st.io.snapshot →
      m.rx = n.rx → m.ids2 = n.ids2 → m.builds = n.builds → (∀ k io, SmCmd.install k io ∈ m.smq → SmCmd.install k io ∈ n.smq) → lvl L c = L →
      KInv a0 { m with done := m.done + 1 } := by
    intro m m1 m2 m3 m4 m5 m6 m7 m8 m9
    refine ⟨⟨f, m3.trans hf, ?_⟩, fun k io hq => h.smq k io (m8 k io hq), fun io k hq => h.rx io k (by rw [← m5]; exact hq), ?_⟩
    · show Chain f (m.rx.filterMap Note.io?) m.ids2 (lvls a0 (m.eng.out.take (m.done + 1)))
      rw [m1, m2, hL, m5, m6, m9]; exact hch
    · intro k hq
      show m.eng.st.io.snapshot ≤ _
      rw [m4]
      refine h.built k ?_
      rw [← m5, ← m7]; exact hq
  cases c with
  | updateIO w io =>
    simp only [Node.exec, out_bind, out_pure] at hx
    obtain ⟨n2, h1, hx⟩ := hx
    rw [submit_ok h1] at hx
    subst hx
    obtain ⟨k1, k2, _⟩ := hk
    have hle : L ≤ io := by
      rcases k2 with k2 | k2
      · exact k2.2
      · exact Or.inr ⟨k1.symm, by rw [k2.2]; exact OptOrd.none_le' _⟩
    have hemp : n.ids2 = [] := by
      rcases k2 with k2 | k2
      · refine hch.none_of_le ?_
        have hf' : n.eng.st.io.prog.flushed = some f := hf
        simp only [Node.ready, Cmd.condition, k2.1, Node.holds, hf', Bool.not_eq_true', decide_eq_false_iff_not] at hr
        exact OptOrd.some_le_some'.1 (not_lt.1 hr)
      · exact hch.none_of_vote k2.2
    rw [hemp] at hch
    refine ⟨⟨f, hf, ?_⟩, h.smq, ?_, ?_⟩
    · show Chain f ((n.rx ++ [Note.localIO io]).filterMap Note.io?) n.ids2 (lvls a0 (n.eng.out.take (n.done + 1)))
      rw [hL, hemp, List.filterMap_append]
      show Chain f (n.ids1 ++ [io]) [] (max L io)
      rw [max_eq_right hle]
      exact hch.report hle
    · intro x m hm
      rcases List.mem_append.1 hm with hm | hm
      · exact h.rx x m hm
      · simp at hm
    · intro m hm
      refine h.built m ?_
      rcases hm with hm | hm
      · exact Or.inl hm
      · rcases List.mem_append.1 hm with hm | hm
        · exact Or.inr hm
        · simp at hm
  | append v es =>
    simp only [Node.exec, out_bind, out_pure, lift_ok, unwrap_ok] at hx
    obtain ⟨l, hl, n2, h1, hx⟩ := hx
    rw [submit_ok h1] at hx
    subst hx
    obtain ⟨x, k1, k2, _⟩ := hk
    rw [hl] at k1; cases k1
    refine ⟨⟨f, hf, ?_⟩, h.smq, h.rx, h.built⟩
    show Chain f n.ids1 ((n.pend ++ [DiskOp.append _ es]).filterMap DiskOp.io?) (lvls a0 (n.eng.out.take (n.done + 1)))
    rw [hL, List.filterMap_append]
    simp only [lvl, hl]
    exact hch.push k2 (by simp [IOId.newLog])
  | saveVote v =>
    simp only [Node.exec, out_bind, out_pure] at hx
    obtain ⟨n2, h1, hx⟩ := hx
    rw [submit_ok h1] at hx
    subst hx
    refine ⟨⟨f, hf, ?_⟩, h.smq, ?_, ?_⟩
    · show Chain f ((n.rx ++ n.pend.flatMap DiskOp.note ++ [Note.localIO (IOId.new v), Note.selfVote v]).filterMap Note.io?) [] (lvls a0 (n.eng.out.take (n.done + 1)))
      rw [hL, List.filterMap_append, List.filterMap_append, note_ids]
      show Chain f (n.ids1 ++ n.ids2 ++ [IOId.new v]) [] (IOId.new v)
      exact hch.shifts.report (Or.inl hk)
    · intro x m hm
      rcases List.mem_append.1 hm with hm | hm
      · rcases List.mem_append.1 hm with hm | hm
        · exact h.rx x m hm
        · obtain ⟨op, _, k2⟩ := List.mem_flatMap.1 hm
          cases op <;> simp [DiskOp.note] at k2
      · simp at hm
    · intro m hm
      refine h.built m ?_
      rcases hm with hm | hm
      · exact Or.inl hm
      · rcases List.mem_append.1 hm with hm | hm
        · rcases List.mem_append.1 hm with hm | hm
          · exact Or.inr hm
          · obtain ⟨op, _, k2⟩ := List.mem_flatMap.1 hm
            cases op <;> simp [DiskOp.note] at k2
        · simp at hm
  | purge u =>
    simp only [Node.exec, out_pure] at hx
    subst hx
    exact hquiet _ rfl rfl rfl rfl rfl (filterMap_snoc _ _ _ rfl) rfl (fun _ _ hq => hq) rfl
  | truncate u =>
    simp only [Node.exec, out_pure] at hx
    subst hx
    exact hquiet _ rfl rfl rfl rfl rfl (filterMap_snoc _ _ _ rfl) rfl (fun _ _ hq => hq) rfl
  | saveCommitted u =>
    simp only [Node.exec, out_pure] at hx
    subst hx
    exact hquiet _ rfl rfl rfl rfl rfl (filterMap_snoc _ _ _ rfl) rfl (fun _ _ hq => hq) rfl
  | sendVote v l =>
    simp only [Node.exec, out_bind, out_pure] at hx
    obtain ⟨_, _, rfl⟩ := hx
    exact hquiet _ rfl rfl rfl rfl rfl rfl rfl (fun _ _ hq => hq) rfl
  | transfer a b d =>
    simp only [Node.exec, out_bind, out_pure] at hx
    obtain ⟨_, _, rfl⟩ := hx
    exact hquiet _ rfl rfl rfl rfl rfl rfl rfl (fun _ _ hq => hq) rfl
  | replCommitted c =>
    simp only [Node.exec, out_pure] at hx
    subst hx
    exact hquiet _ rfl rfl rfl rfl rfl rfl rfl (fun _ _ hq => hq) rfl
  | heartbeat a b d =>
    simp only [Node.exec, out_pure] at hx
    subst hx
    exact hquiet _ rfl rfl rfl rfl rfl rfl rfl (fun _ _ hq => hq) rfl
  | apply a u =>
    simp only [Node.exec, out_bind, out_pure] at hx
    obtain ⟨_, _, _, _, rfl⟩ := hx
    refine hquiet _ rfl rfl rfl rfl rfl rfl rfl (fun _ _ hq => ?_) rfl
    rcases List.mem_append.1 hq with hq | hq
    · exact hq
    · simp at hq
  | replicate t i =>
    simp only [Node.exec] at hx
    split at hx
    · rw [out_pure] at hx; subst hx
      exact hquiet _ rfl rfl rfl rfl rfl rfl rfl (fun _ _ hq => hq) rfl
    · cases hx
  | rebuild ts =>
    simp only [Node.exec, Node.rebuild, out_bind] at hx
    obtain ⟨_, _, hx⟩ := hx
    split at hx
    · rw [out_pure] at hx; subst hx
      exact hquiet _ rfl rfl rfl rfl rfl rfl rfl (fun _ _ hq => hq) rfl
    · cases hx
  | respond w tx r =>
    simp only [Node.exec, out_pure] at hx
    subst hx
    exact hquiet _ rfl rfl rfl rfl rfl rfl rfl (fun _ _ hq => hq) rfl
  | sm c =>
    cases c with
    | install m io => exact absurd hcm (hcalm m io)
    | apply a u => exact hk.elim
    | build =>
      simp only [Node.exec, out_pure] at hx
      subst hx
      refine hquiet _ rfl rfl rfl rfl rfl rfl rfl (fun _ _ hq => ?_) rfl
      rcases List.mem_append.1 hq with hq | hq
      · exact hq
      · simp at hq

/-- only one snapshot is being built -/
theorem BuildInv.only (h : BuildInv n) {m : SnapMeta} {xs : List Note} (hx : n.rx = .built m :: xs) : n.builds = [] ∧ ∀ m', Note.built m' ∉ xs := by
  have h1 := h.mark
  simp only [Node.handed, hx, List.countP_cons, isBuiltNote, if_true] at h1
  have h2 : n.builds.length = 0 ∧ xs.countP isBuiltNote = 0 := by
    split at h1 <;> omega
  refine ⟨List.length_eq_zero_iff.1 h2.1, fun m' hm => ?_⟩
  have := List.countP_eq_zero.1 h2.2 _ hm
  exact this rfl

theorem KInv.step {g0 : Gh} {a0 : IOId} {s0 c0 : Option LogId} {P S : List Cmd} {ev : Ev} (h : KInv a0 n) (hi : RInv g0 a0 s0 c0 P S n)
    (hb : BuildInv n) (hcalm : Calm n) (hr : n.step dbg ev = .ok n') : KInv a0 n' ∧ Steady n n' := by
  have hv := step_view hr
  obtain ⟨f, hf, hch⟩ := h.chain
  cases hv with
  | none ev h1 _ => subst h1; exact ⟨h, Steady.refl _⟩
  | run c n1 h1 h2 h3 h4 =>
    subst h4
    refine ⟨h.run hi hcalm h1 h2 h3, ?_⟩
    obtain ⟨p, x, k1, _, k2⟩ := (exec_frame h3).eng
    unfold Steady Node.flushed
    rw [show ({ n1 with done := n1.done + 1 } : Node).eng = _ from k1]
    exact ⟨le_of_eq k2.symm, le_refl _⟩
  | input ev _ h1 h2 h3 h4 =>
    have q1 : n'.done = n.done := congrArg (·.1) h2
    have q2 : n'.rx = n.rx := congrArg (·.2.1) h2
    have q3 : n'.pend = n.pend := congrArg (·.2.2.1) h2
    have q4 : n'.smq = n.smq := congrArg (·.2.2.2.1) h2
    have q5 : n'.builds = n.builds := congrArg (·.2.2.2.2.1) h2
    have q6 : n'.flushed = n.flushed := congrArg (·.1) h3
    have q7 : n'.eng.st.io.snapshot = n.eng.st.io.snapshot := congrArg (·.2) h3
    refine ⟨h.same q6 q7 (by unfold Node.ids1; rw [q2]) (by unfold Node.ids2; rw [q3]) ?_ (by rw [q4]; exact fun _ _ h => h)
      (by rw [q2]; exact fun _ _ h => h) (by rw [q2, q5]; exact fun _ h => Or.inl h), le_of_eq q6.symm, le_of_eq q7.symm⟩
    obtain ⟨cs, hcs⟩ := h4
    rw [q1, ← hcs, List.take_append_of_le_length hi.done]
  | note now x xs h1 h2 h3 h4 h5 _ =>
    have q1 : n'.done = n.done := congrArg (·.1) h3
    have q2 : n'.rx = xs := congrArg (·.2.1) h3
    have q3 : n'.pend = n.pend := congrArg (·.2.2.1) h3
    have q4 : n'.smq = n.smq := congrArg (·.2.2.2.1) h3
    have q5 : n'.builds = n.builds := congrArg (·.2.2.2.2.1) h3
    have q6 : n'.flushed = _ := congrArg (·.1) h4
    have q7 : n'.eng.st.io.snapshot = _ := congrArg (·.2) h4
    have q8 : lvls a0 (n'.eng.out.take n'.done) = lvls a0 (n.eng.out.take n.done) := by
      obtain ⟨cs, hcs⟩ := h5
      rw [q1, ← hcs, List.take_append_of_le_length hi.done]
    have q9 : n'.ids2 = n.ids2 := by unfold Node.ids2; rw [q3]
    have q10 : ∀ y, y ∈ n'.rx → y ∈ n.rx := by intro y hy; rw [q2] at hy; rw [h2]; exact List.mem_cons_of_mem _ hy
    have hplain : x.io? = none → x.records n.flushed n.eng.st.io.snapshot = (n.flushed, n.eng.st.io.snapshot) → KInv a0 n' ∧ Steady n n' := by
      intro w1 w2
      rw [w2] at q6 q7
      refine ⟨h.same q6 q7 ?_ q9 q8 (by rw [q4]; exact fun _ _ h => h) (fun io m hm => q10 _ hm) ?_, le_of_eq q6.symm, le_of_eq q7.symm⟩
      · unfold Node.ids1; rw [q2, h2, List.filterMap_cons, w1]
      · intro m hm
        rw [q5] at hm
        exact Or.inl (hm.imp id (q10 _))
    cases x with
    | localIO io =>
      have hids : n.ids1 = io :: n'.ids1 := by unfold Node.ids1; rw [h2, q2]; rfl
      rw [hids] at hch
      refine ⟨⟨⟨io, q6, by rw [q8, q9]; exact hch.pop⟩, by rw [q4]; exact h.smq, fun io m hm => h.rx io m (q10 _ hm), ?_⟩, ?_, le_of_eq q7.symm⟩
      · intro m hm
        rw [q7]
        rw [q5] at hm
        exact h.built m (hm.imp id (q10 _))
      · rw [hf, q6]; exact OptOrd.some_le_some'.2 hch.first_le
    | selfVote v => exact hplain rfl rfl
    | applied l es => exact hplain rfl rfl
    | installed io m => exact absurd (by rw [h2]; simp) (h.rx io m)
    | built m =>
      obtain ⟨w1, w2⟩ := hb.only h2
      refine ⟨⟨⟨f, q6.trans hf, ?_⟩, by rw [q4]; exact h.smq, fun io m hm => h.rx io m (q10 _ hm), ?_⟩, le_of_eq q6.symm, ?_⟩
      · have hids : n'.ids1 = n.ids1 := by unfold Node.ids1; rw [h2, q2]; rfl
        rw [q8, q9, hids]; exact hch
      · intro m' hm
        rw [q5, q2, w1] at hm
        rcases hm with hm | hm
        · cases hm
        · exact absurd hm (w2 m')
      · rw [q7]; exact h.built m (Or.inr (by rw [h2]; simp))
  | flush op ops h1 h2 =>
    subst h2
    refine ⟨⟨⟨f, hf, ?_⟩, h.smq, ?_, ?_⟩, Steady.refl _⟩
    · show Chain f ((n.rx ++ op.note).filterMap Note.io?) (ops.filterMap DiskOp.io?) (lvls a0 (n.eng.out.take n.done))
      unfold Node.ids2 at hch
      rw [h1] at hch
      rw [List.filterMap_append]
      cases op with
      | append io es => exact hch.shift
      | _ =>
        have : ∀ l : List IOId, l ++ ([] : List Note).filterMap Note.io? = l := fun l => List.append_nil l
        simp only [DiskOp.note, this]; exact hch
    · intro io m hm
      rcases List.mem_append.1 hm with hm | hm
      · exact h.rx io m hm
      · cases op <;> simp [DiskOp.note] at hm
    · intro m hm
      refine h.built m ?_
      rcases hm with hm | hm
      · exact Or.inl hm
      · rcases List.mem_append.1 hm with hm | hm
        · exact Or.inr hm
        · cases op <;> simp [DiskOp.note] at hm
  | apply a u q es h1 h2 h3 h4 h5 h6 h7 _ =>
    refine ⟨h.same (by unfold Node.flushed; rw [h7]) (by rw [h7]) ?_ (by unfold Node.ids2; rw [h4]) (by rw [h7, h6])
      (fun m io hm => by rw [h1]; rw [h3] at hm; exact List.mem_cons_of_mem _ hm) ?_ ?_, ?_⟩
    · unfold Node.ids1; rw [← h2]; exact filterMap_snoc _ _ _ rfl
    · intro io m hm
      rw [← h2] at hm
      rcases List.mem_append.1 hm with hm | hm
      · exact hm
      · simp at hm
    · intro m hm
      rw [← h2, h5] at hm
      rcases hm with hm | hm
      · exact Or.inl (Or.inl hm)
      · rcases List.mem_append.1 hm with hm | hm
        · exact Or.inl (Or.inr hm)
        · simp at hm
    · unfold Steady Node.flushed; rw [h7]; exact ⟨le_refl _, le_refl _⟩
  | install m io q h1 _ _ _ _ _ _ => exact absurd (by rw [h1]; simp) (h.smq m io)
  | startBuild q h1 h2 =>
    subst h2
    refine ⟨h.same rfl rfl rfl rfl rfl (fun m io hm => by rw [h1]; exact List.mem_cons_of_mem _ hm) (fun _ _ hm => hm) ?_, Steady.refl _⟩
    intro m hm
    rcases hm with hm | hm
    · rcases List.mem_append.1 hm with hm | hm
      · exact Or.inl (Or.inl hm)
      · rw [List.mem_singleton.1 hm]
        exact Or.inr (le_trans hi.s.ioSnap hi.s.snap)
    · exact Or.inl (Or.inr hm)
  | build k m h1 h2 h3 h4 h5 h6 h7 =>
    refine ⟨h.same (by unfold Node.flushed; rw [h7]) (by rw [h7]) ?_ (by unfold Node.ids2; rw [h4]) (by rw [h7, h6]) (by rw [h5]; exact fun _ _ h => h) ?_ ?_, ?_⟩
    · unfold Node.ids1; rw [h2]; exact filterMap_snoc _ _ _ rfl
    · intro io m hm
      rw [h2] at hm
      rcases List.mem_append.1 hm with hm | hm
      · exact hm
      · simp at hm
    · intro m' hm
      rw [h2, h3] at hm
      rcases hm with hm | hm
      · exact Or.inl (Or.inl (List.mem_of_mem_eraseIdx hm))
      · rcases List.mem_append.1 hm with hm | hm
        · exact Or.inl (Or.inr hm)
        · simp only [List.mem_singleton, Note.built.injEq] at hm
          subst hm
          exact Or.inl (Or.inl (List.mem_of_getElem? h1))
    · unfold Steady Node.flushed; rw [h7]; exact ⟨le_refl _, le_refl _⟩

end Openraft.Runtime
