import Verif.Net.Assembly

/-!
# The state machine and its snapshots agree with the history

`NP`: the position of the state machine, of its snapshot, and of the snapshots being built is committed, and the
membership stored with it is the last one up to it.
-/

set_option autoImplicit false
set_option linter.unusedSectionVars false

namespace Openraft.Net
open Openraft.Repl (Panic dassert Inflight)
open Openraft.Engine Openraft.Cluster
open Openraft.Runtime (Fl RInv Covered Note SmOk LeI DiskOp opOf vote_runs_same out_bind out_pure lift_ok exec_frame submit_ok note_of_op)
open Openraft.VecProgress (AllP BI)

variable {m0 : Membership} [hne : Fact (m0.configs ≠ [])] {g g' : Ghost} {dv dv' : NodeId → Vote} {q : NodeId} {g0 : Gh} {p : Nat} {dbg : Bool} {now : Nat}
variable {a0 : IOId} {s0 c0 : Option LogId} {P S : List Cmd} {n n' n1 : Runtime.Node}

/-- entries of the store between two positions of its whole log -/
theorem StOk.read_log {s : LogStore} (h : StOk g s) {a b : Nat} (ha : nextIndex s.purged ≤ a) (hab : a ≤ b) :
    (stLog g s).take b = (stLog g s).take a ++ (s.read a b).map toEntry ∧ ∀ i e, (s.read a b)[i]? = some e → e.id.index = a + i := by
  have hr := h.read a b
  have hst : ∀ k, nextIndex s.purged ≤ k → (stLog g s).take k = cont g s.purged ++ (s.entries.take (k - nextIndex s.purged)).map toEntry := by
    intro k hk
    unfold stLog
    rw [List.take_append, h.baseLen, List.take_of_length_le (l := cont g s.purged) (by rw [h.baseLen]; exact hk), List.map_take]
  refine ⟨?_, ?_⟩
  · rw [hst a ha, hst b (by omega), List.append_assoc, ← List.map_append, hr]
    congr 2
    have : s.entries.take (a - nextIndex s.purged) = (s.entries.take (b - nextIndex s.purged)).take (a - nextIndex s.purged) := by
      rw [List.take_take, Nat.min_eq_left (by omega)]
    rw [this, List.take_append_drop]
  · intro i e he
    rw [hr, List.getElem?_drop] at he
    have hlt := lt_of_get he
    rw [List.length_take] at hlt
    rw [get_take (by omega)] at he
    have := h.pos _ e he
    omega

/-- applying the entries between two committed positions -/
theorem PosOk.apply {v : Vote} {s : LogStore} (h : StOk g s) {o : Option LogId} {x : LogId} {m : StoredMem} (hp : PosOk g v o m)
    (hx : Val g x) (hcx : CVote g v (cont g (some x))) (hlo : nextIndex s.purged ≤ nextIndex o) (hle : nextIndex o ≤ x.index + 1)
    (ho : (stLog g s).take (nextIndex o) = cont g o) (hxl : (stLog g s).take (x.index + 1) = cont g (some x)) :
    PosOk g v (some x) (Runtime.Node.memAfter m (s.read (nextIndex o) (x.index + 1))) := by
  obtain ⟨h1, h2⟩ := h.read_log hlo hle
  refine ⟨fun y hy => by cases hy; exact hx, hcx, ?_⟩
  rw [← hxl, h1, memOf_append _ _ (fun i e he => ?_), ho, ← hp.2.2]
  · unfold Runtime.Node.memAfter
    rw [List.getLastD_eq_getLast?]
  · rw [ho, cont_lenO hp.1]; exact h2 i e he

namespace NI

theorem np_smStep (hm0 : m0.configs ≠ []) (hg : GInv m0 g) (h : NI g dv q g0 a0 s0 c0 P S n) (hp : NP g n) (hr : n.smStep = .ok n') : NP g n' := by
  have hchain := h.r.s.chain
  unfold Runtime.Node.smStep at hr
  cases hq : n.smq with
  | nil => rw [hq] at hr; simp only [out_pure] at hr; subst hr; exact hp
  | cons c qs =>
    rw [hq] at hr hchain
    cases c with
    | apply first last =>
      simp only at hr
      split at hr
      · next hlen =>
        rw [out_pure] at hr
        subst hr
        obtain ⟨c1, c2, c3, c4, _⟩ := hchain
        obtain ⟨k1, k2⟩ := hp.que first last (by rw [hq]; simp)
        refine ⟨?_, hp.snap, hp.builds, fun f l hm => hp.que f l (by rw [hq]; exact List.mem_cons_of_mem _ hm),
          fun m f hm => hp.inst m f (by rw [hq]; exact List.mem_cons_of_mem _ hm)⟩
        have hvs := h.vsD hg
        have hid := h.x.aq first last (by rw [hq]; simp)
        have hst := hvs.st
        have hlog : logOf g (g0.runs (P ++ S)) = stLog g n.rd := by rw [h.r.d.rd]; rfl
        rw [← h.r.d.rd] at hst
        have hx := (take_of_idAt hvs.good hid).2
        rw [hlog] at hx
        have ho := hp.sm.2.1.pre_of_len hg k2 (by rw [cont_lenO hp.sm.1, cont_len k1]; omega)
        have ho : (stLog g n.rd).take (cont g n.sm.applied).length = cont g n.sm.applied := by
          refine (List.prefix_iff_eq_take.1 (ho.trans ?_)).symm
          rw [← hx]; exact List.take_prefix _ _
        rw [cont_lenO hp.sm.1] at ho
        rw [c1] at hlen ⊢
        have hfull := hst.read_full (a := nextIndex n.sm.applied) (k := last.index + 1 - nextIndex n.sm.applied) (by omega) (by
          rw [Nat.add_sub_cancel' (by omega)]; exact hlen)
        exact hp.sm.apply hst k1 k2 hfull.1 (by omega) ho hx
      · cases hr
    | install m io =>
      simp only [out_pure] at hr
      subst hr
      have hm := hp.inst m io (by rw [hq]; simp)
      exact ⟨hm, hm, hp.builds, fun f l hm => hp.que f l (by rw [hq]; exact List.mem_cons_of_mem _ hm),
        fun m f hm => hp.inst m f (by rw [hq]; exact List.mem_cons_of_mem _ hm)⟩
    | build =>
      simp only [out_pure] at hr
      subst hr
      refine ⟨hp.sm, hp.snap, ?_, fun f l hm => hp.que f l (by rw [hq]; exact List.mem_cons_of_mem _ hm),
        fun m f hm => hp.inst m f (by rw [hq]; exact List.mem_cons_of_mem _ hm)⟩
      intro m hm
      rcases List.mem_append.1 hm with hm | hm
      · exact hp.builds m hm
      · rw [List.mem_singleton.1 hm]; exact hp.sm

theorem np_build (hp : NP g n) (k : Nat) : NP g (n.buildDone k) := by
  unfold Runtime.Node.buildDone
  cases hk : n.builds[k]? with
  | none => exact hp
  | some m =>
    have hm := hp.builds m (List.mem_of_getElem? hk)
    refine ⟨hp.sm, ?_, fun x hx => hp.builds x (List.mem_of_mem_eraseIdx hx), hp.que, hp.inst⟩
    simp only
    split
    · exact hm
    · exact hp.snap

theorem answer_sm (es : List Ent) (n : Runtime.Node) : (n.answer es).sm = n.sm ∧ (n.answer es).builds = n.builds ∧ (n.answer es).smq = n.smq := by
  induction es generalizing n with
  | nil => exact ⟨rfl, rfl, rfl⟩
  | cons e es ih =>
    unfold Runtime.Node.answer
    obtain ⟨h1, h2, h3⟩ := ih (match BMap.get n.clients e.id.index with
      | some tx => { n with clients := BMap.remove n.clients e.id.index, replies := n.replies ++ [(tx, some e)] }
      | none => n)
    refine ⟨h1.trans ?_, h2.trans ?_, h3.trans ?_⟩ <;> split <;> rfl

theorem handle_sm {x : Note} {xs : List Note} (hr : Runtime.Node.handle dbg now { n with rx := xs } x = .ok n') :
    n'.sm = n.sm ∧ n'.builds = n.builds ∧ n'.smq = n.smq := by
  cases x <;> simp only [Runtime.Node.handle, out_bind, lift_ok, out_pure] at hr
  all_goals
    obtain ⟨e, _, hr⟩ := hr
    subst hr
    first | exact ⟨rfl, rfl, rfl⟩ | exact answer_sm _ _

theorem np_run1 (hg : GInv m0 g) (hle : GhostLe g g') (h : NI g dv q g0 a0 s0 c0 P S n) (hp : NP g n) (hv : n.disk.vote ≤ n'.disk.vote)
    (hr : n.run1 dbg = .ok n') : NP g' n' := by
  unfold Runtime.Node.run1 at hr
  cases hc : n.head with
  | none =>
    rw [hc] at hr; simp only [out_pure] at hr; subst hr
    exact hp.mono hle hv rfl rfl (fun f l hm => Or.inl hm) fun m f hm => Or.inl hm
  | some c =>
    rw [hc] at hr
    simp only at hr
    split at hr
    · simp only [out_bind, out_pure] at hr
      obtain ⟨n1, he, hr⟩ := hr
      subst hr
      obtain ⟨e1, e2, e3⟩ := exec_sm he
      refine hp.mono hle hv e1 e2 (fun f l hm => ?_) fun m f hm => ?_
      rotate_left
      · by_cases hsv : ∃ w, c = .saveVote w
        · obtain ⟨w, rfl⟩ := hsv
          simp only [Runtime.Node.exec, out_bind, out_pure] at he
          obtain ⟨n2, h1, he⟩ := he
          rw [submit_ok h1] at he
          subst he
          exact Or.inl hm
        · obtain ⟨_, _, _, e4⟩ := exec_facts (fun w hw => hsv ⟨w, hw⟩) he
          refine (e4 m f hm).imp id ?_
          rintro rfl
          obtain ⟨h1, h2, _, _⟩ := h.headLegal hc
          obtain ⟨⟨x, hx, _⟩, _⟩ := (h.r.head hc).1
          refine PosOk.mono hle hv ⟨fun y hy => (h1 y hy).1, ?_, ?_⟩
          · rw [h.vote_disk]; exact h2
          · rw [(h1 x hx).2, hx]
      rcases e3 f l hm with h1 | ⟨a, rfl⟩ | rfl
      · exact Or.inl h1
      · right
        have hleg := h.headLegal hc
        obtain ⟨k1, _⟩ := h.r.head hc
        have hvs := h.vsD hg
        have hid : idAt (logOf g (g0.runs (P ++ S))) l.index = some l := hvs.st.idAt_mem (List.mem_append_right _ k1.2.1)
        obtain ⟨hval, htk⟩ := take_of_idAt hvs.good hid
        rw [cont_mono hle hval]
        refine ⟨hval.mono hle, (CVote.mono hle ?_).le hv⟩
        have hleg : CVote g (g0.runs (P ++ S)).vote ((logOf g (g0.runs (P ++ S))).take (l.index + 1)) := hleg
        rw [h.vote_disk, ← htk]
        exact hleg
      · exact (h.r.head hc).2.1.elim
    · simp only [out_pure] at hr; subst hr
      exact hp.mono hle hv rfl rfl (fun f l hm => Or.inl hm) fun m f hm => Or.inl hm

/-- an event of a node -/
theorem np_step (hm0 : m0.configs ≠ []) (hg : GInv m0 g) (hle : GhostLe g g') (h : NI g dv q g0 a0 s0 c0 P S n) (hp : NP g n)
    (hv : n.disk.vote ≤ n'.disk.vote) {ev : Runtime.Ev} (hr : n.step dbg ev = .ok n') : NP g' n' := by
  have same : n'.sm = n.sm → n'.builds = n.builds → n'.smq = n.smq → NP g' n' := fun h1 h2 h3 =>
    hp.mono hle hv h1 h2 (fun f l hm => Or.inl (h3 ▸ hm)) fun m f hm => Or.inl (h3 ▸ hm)
  have all : NP g n' → NP g' n' := fun h1 => h1.le hle
  cases ev with
  | msg now i =>
    simp only [Runtime.Node.step] at hr
    split at hr
    · simp only [out_bind, lift_ok, out_pure] at hr
      obtain ⟨e, he, hr⟩ := hr
      subst hr
      exact same rfl rfl rfl
    · rw [out_pure] at hr; subst hr; exact same rfl rfl rfl
  | write now tx p =>
    simp only [Runtime.Node.step] at hr
    split at hr
    · simp only [out_bind, lift_ok, out_pure] at hr
      obtain ⟨⟨i, e⟩, he, hr⟩ := hr
      subst hr
      cases i <;> exact same rfl rfl rfl
    · rw [out_pure] at hr; subst hr; exact same rfl rfl rfl
  | change now tx c r =>
    simp only [Runtime.Node.step] at hr
    split at hr
    · simp only [out_bind, lift_ok, out_pure] at hr
      obtain ⟨⟨i, e⟩, he, hr⟩ := hr
      subst hr
      cases i <;> exact same rfl rfl rfl
    · rw [out_pure] at hr; subst hr; exact same rfl rfl rfl
  | note now =>
    simp only [Runtime.Node.step] at hr
    split at hr
    · cases hx : n.rx with
      | nil => rw [hx] at hr; rw [out_pure] at hr; subst hr; exact same rfl rfl rfl
      | cons x xs =>
        rw [hx] at hr
        obtain ⟨h1, h2, h3⟩ := handle_sm hr
        exact same h1 h2 h3
    · rw [out_pure] at hr; subst hr; exact same rfl rfl rfl
  | run => exact h.np_run1 hg hle hp hv hr
  | flush =>
    simp only [Runtime.Node.step, out_pure] at hr
    subst hr
    have : n.flush1.sm = n.sm ∧ n.flush1.builds = n.builds ∧ n.flush1.smq = n.smq := by
      unfold Runtime.Node.flush1
      cases n.pend <;> exact ⟨rfl, rfl, rfl⟩
    exact same this.1 this.2.1 this.2.2
  | sm => exact all (h.np_smStep hm0 hg hp hr)
  | build k =>
    simp only [Runtime.Node.step, out_pure] at hr
    subst hr
    exact all (np_build hp k)

end NI

theorem NP.fresh {cfg : Cfg} {persist : Bool} : NP g (Runtime.Node.fresh cfg now persist) :=
  ⟨.zero _, .zero _, fun m hm => (by cases hm), fun f l hm => (by cases hm), fun m f hm => (by cases hm)⟩

end Openraft.Net
