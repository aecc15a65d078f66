import Verif.Cluster.Steps1
import Verif.Pure.ProgressLemmas

/-!
# Steps of a leader, and crashes, keep the invariants
-/

set_option autoImplicit false

namespace Openraft.Cluster

variable {m0 : Membership} {g : Ghost} {s : State} {n : NodeId}

/-! ## Values of a `VecProgress` -/

section
variable {α : Type} [LinearOrder α]

theorem moveUp_mem (i : Nat) (v : List (NodeId × α)) : ∀ e ∈ (VecProgress.moveUp v i).1, e ∈ v := by
  induction i generalizing v with
  | zero => intro e he; exact he
  | succ i ih =>
    intro e he
    simp only [VecProgress.moveUp] at he
    cases ha : v[i]? with
    | none => simp only [ha] at he; exact he
    | some a =>
      cases hb : v[i+1]? with
      | none => simp only [ha, hb] at he; exact he
      | some b =>
        simp only [ha, hb] at he
        split at he
        · have := ih _ e he
          rcases List.mem_or_eq_of_mem_set this with h1 | rfl
          · rcases List.mem_or_eq_of_mem_set h1 with h1 | rfl
            · exact h1
            · exact List.mem_of_getElem? hb
          · exact List.mem_of_getElem? ha
        · exact he

theorem update_spec {p p' : VecProgress α} {id : NodeId} {v : α} (h : p.update id v = some p') :
    p'.configs = p.configs ∧ ∀ e ∈ p'.vector, e ∈ p.vector ∨ e = (id, v) := by
  unfold VecProgress.update at h
  split at h
  · cases h
  · rename_i idx hidx
    split at h
    · cases h
    · rename_i x prev hprev
      simp only at h
      split at h
      · cases h
        exact ⟨rfl, fun e he => List.mem_or_eq_of_mem_set he⟩
      · split at h
        · cases h
          exact ⟨rfl, fun e he => List.mem_or_eq_of_mem_set he⟩
        · split at h
          · cases h
            refine ⟨rfl, ?_⟩
            intro e he
            exact List.mem_or_eq_of_mem_set (moveUp_mem _ _ e he)
          · cases h
            exact ⟨rfl, fun e he => List.mem_or_eq_of_mem_set he⟩

theorem upgrade_spec (p : VecProgress α) (configs : List (List NodeId)) (ls : List NodeId) (d : α) :
    (p.upgrade configs ls d).configs = configs ∧
    ∀ e ∈ (p.upgrade configs ls d).vector, e ∈ p.vector ∨ e.2 = d := by
  unfold VecProgress.upgrade
  have gen : ∀ (us : List (NodeId × α)) (q : VecProgress α), q.configs = configs →
      (∀ e ∈ q.vector, e ∈ p.vector ∨ e.2 = d) → (∀ e ∈ us, e ∈ p.vector) →
      (us.foldl (fun np e => (np.update e.1 e.2).getD np) q).configs = configs ∧
      ∀ e ∈ (us.foldl (fun np e => (np.update e.1 e.2).getD np) q).vector, e ∈ p.vector ∨ e.2 = d := by
    intro us
    induction us with
    | nil => intro q h1 h2 _; exact ⟨h1, h2⟩
    | cons u us ih =>
      intro q h1 h2 h3
      rw [List.foldl_cons]
      apply ih
      · cases hu : q.update u.1 u.2 with
        | none => exact h1
        | some q' => exact (update_spec hu).1.trans h1
      · intro e he
        cases hu : q.update u.1 u.2 with
        | none => rw [hu] at he; exact h2 e he
        | some q' =>
          rw [hu] at he
          rcases (update_spec hu).2 e he with h | rfl
          · exact h2 e h
          · exact Or.inl (h3 _ List.mem_cons_self)
      · intro e he; exact h3 e (List.mem_cons_of_mem _ he)
  refine gen p.vector _ rfl ?_ (fun e he => he)
  intro e he
  simp only [VecProgress.new, List.mem_append, List.mem_map] at he
  rcases he with ⟨_, _, rfl⟩ | ⟨_, _, rfl⟩ <;> exact Or.inr rfl

end

/-! ## Appending -/

/-- A leader appends an entry. -/
theorem step_leaderAppend (h : Inv m0 s g) {ld : Leader} (hl : (s.nodes n).leader = some ld) {e : Entry}
    (he : e.lid = ld.lid) {prog : VecProgress Nat} (hcfg : prog.configs = cfgs ((s.nodes n).mem ++ [e]))
    (hprog : ∀ p ∈ prog.vector, p ∈ ld.prog.vector ∨ p.2 = 0)
    (hch : ∀ m, e.cfg = some m → ∃ k0 mp, lastCfg (s.nodes n).mem = some (k0, mp) ∧
      (∃ c, c ∈ mp.configs ∧ c ∈ m.configs) ∧ ∃ r ∈ g.commits, r.L = ld.lid ∧ k0 < r.m) :
    StepOk m0 (s.set n { s.nodes n with
      buf := (s.nodes n).buf ++ [e], leader := some ⟨ld.lid, prog⟩ }) g := by
  have hn := h.node n
  generalize hnd : s.nodes n = nd at *
  have hL := hn.lead ld hl
  obtain ⟨S, hS⟩ := hL.el
  have st := step_append (g := g) n ld.lid e hL.node
  have g1 := ginv_append h.ghost ld.lid e S hS he (by rw [hL.ll]; exact hch)
  have hllL : (g.append ld.lid e).ll ld.lid = nd.mem ++ [e] := by
    rw [← hL.ll]; exact fset_same _ _ _
  refine stepOk_of h st g1 (fun i hi => set_ne _ _ hi) ?_ (fun m hm => Or.inl hm) (fun m hm => Or.inl hm)
    (fun m hm => Or.inl hm)
  rw [set_same]
  generalize hnd' : ({ nd with buf := nd.buf ++ [e], leader := some ⟨ld.lid, prog⟩ } : Node) = nd'
  have hmem' : nd'.mem = nd.mem ++ [e] := by rw [← hnd']; simp [Node.mem]
  have hpre : nd.mem <+: nd'.mem := by rw [hmem']; exact List.prefix_append _ _
  have hvote' : nd'.vote = nd.vote := by rw [← hnd']
  have hlog' : nd'.log = nd.log := by rw [← hnd']
  have hcomm' : nd'.committed = nd.committed := by rw [← hnd']
  have hsm' : nd'.sm = nd.sm := by rw [← hnd']
  have htk : nd'.mem.take nd.committed = nd.mem.take nd.committed := take_eq_of_pre hpre hn.commLe
  have hlead' : nd'.leader = some ⟨ld.lid, prog⟩ := by rw [← hnd']
  exact {
    good := by rw [hmem', ← hllL]; exact g1.goodL _
    lids := by
      rw [hmem', hvote']
      intro x hx
      rcases List.mem_append.1 hx with hx | hx
      · exact hn.lids x hx
      · simp at hx; subst hx; rw [he, hL.vote]
    voteEl := by intro _; rw [hvote', hL.vote]; exact ⟨S, hS⟩
    bufNil := by intro hx; rw [hlead'] at hx; cases hx
    lead := by
      intro ld' hld
      rw [hlead'] at hld
      cases hld
      exact {
        vote := by rw [hvote']; exact hL.vote
        node := hL.node, el := ⟨S, hS⟩
        ll := by rw [hllL, hmem']
        configs := by rw [hmem']; exact hcfg
        prog := by
          intro p hp h0
          rcases hprog p hp with h1 | h1
          · exact hL.prog p h1 h0
          · omega
        own := by rw [hcomm']; exact hL.own }
    cand := by
      intro c' hc'
      rw [← hnd'] at hc'
      have := (hn.cand c' hc').noLeader
      rw [hl] at this; cases this
    ownCl := by intro X hX hXn; rw [hvote']; exact hn.ownCl X hX hXn
    acks := by
      intro a ha hq
      obtain ⟨h1, h2⟩ := hn.acks a ha hq
      refine ⟨by rw [hvote']; exact h1, ?_⟩
      intro m hm hyp
      have hlen := (h.ghost.ackEl a ha).2
      rw [st.take (le_trans hm hlen)] at hyp ⊢
      rw [hlog']
      exact h2 m hm fun L'' S l hS hl hlt hv => hyp L'' S l hS hl hlt (by rw [hvote']; exact hv)
    grants := by intro gr hgr hq; rw [hvote']; exact hn.grants gr hgr hq
    commLe := by rw [hcomm']; exact le_trans hn.commLe hpre.length_le
    comm := by rw [hcomm', htk, hvote']; exact hn.comm.mono st.toGhostLe
    sm := by rw [hcomm', htk, hsm']; exact hn.sm
    acc := by intro hx; rw [hlead'] at hx; cases hx }

theorem step_write (h : Inv m0 s g) {ld : Leader} (hl : (s.nodes n).leader = some ld) (d : Nat) :
    StepOk m0 (s.set n ((s.nodes n).write ld d)) g := by
  have hL := (h.node n).lead ld hl
  have := step_leaderAppend h hl (e := ⟨ld.lid, .normal d⟩) rfl (prog := ld.prog)
    (by rw [hL.configs, cfgs, cfgs, effMembership, effMembership, lastCfg_snoc_none _ _ rfl])
    (fun p hp => Or.inl hp) (by intro m hm; cases hm)
  unfold Node.write
  rw [show ({ s.nodes n with buf := (s.nodes n).buf ++ [⟨ld.lid, .normal d⟩] } : Node) =
    { s.nodes n with buf := (s.nodes n).buf ++ [⟨ld.lid, .normal d⟩], leader := some ⟨ld.lid, ld.prog⟩ } by rw [← hl]]
  exact this

theorem step_change (hm0 : m0.configs ≠ []) (h : Inv m0 s g) {ld : Leader} (hl : (s.nodes n).leader = some ld)
    {k : Nat} {mk m : Membership} {ch : ChangeMembers} {retain : Bool}
    (hcfg : lastCfg (s.nodes n).mem = some (k, mk))
    (hchg : (effMembership (s.nodes n).mem).change ch retain = .ok m) (hk : k < (s.nodes n).committed)
    (hown : (idAt (s.nodes n).mem ((s.nodes n).committed - 1)).map (·.leaderId) = some ld.lid) :
    StepOk m0 (s.set n ((s.nodes n).propose ld m)) g := by
  have hn := h.node n
  have hL := hn.lead ld hl
  have hspec := upgrade_spec ld.prog m.configs m.learnerIds 0
  have hlast := lastCfg_snoc_cfg (s.nodes n).mem ⟨ld.lid, .membership m⟩ m rfl
  refine step_leaderAppend h hl (e := ⟨ld.lid, .membership m⟩) rfl (prog := ld.prog.upgrade m.configs m.learnerIds 0)
    ?_ hspec.2 ?_
  · rw [hspec.1, cfgs, effMembership_of hlast]
  · intro m' hm'
    have : m' = m := by simpa [Entry.cfg] using hm'.symm
    subst this
    refine ⟨k, mk, hcfg, ?_, ?_⟩
    · rw [effMembership_of hcfg] at hchg
      obtain ⟨⟨e, he, hm⟩, _⟩ := lastCfg_some.1 hcfg
      have hne := h.ghost.cfgNe hm0 hn.good he hm
      rw [(Membership.change_ok hchg).1]
      exact Membership.changeRaw_shares hne ch retain
    · -- a commit of this leader covers the last membership
      have hvl : (s.nodes n).vote.leaderId = ld.lid := by rw [hL.vote]
      have hc := hn.comm
      rw [hvl] at hc
      obtain ⟨e, he, hel⟩ : ∃ e, (s.nodes n).mem[(s.nodes n).committed - 1]? = some e ∧ e.lid = ld.lid := by
        rw [Option.map_eq_some_iff] at hown
        obtain ⟨x, hx, hx'⟩ := hown
        obtain ⟨e, he, rfl⟩ := idAt_some.1 hx
        exact ⟨e, he, hx'⟩
      have hlen : ((s.nodes n).mem.take (s.nodes n).committed).length = (s.nodes n).committed := by
        rw [List.length_take]; have := hn.commLe; omega
      rcases hc with h0 | ⟨r, hr, hrL, hp⟩
      · rw [h0] at hlen; simp at hlen; omega
      · refine ⟨r, hr, ?_, ?_⟩
        · have h1 : ((s.nodes n).mem.take (s.nodes n).committed)[(s.nodes n).committed - 1]? = some e := by
            rw [get_take (by omega)]; exact he
          have h2 := get_of_pre_some (pre_of_pre_take hp) h1
          have := h.ghost.lidLe h2
          rw [hel] at this
          exact le_antisymm hrL this
        · have := hp.length_le
          rw [hlen, List.length_take] at this
          omega

/-! ## Messages of a leader -/

theorem prevLid_spec {l : Log} {lo : Nat} (h0 : 0 < lo) (h : lo ≤ l.length) :
    ∃ e, l[lo - 1]? = some e ∧ e.lid = ((idAt l (lo - 1)).map (·.leaderId)).getD ⟨0, 0⟩ := by
  have hlt : lo - 1 < l.length := by omega
  refine ⟨l[lo - 1], List.getElem?_eq_getElem hlt, ?_⟩
  simp [idAt, List.getElem?_eq_getElem hlt]

theorem LeadInv.cpre {nd : Node} {ld : Leader} (hn : NodeInv g n nd) (hL : LeadInv g n nd ld) :
    nd.committed ≤ (g.ll ld.lid).length ∧ CPre g ld.lid ((g.ll ld.lid).take nd.committed) := by
  have hc := hn.comm
  rw [hL.vote] at hc
  rw [hL.ll]
  exact ⟨hn.commLe, hc⟩

theorem step_queue (h : Inv m0 s g) {ld : Leader} (hl : (s.nodes n).leader = some ld) {lo hi : Nat}
    (h1 : lo ≤ hi) (h2 : hi ≤ (s.nodes n).mem.length) :
    StepOk m0 { s with tasks := ⟨n, ld.lid, lo,
      ((idAt (s.nodes n).mem (lo - 1)).map (·.leaderId)).getD ⟨0, 0⟩, hi, (s.nodes n).committed⟩ :: s.tasks } g := by
  have hn := h.node n
  have hL := hn.lead ld hl
  refine stepOk_of h (GhostStep.refl n g) h.ghost (fun i hi => rfl) hn (fun m hm => Or.inl hm) ?_ (fun m hm => Or.inl hm)
  intro t ht
  rcases List.mem_cons.1 ht with rfl | ht
  · right
    refine ⟨hL.el, ?_, h1, hL.node, ?_, LeadInv.cpre hn hL⟩
    · rw [hL.ll]; simp only; omega
    · intro h0
      rw [hL.ll]
      exact prevLid_spec h0 (by simp only at *; omega)
  · exact Or.inl ht

theorem step_send (h : Inv m0 s g) {t : Task} (ht : t ∈ s.tasks) (hof : InOffice s t.owner t.lid = true) :
    StepOk m0 (s.post (.app ⟨t.lid, t.prev, t.prevLid, ((s.nodes t.owner).mem.take t.hi).drop t.prev, t.commit⟩)) g := by
  obtain ⟨hS, h1, h2, h3, h4, h5, h6⟩ := h.task t ht
  have hn := h.node t.owner
  have hmem : g.ll t.lid = (s.nodes t.owner).mem := by
    unfold InOffice at hof
    split at hof
    · rename_i ld hld
      have := (hn.lead ld hld).ll
      rw [beq_iff_eq] at hof
      rw [← hof]; exact this
    · cases hof
  refine step_post h ⟨hS, h1, ?_, h4, h5, h6⟩
  show (g.ll t.lid).take t.prev ++ ((s.nodes t.owner).mem.take t.hi).drop t.prev <+: g.ll t.lid
  rw [← hmem]
  have : (g.ll t.lid).take t.prev = ((g.ll t.lid).take t.hi).take t.prev := by
    rw [List.take_take, Nat.min_eq_left h2]
  rw [this, List.take_append_drop]
  exact List.take_prefix _ _

theorem step_beat (h : Inv m0 s g) {ld : Leader} (hl : (s.nodes n).leader = some ld) :
    StepOk m0 (s.post (.app ⟨ld.lid, 0, ⟨0, 0⟩, [], (s.nodes n).committed⟩)) g := by
  have hn := h.node n
  have hL := hn.lead ld hl
  refine step_post h ⟨hL.el, Nat.zero_le _, ?_, ?_, LeadInv.cpre hn hL⟩
  · simp
  · intro h0; simp at h0

theorem step_sendSnap (h : Inv m0 s g) {ld : Leader} (hl : (s.nodes n).leader = some ld) (k : Nat) :
    StepOk m0 (s.post (.snap ld.lid ((s.nodes n).sm.take k))) g := by
  have hn := h.node n
  have hL := hn.lead ld hl
  have hp : (s.nodes n).sm.take k <+: (s.nodes n).mem.take (s.nodes n).committed :=
    (List.take_prefix _ _).trans hn.sm
  refine step_post h ⟨hL.el, ?_, ?_⟩
  · rw [hL.ll]; exact pre_of_pre_take hp
  · have := hn.comm
    rw [hL.vote] at this
    exact this.pre hp

/-! ## Commit -/

/-- The progress of a node is updated by an acknowledged position. -/
theorem step_progress (h : Inv m0 s g) {ld : Leader} (hl : (s.nodes n).leader = some ld) {q : NodeId} {v : Nat}
    (hack : 0 < v → ∃ a ∈ g.acks, a.q = q ∧ a.L = ld.lid ∧ v ≤ a.m)
    (hex : ExactCommit (s.nodes n) ld q v = true) : StepOk m0 (s.set n ((s.nodes n).progress ld q v)) g := by
  have hn := h.node n
  have hex' := hex
  unfold ExactCommit at hex
  unfold Node.progress at hex ⊢
  generalize hnd : s.nodes n = nd at *
  have hL := hn.lead ld hl
  cases hu : ld.prog.update q v with
  | none =>
    simp only
    refine step_node h hn
  | some p =>
    simp only [hu] at hex ⊢
    obtain ⟨hcfg, hvals⟩ := update_spec hu
    have hback : ∀ e ∈ p.vector, 0 < e.2 → ∃ a ∈ g.acks, a.q = e.1 ∧ a.L = ld.lid ∧ e.2 ≤ a.m := by
      intro e he h0
      rcases hvals e he with h1 | rfl
      · exact hL.prog e h1 h0
      · exact hack h0
    have hvl : nd.vote.leaderId = ld.lid := by rw [hL.vote]
    -- the node after the update, for any committed position that is justified
    have mk : ∀ (g' : Ghost) (c : Nat), GhostLe g g' → (g'.ll = g.ll ∧ g'.cl = g.cl ∧ g'.el = g.el ∧ g'.acks = g.acks ∧ g'.grants = g.grants) →
        c ≤ nd.mem.length → nd.committed ≤ c → CPre g' ld.lid (nd.mem.take c) →
        (g.keep = true → ∀ r ∈ g'.commits, r.L = ld.lid → r.m ≤ c) →
        NodeInv g' n { nd with leader := some ⟨ld.lid, p⟩, committed := c } := by
      intro g' c hle hsame hc hcc hcp hown
      obtain ⟨e1, e2, e3, e4, e5⟩ := hsame
      have hmem : ({ nd with leader := some ⟨ld.lid, p⟩, committed := c } : Node).mem = nd.mem := rfl
      exact {
        good := hn.good.mono hle
        lids := hn.lids
        voteEl := by rw [e3]; exact hn.voteEl
        bufNil := by intro hx; cases hx
        lead := by
          intro ld' hld
          cases hld
          exact ⟨hL.vote, hL.node, by rw [e3]; exact hL.el, by rw [e1]; exact hL.ll, by rw [hmem]; exact hcfg.trans hL.configs,
            by rw [e4]; exact hback, by intro hk; rw [hle.keep] at hk; exact hown hk⟩
        cand := by
          intro c' hc'
          have := (hn.cand c' hc').noLeader
          rw [hl] at this; cases this
        ownCl := by rw [e2]; exact hn.ownCl
        acks := by rw [e1, e2, e3, e4]; exact hn.acks
        grants := by rw [e5]; exact hn.grants
        commLe := hc
        comm := by
          show CPre g' nd.vote.leaderId _
          rw [hvl]; exact hcp
        sm := hn.sm.trans (take_pre_take hcc)
        acc := by intro hx; cases hx }
    by_cases hcond : nd.committed < p.granted ∧ (idAt nd.mem (p.granted - 1)).map (·.leaderId) = some ld.lid
    · rw [if_pos hcond] at hex ⊢
      obtain ⟨hlt, hid⟩ := hcond
      have hq : isQuorum p.configs (p.reached p.granted).dedup = true := by
        rw [Bool.or_eq_true] at hex
        rcases hex with hx | hx
        · rw [beq_iff_eq] at hx; omega
        · exact hx
      rw [Option.map_eq_some_iff] at hid
      obtain ⟨x, hx, hx'⟩ := hid
      obtain ⟨e, he, rfl⟩ := idAt_some.1 hx
      simp only at hx'
      have hlen := lt_of_get he
      have hgl : p.granted ≤ nd.mem.length := by omega
      set r : Commit := ⟨ld.lid, p.granted, nd.mem.length, (p.reached p.granted).dedup⟩ with hr
      have st := step_addCommit (g := g) n r hL.node
      have g1 := ginv_addCommit h.ghost r hL.el (by simp only [hr]; omega) (by simp only [hr]; omega)
        (by simp only [hr]; rw [hL.ll]) ⟨e, by simp only [hr]; rw [hL.ll]; exact he, hx'⟩
        (by simp only [hr]; rw [hL.ll, List.take_length, ← hL.configs, ← hcfg]; exact hq) (List.nodup_dedup _)
        (by
          intro y hy
          simp only [hr, List.mem_dedup, VecProgress.reached, List.mem_map, List.mem_filter, decide_eq_true_eq] at hy
          obtain ⟨z, ⟨hz, hzle⟩, rfl⟩ := hy
          obtain ⟨a, ha, h1, h2, h3⟩ := hback z (List.mem_of_mem_take hz) (by omega)
          exact ⟨a, ha, h1, h2, le_trans hzle h3⟩)
      refine stepOk_of h st g1 (fun i hi => set_ne _ _ hi) ?_ (fun m hm => Or.inl hm) (fun m hm => Or.inl hm)
        (fun m hm => Or.inl hm)
      rw [set_same]
      refine mk _ _ st.toGhostLe ⟨rfl, rfl, rfl, rfl, rfl⟩ hgl (by omega) ?_ ?_
      · refine Or.inr ⟨r, List.mem_cons_self, le_refl _, ?_⟩
        show nd.mem.take p.granted <+: (g.ll ld.lid).take p.granted
        rw [hL.ll]
      · intro hk b hb hbL
        rcases List.mem_cons.1 hb with rfl | hb
        · exact le_refl _
        · exact le_trans (hL.own hk b hb hbL) (le_of_lt hlt)
    · rw [if_neg hcond]
      refine step_node h (mk g nd.committed (GhostLe.refl g) ⟨rfl, rfl, rfl, rfl, rfl⟩ hn.commLe (le_refl _) ?_ hL.own)
      have := hn.comm
      rw [hvl] at this; exact this

theorem step_recvAck (h : Inv m0 s g) {ld : Leader} (hl : (s.nodes n).leader = some ld) {q : NodeId} {m : Nat}
    (hm : Msg.ack q ld.lid m ∈ s.msgs) (hex : ExactCommit (s.nodes n) ld q m = true) :
    StepOk m0 (s.set n ((s.nodes n).progress ld q m)) g :=
  step_progress h hl (fun _ => h.msg _ hm) hex

theorem step_notify (h : Inv m0 s g) {ld : Leader} (hl : (s.nodes n).leader = some ld) {v : Nat}
    (hv : v ≤ (s.nodes n).log.length) (hex : ExactCommit (s.nodes n) ld n v = true) :
    StepOk m0 (s.set n ((s.nodes n).progress ld n v)) g := by
  have hn := h.node n
  have hL := hn.lead ld hl
  have hpre := NodeInv.log_pre (s.nodes n)
  -- first record the acknowledgement
  have st := step_addAck (g := g) n ⟨n, ld.lid, v⟩ rfl
  have g1 : GInv m0 (g.addAck ⟨n, ld.lid, v⟩) := by
    refine ginv_addAck h.ghost _ hL.el ?_ ?_
    · simp only; rw [hL.ll]; have := hpre.length_le; omega
    · intro gr hgr hq
      have := hn.grants gr hgr hq
      rw [hL.vote] at this
      exact vote_false_le.1 this
  have hi : Inv m0 s (g.addAck ⟨n, ld.lid, v⟩) := by
    refine h.step st g1 (fun i _ => rfl) ?_ (fun m hm => Or.inl hm) (fun m hm => Or.inl hm) (fun m hm => Or.inl hm)
    refine hn.addAck (le_of_eq hL.vote.symm) ?_
    rw [hL.ll, take_eq_of_pre hpre hv]
    exact List.take_prefix _ _
  obtain ⟨g', hle, hinv⟩ := step_progress hi hl (q := n) (v := v)
    (fun _ => ⟨_, List.mem_cons_self, rfl, rfl, le_refl _⟩) hex
  exact ⟨g', st.toGhostLe.trans hle, hinv⟩

/-! ## Flush, apply, step down, crash -/

/-- Only the durable part of the log grows. -/
theorem step_flush (h : Inv m0 s g) {ld : Leader} (hl : (s.nodes n).leader = some ld) (k : Nat) :
    StepOk m0 (s.set n { s.nodes n with
      log := (s.nodes n).log ++ (s.nodes n).buf.take k, buf := (s.nodes n).buf.drop k }) g := by
  have hn := h.node n
  generalize hnd : s.nodes n = nd at *
  refine step_node h ?_
  have hmem : ({ nd with log := nd.log ++ nd.buf.take k, buf := nd.buf.drop k } : Node).mem = nd.mem := by
    simp [Node.mem, List.append_assoc, List.take_append_drop]
  have hL := hn.lead ld hl
  exact {
    good := by rw [hmem]; exact hn.good
    lids := by rw [hmem]; exact hn.lids
    voteEl := hn.voteEl
    bufNil := by intro hx; rw [show nd.leader = none from hx] at hl; cases hl
    lead := by
      intro ld' hld
      have := hn.lead ld' hld
      exact ⟨this.vote, this.node, this.el, by rw [hmem]; exact this.ll, by rw [hmem]; exact this.configs, this.prog, this.own⟩
    cand := by
      intro c' hc'
      have := (hn.cand c' hc').noLeader
      rw [hl] at this; cases this
    ownCl := hn.ownCl
    acks := by
      intro a ha hq
      obtain ⟨h1, h2⟩ := hn.acks a ha hq
      exact ⟨h1, fun m hm hyp => (h2 m hm hyp).trans (List.prefix_append _ _)⟩
    grants := hn.grants
    commLe := by rw [hmem]; exact hn.commLe
    comm := by rw [hmem]; exact hn.comm
    sm := by rw [hmem]; exact hn.sm
    acc := by intro hx; rw [show nd.leader = none from hx] at hl; cases hl }

theorem step_apply (h : Inv m0 s g) {k : Nat} (h1 : (s.nodes n).sm.length ≤ k) (h2 : k ≤ (s.nodes n).committed) :
    StepOk m0 (next m0 s (.apply n k)) g := by
  have hn := h.node n
  simp only [next]
  generalize hnd : s.nodes n = nd at *
  have hsmmem : nd.sm <+: nd.mem := pre_of_pre_take hn.sm
  have hsm : nd.sm ++ (nd.mem.take k).drop nd.sm.length = nd.mem.take k := by
    have : nd.sm = (nd.mem.take k).take nd.sm.length := by
      rw [List.take_take, Nat.min_eq_left h1]; exact List.prefix_iff_eq_take.1 hsmmem
    conv_lhs => lhs; rw [this]
    rw [List.take_append_drop]
  rw [hsm]
  have hpre : nd.mem.take k <+: nd.mem.take nd.committed := take_pre_take h2
  refine stepOk_of h (GhostStep.refl n g) h.ghost (fun i hi => set_ne _ _ hi) ?_ (fun m hm => Or.inl hm)
    (fun m hm => Or.inl hm) ?_
  · show NodeInv g n ((s.set n { nd with sm := nd.mem.take k }).nodes n)
    rw [set_same]
    exact {
      good := hn.good, lids := hn.lids, voteEl := hn.voteEl, bufNil := hn.bufNil
      lead := by
        intro ld hld
        have := hn.lead ld hld
        exact ⟨this.vote, this.node, this.el, this.ll, this.configs, this.prog, this.own⟩
      cand := by
        intro c hc
        have := hn.cand c hc
        exact ⟨this.vote, this.node, this.el, this.cl, this.configs, this.voter, this.pos, this.nodup, this.grants, this.noLeader⟩
      ownCl := hn.ownCl, acks := hn.acks, grants := hn.grants, commLe := hn.commLe, comm := hn.comm
      sm := hpre, acc := hn.acc }
  · intro x hx
    rcases List.mem_cons.1 hx with rfl | hx
    · exact Or.inr ⟨_, hn.comm.pre hpre⟩
    · exact Or.inl hx

theorem step_quit (h : Inv m0 s g) {ld : Leader} (hl : (s.nodes n).leader = some ld) :
    StepOk m0 (s.set n { s.nodes n with
      log := (s.nodes n).mem, buf := [], leader := none, acc := 0 }) g := by
  have hn := h.node n
  generalize hnd : s.nodes n = nd at *
  refine step_node h ?_
  have hmem : ({ nd with log := nd.mem, buf := [], leader := none, acc := 0 } : Node).mem = nd.mem := by
    simp [Node.mem]
  exact {
    good := by rw [hmem]; exact hn.good
    lids := by rw [hmem]; exact hn.lids
    voteEl := hn.voteEl
    bufNil := fun _ => rfl
    lead := by intro ld' hld; cases hld
    cand := by
      intro c' hc'
      have := (hn.cand c' hc').noLeader
      rw [hl] at this; cases this
    ownCl := hn.ownCl
    acks := by
      intro a ha hq
      obtain ⟨h1, h2⟩ := hn.acks a ha hq
      exact ⟨h1, fun m hm hyp => (h2 m hm hyp).trans (NodeInv.log_pre nd)⟩
    grants := hn.grants
    commLe := by rw [hmem]; exact hn.commLe
    comm := by rw [hmem]; exact hn.comm
    sm := by rw [hmem]; exact hn.sm
    acc := by intro _ _; simp }

/-- The log after a restart lies between the durable log and the memory before the crash. -/
theorem restartLog_spec (hg : GInv m0 g) {nd : Node} (hn : NodeInv g n nd) (f k : Nat) :
    nd.log <+: restartLog (nd.log ++ nd.buf.take f) (nd.sm.take k) ∧
    restartLog (nd.log ++ nd.buf.take f) (nd.sm.take k) <+: nd.mem := by
  have h1 : nd.log ++ nd.buf.take f <+: nd.mem := (List.prefix_append_right_inj _).2 (List.take_prefix _ _)
  have h2 : nd.sm.take k <+: nd.mem := (List.take_prefix _ _).trans (pre_of_pre_take hn.sm)
  have h0 : nd.log <+: nd.log ++ nd.buf.take f := List.prefix_append _ _
  generalize nd.log ++ nd.buf.take f = l1 at *
  generalize nd.sm.take k = sm at *
  unfold restartLog
  split
  · rename_i hlt
    refine ⟨h0.trans (pre_of_le h1 h2 ?_), h2⟩
    by_contra hgt
    have hpre := pre_of_le h2 h1 (by omega)
    apply absurd hlt
    rw [not_lt]
    by_cases hsn : sm = []
    · rw [hsn]; exact OptOrd.none_le' _
    · have hln : l1 ≠ [] := by intro h0; rw [h0] at hgt; simp at hgt
      obtain ⟨e1, he1, hid1⟩ := lastId_some hsn
      obtain ⟨e2, he2, hid2⟩ := lastId_some hln
      rw [hid1, hid2]
      have hslen := List.length_pos_iff.2 hsn
      have hm := hg.mono (hn.good.pre h1) (get_of_pre_some hpre he1) he2 (by omega)
      show (⟨e1.lid, sm.length - 1⟩ : LogId) ≤ ⟨e2.lid, l1.length - 1⟩
      rcases lt_or_eq_of_le hm with hx | hx
      · exact Or.inl hx
      · exact Or.inr ⟨hx, by simp only; omega⟩
  · exact ⟨h0, h1⟩

theorem step_crash (h : Inv m0 s g) {f k c : Nat} {resume : Bool} (hkc : k ≤ c) (hc : c ≤ (s.nodes n).committed)
    (hcl : c ≤ ((s.nodes n).restart f k c resume).log.length)
    (hres : resume = true → (s.nodes n).leader.isSome = true ∧
      ((s.nodes n).restart f k c resume).mem = (s.nodes n).mem ∧ (g.keep = true → c = (s.nodes n).committed)) :
    StepOk m0 (next m0 s (.crash n f k c resume)) g := by
  have hn := h.node n
  simp only [next]
  generalize hnd : s.nodes n = nd at *
  obtain ⟨hlo, hup⟩ := restartLog_spec h.ghost hn f k
  have hlog : (nd.restart f k c resume).log = restartLog (nd.log ++ nd.buf.take f) (nd.sm.take k) := rfl
  have hvote : (nd.restart f k c resume).vote = nd.vote := rfl
  have hsm : (nd.restart f k c resume).sm = nd.sm.take k := rfl
  have hcm : (nd.restart f k c resume).committed = c := rfl
  rw [← hlog] at hlo hup
  -- the memory after the restart
  have hmem : (nd.restart f k c resume).mem <+: nd.mem ∧
      (nd.restart f k c resume).log <+: (nd.restart f k c resume).mem := by
    refine ⟨?_, List.prefix_append _ _⟩
    cases resume with
    | true => rw [(hres rfl).2.1]
    | false =>
      have : (nd.restart f k c false).mem = (nd.restart f k c false).log := by
        simp [Node.mem, Node.restart]
      rw [this]; exact hup
  obtain ⟨hmemp, hlogm⟩ := hmem
  have hcle : c ≤ (nd.restart f k c resume).mem.length := le_trans hcl hlogm.length_le
  have htk : (nd.restart f k c resume).mem.take c = nd.mem.take c := (take_eq_of_pre hmemp hcle).symm
  refine stepOk_of h (GhostStep.refl n g) h.ghost (fun i hi => set_ne _ _ hi) ?_ (fun m hm => Or.inl hm)
    (fun t ht => Or.inl (List.mem_filter.1 ht).1) (fun m hm => Or.inl hm)
  show NodeInv g n ((s.set n (nd.restart f k c resume)).nodes n)
  rw [set_same]
  exact {
    good := hn.good.pre hmemp
    lids := by intro e he; exact hn.lids e (hmemp.subset he)
    voteEl := hn.voteEl
    bufNil := by
      intro hx
      cases resume with
      | true => simp [Node.restart] at hx
      | false => rfl
    lead := by
      intro ld hld
      cases resume with
      | false => simp [Node.restart] at hld
      | true =>
        obtain ⟨h1, h2, h3⟩ := hres rfl
        obtain ⟨ld0, hl0⟩ := Option.isSome_iff_exists.1 h1
        have hL := hn.lead ld0 hl0
        have hld' : ld = ⟨nd.vote.leaderId, VecProgress.new (cfgs (nd.restart f k c true).log)
            (effMembership (nd.restart f k c true).log).learnerIds 0⟩ := by
          simp only [Node.restart, if_true, Option.some.injEq] at hld
          exact hld.symm
        subst hld'
        have hvl : nd.vote.leaderId = ld0.lid := by rw [hL.vote]
        exact {
          vote := by rw [hvote]; simp only; rw [hvl]; exact hL.vote
          node := by simp only; rw [hvl]; exact hL.node
          el := by simp only; rw [hvl]; exact hL.el
          ll := by simp only; rw [hvl, h2]; exact hL.ll
          configs := by
            show cfgs _ = cfgs _
            have hb : (nd.restart f k c true).mem = (nd.restart f k c true).log ++ resumeBuf (nd.restart f k c true).log nd.vote.leaderId := rfl
            rw [hb]
            unfold resumeBuf
            split
            · rw [List.append_nil]
            · rw [cfgs, cfgs, effMembership, effMembership, lastCfg_snoc_none _ _ rfl]
          prog := by
            intro p hp h0
            have := new_vector_zero hp
            omega
          own := by
            intro hk r hr hrL
            rw [hcm, h3 hk]
            exact hL.own hk r hr (by rw [hrL]; exact hvl) }
    cand := by intro c' hc'; cases hc'
    ownCl := hn.ownCl
    acks := by
      intro a ha hq
      obtain ⟨h1, h2⟩ := hn.acks a ha hq
      exact ⟨h1, fun m hm hyp => (h2 m hm hyp).trans hlo⟩
    grants := hn.grants
    commLe := hcle
    comm := by
      rw [hcm, htk, hvote]
      exact hn.comm.pre (take_pre_take hc)
    sm := by
      rw [hcm, htk, hsm]
      refine pre_take_of_le ((List.take_prefix _ _).trans (pre_of_pre_take hn.sm)) ?_
      rw [List.length_take]; omega
    acc := by intro _ _; simp [Node.restart] }

/-! ## All steps -/

theorem step_inv {R : Rules} (hR : R.Safe) (hm0 : m0.configs ≠ []) (h : Inv m0 s g)
    (hk : g.keep = true → R.keepCommitted = true) {e : Event} (hok : ok m0 R s e = true) :
    StepOk m0 (next m0 s e) g := by
  cases e with
  | init n =>
    simp only [ok, decide_eq_true_eq] at hok
    exact step_init h hok.1 hok.2.1 hok.2.2.1
  | elect n =>
    simp only [ok, decide_eq_true_eq] at hok
    exact step_elect h hok.1 hok.2
  | recvVote n lid last =>
    simp only [ok, decide_eq_true_eq] at hok
    exact step_recvVote h hok.1 hok.2.1 hok.2.2.1 hok.2.2.2
  | recvGrant n q =>
    simp only [ok] at hok
    split at hok
    · rename_i c hc
      simp only [next, hc]
      exact step_recvGrant h hc (by simpa using hok)
    · cases hok
  | tell n => exact step_tell h n
  | learn n v =>
    simp only [ok, decide_eq_true_eq] at hok
    exact step_learn h hok.1 hok.2.1 hok.2.2
  | write n d =>
    simp only [ok] at hok
    obtain ⟨ld, hl⟩ := Option.isSome_iff_exists.1 hok
    simp only [next, hl]
    exact step_write h hl d
  | change n ch retain =>
    simp only [ok] at hok
    split at hok
    · rename_i ld k m' m hl hcfg hch
      simp only [decide_eq_true_eq] at hok
      simp only [next, hl, hch]
      exact step_change hm0 h hl hcfg hch hok.1 (hok.2 hR.ownTermGate)
    · cases hok
  | queue n lo hi =>
    simp only [ok, decide_eq_true_eq] at hok
    obtain ⟨ld, hl⟩ := Option.isSome_iff_exists.1 hok.1
    simp only [next, hl]
    exact step_queue h hl hok.2.1 hok.2.2
  | send t =>
    simp only [ok, decide_eq_true_eq] at hok
    exact step_send h hok.1 (hok.2 hR.fenceTasks)
  | beat n =>
    simp only [ok] at hok
    obtain ⟨ld, hl⟩ := Option.isSome_iff_exists.1 hok
    simp only [next, hl]
    exact step_beat h hl
  | recvApp n a j =>
    simp only [ok, decide_eq_true_eq] at hok
    exact step_recvApp hm0 h hok.1 hok.2.1 hok.2.2.1 hok.2.2.2
  | cutApp n a =>
    simp only [ok, decide_eq_true_eq] at hok
    exact step_cutApp hm0 h hok.1 hok.2.1 hok.2.2
  | recvAck n q m =>
    simp only [ok] at hok
    split at hok
    · rename_i ld hl
      simp only [decide_eq_true_eq] at hok
      simp only [next, hl]
      exact step_recvAck h hl hok.1 (hok.2 hR.exactQuorum)
    · cases hok
  | flush n k =>
    simp only [ok, decide_eq_true_eq] at hok
    obtain ⟨ld, hl⟩ := Option.isSome_iff_exists.1 hok.1
    exact step_flush h hl k
  | notify n v =>
    simp only [ok] at hok
    split at hok
    · rename_i ld hl
      simp only [decide_eq_true_eq] at hok
      simp only [next, hl]
      exact step_notify h hl hok.1 (hok.2.2 hR.exactQuorum)
    · cases hok
  | apply n k =>
    simp only [ok, decide_eq_true_eq] at hok
    exact step_apply h hok.1 hok.2
  | sendSnap n k =>
    simp only [ok, decide_eq_true_eq] at hok
    obtain ⟨ld, hl⟩ := Option.isSome_iff_exists.1 hok.1
    simp only [next, hl]
    exact step_sendSnap h hl k
  | recvSnap n lid c =>
    simp only [ok, decide_eq_true_eq] at hok
    exact step_recvSnap hm0 h hok.1 hok.2.1 hok.2.2
  | cutSnap n lid c =>
    simp [ok, hR.atomicSnapshot] at hok
  | quit n =>
    simp only [ok] at hok
    obtain ⟨ld, hl⟩ := Option.isSome_iff_exists.1 hok
    exact step_quit h hl
  | crash n f k c resume =>
    simp only [ok, decide_eq_true_eq] at hok
    obtain ⟨_, _, h3, h4, h5, h6⟩ := hok
    refine step_crash h h3 h4 h5 fun hr => ?_
    obtain ⟨_, _, h7, h8⟩ := h6 hr
    obtain ⟨h9, h10⟩ := h7 hR.losslessResume
    exact ⟨h9, h10, fun hx => h8 (hk hx)⟩

end Openraft.Cluster
