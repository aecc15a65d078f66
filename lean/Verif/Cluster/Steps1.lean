import Verif.Cluster.Follower

/-!
# Steps that elect leaders and replicate to followers keep the invariants
-/

set_option autoImplicit false

namespace Openraft.Cluster

variable {m0 : Membership} {g : Ghost} {s : State}

/-- The invariants hold in `s'` for a history that extends `g`. -/
def StepOk (m0 : Membership) (s' : State) (g : Ghost) : Prop := ∃ g', GhostLe g g' ∧ Inv m0 s' g'

theorem set_same (s : State) (n : NodeId) (nd : Node) : (s.set n nd).nodes n = nd := by simp [State.set]
theorem set_ne (s : State) {n i : NodeId} (nd : Node) (h : i ≠ n) : (s.set n nd).nodes i = s.nodes i := by
  simp [State.set, h]

/-- A step of node `n` that posts the messages `ms`. -/
theorem stepOk_of {s' : State} {n : NodeId} {g' : Ghost} (h : Inv m0 s g) (hst : GhostStep n g g')
    (hg' : GInv m0 g') (hnodes : ∀ i, i ≠ n → s'.nodes i = s.nodes i) (hn : NodeInv g' n (s'.nodes n))
    (hmsgs : ∀ m ∈ s'.msgs, m ∈ s.msgs ∨ MsgInv g' m) (htasks : ∀ t ∈ s'.tasks, t ∈ s.tasks ∨ TaskInv g' t)
    (hhist : ∀ x ∈ s'.hist, x ∈ s.hist ∨ ∃ L, CPre g' L x.2) : StepOk m0 s' g :=
  ⟨g', hst.toGhostLe, h.step hst hg' hnodes hn hmsgs htasks hhist⟩

theorem step_init (h : Inv m0 s g) {n : NodeId} (hmem : (s.nodes n).mem = [])
    (hv : (s.nodes n).vote = ⟨⟨0, 0⟩, false⟩) (hl : (s.nodes n).leader = none) :
    StepOk m0 (s.set n { s.nodes n with log := [initEntry m0] }) g := by
  have hn := h.node n
  have hlog : (s.nodes n).log = [] := by
    have := NodeInv.log_pre (s.nodes n); rw [hmem] at this; exact List.prefix_nil.1 this
  have hbuf := hn.bufNil hl
  have hc0 : (s.nodes n).committed = 0 := by have := hn.commLe; rw [hmem] at this; simpa using this
  refine stepOk_of h (GhostStep.refl n g) h.ghost (fun i hi => set_ne _ _ hi) ?_ (fun m hm => Or.inl hm)
    (fun m hm => Or.inl hm) (fun m hm => Or.inl hm)
  rw [set_same]
  have hmem' : ({ s.nodes n with log := [initEntry m0] } : Node).mem = [initEntry m0] := by
    simp [Node.mem, hbuf]
  exact {
    good := by
      rw [hmem']
      have := h.ghost.goodL ⟨0, 0⟩
      rw [h.ghost.ll0] at this; exact this
    lids := by
      rw [hmem']
      intro e he
      simp at he; subst he
      exact LeaderId.zero_le _
    voteEl := hn.voteEl
    bufNil := hn.bufNil
    lead := by intro ld hld; simp [hl] at hld
    cand := by
      intro c hc
      have hC := hn.cand c hc
      have := hC.vote
      rw [hv] at this
      simp only [Vote.mk.injEq, and_true] at this
      have h2 := hC.pos
      rw [← this] at h2
      exact absurd h2 (lt_irrefl _)
    ownCl := hn.ownCl
    acks := by
      intro a ha hq
      obtain ⟨h1, h2⟩ := hn.acks a ha hq
      refine ⟨h1, ?_⟩
      intro m hm hyp
      have := h2 m hm hyp
      rw [hlog] at this
      rw [List.prefix_nil.1 this]; exact List.nil_prefix
    grants := hn.grants
    commLe := by simp [hc0]
    comm := by simp only [hc0, List.take_zero]; exact Or.inl rfl
    sm := by
      have := hn.sm
      simp only [hc0, List.take_zero] at this ⊢
      exact this
    acc := by intro _ hc; simp [hv] at hc }

theorem elect_lt (L : LeaderId) (n : NodeId) : L < ⟨L.term + 1, n⟩ := Or.inl (Nat.lt_succ_self _)

theorem vote_true_le {L L' : LeaderId} : (⟨L, true⟩ : Vote) ≤ ⟨L', false⟩ ↔ L < L' := by
  rw [Vote.le_def]; simp

theorem vote_false_le {L L' : LeaderId} {b : Bool} : (⟨L, false⟩ : Vote) ≤ ⟨L', b⟩ ↔ L ≤ L' := by
  rw [Vote.le_def]
  simp only [Bool.false_eq_true, false_implies, and_true]
  exact (le_iff_lt_or_eq).symm

theorem vote_le_of_lt {v : Vote} {L : LeaderId} {b : Bool} (h : v.leaderId < L) : v ≤ ⟨L, b⟩ := Or.inl h

theorem step_elect (h : Inv m0 s g) {n : NodeId} (hl : (s.nodes n).leader = none)
    (hvo : (effMembership (s.nodes n).mem).isVoter n = true) :
    StepOk m0 (((s.set n ((s.nodes n).elect n)).post (.voteReq ((s.nodes n).elect n).vote.leaderId
      (lastId ((s.nodes n).elect n).mem))).post (.grant n ((s.nodes n).elect n).vote.leaderId)) g := by
  have hn := h.node n
  have hmem := hn.mem_eq hl
  generalize hnd : s.nodes n = nd at *
  set L : LeaderId := ⟨nd.vote.leaderId.term + 1, n⟩ with hL
  have hlt : nd.vote.leaderId < L := elect_lt _ _
  have hcl : g.cl L = none := by
    by_contra hc
    exact absurd (lt_of_lt_of_le hlt (hn.ownCl L hc rfl)) (lt_irrefl _)
  have hel : g.el L = none := by
    cases hS : g.el L with
    | none => rfl
    | some S => obtain ⟨l, h1, _⟩ := h.ghost.elCl L S hS; rw [hcl] at h1; cases h1
  have st1 := step_setCl (g := g) n L nd.mem rfl hcl
  have g1 := ginv_setCl h.ghost L nd.mem hcl hn.good (fun e he => lt_of_le_of_lt (hn.lids e he) hlt)
  have hcl1 : (g.setCl L nd.mem).cl L = some nd.mem := fset_same _ _ _
  have st2 := step_addGrant (g := g.setCl L nd.mem) n ⟨n, L, nd.mem⟩ rfl
  have g2 := ginv_addGrant g1 ⟨n, L, nd.mem⟩ ⟨nd.mem, hcl1, le_refl _⟩ (hn.good.mono st1.toGhostLe)
    (by
      intro a ha hq hlt' m hm hyp
      obtain ⟨h1, h2⟩ := hn.acks a ha hq.symm
      have := h2 m hm fun L'' S l hS hl hlt'' hv =>
        hyp L'' S l hS (st1.cl _ _ hl) hlt'' (lt_of_le_of_lt (Vote.leaderId_le_of_le hv) hlt)
      exact this.trans (NodeInv.log_pre nd))
  have hemem : (nd.elect n).mem = nd.mem := by simp [Node.elect, Node.mem]
  have hevote : (nd.elect n).vote = ⟨L, false⟩ := rfl
  have helog : (nd.elect n).log = nd.log := rfl
  have hvle : nd.vote ≤ (nd.elect n).vote := vote_le_of_lt hlt
  refine stepOk_of h (st1.trans st2) g2 (fun i hi => set_ne _ _ hi) ?_ ?_ (fun m hm => Or.inl hm)
    (fun m hm => Or.inl hm)
  · show NodeInv _ n ((s.set n (nd.elect n)).nodes n)
    rw [set_same]
    exact {
      good := by rw [hemem]; exact hn.good.mono st1.toGhostLe
      lids := by rw [hemem]; intro e he; exact le_of_lt (lt_of_le_of_lt (hn.lids e he) hlt)
      voteEl := by intro hc; cases hc
      bufNil := hn.bufNil
      lead := by
        intro ld hld
        have : nd.leader = some ld := hld
        rw [hl] at this; cases this
      cand := by
        intro c hc
        have hc' : c = { lid := L, last := lastId nd.mem, configs := (effMembership nd.mem).configs, granted := [] } := by
          simp only [Node.elect, Option.some.injEq] at hc; exact hc.symm
        subst hc'
        exact {
          vote := rfl, node := rfl, el := hel
          cl := by rw [helog, ← hmem]; exact hcl1
          configs := by rw [helog, ← hmem]; rfl
          voter := by rw [helog, ← hmem]; exact hvo
          pos := lt_of_le_of_lt (LeaderId.zero_le _) hlt
          nodup := List.nodup_nil
          grants := by intro q hq; simp at hq
          noLeader := hl }
      ownCl := by
        intro X hX hXn
        by_cases hXL : X = L
        · rw [hXL]; exact le_refl _
        · have : (g.setCl L nd.mem).cl X = g.cl X := fset_ne _ _ hXL
          exact le_of_lt (lt_of_le_of_lt (hn.ownCl X (by rw [← this]; exact hX) hXn) hlt)
      acks := by
        intro a ha hq
        obtain ⟨h1, h2⟩ := hn.acks a ha hq
        refine ⟨le_trans h1 hvle, ?_⟩
        intro m hm hyp
        exact h2 m hm fun L'' S l hS hl hlt'' hv => hyp L'' S l hS (st1.cl _ _ hl) hlt'' (le_trans hv hvle)
      grants := by
        intro gr hgr hq
        rcases List.mem_cons.1 hgr with rfl | hgr
        · exact le_refl _
        · exact le_trans (hn.grants gr hgr hq) hvle
      commLe := by rw [hemem]; exact hn.commLe
      comm := by rw [hemem]; exact (hn.comm.mono st1.toGhostLe).le (le_of_lt hlt)
      sm := by rw [hemem]; exact hn.sm
      acc := by intro _ hc; cases hc }
  · intro m hm
    rcases List.mem_cons.1 hm with rfl | hm
    · exact Or.inr ⟨⟨n, L, nd.mem⟩, List.mem_cons_self, rfl, rfl⟩
    · rcases List.mem_cons.1 hm with rfl | hm
      · right
        rw [hemem]
        exact ⟨nd.mem, hcl1, rfl⟩
      · exact Or.inl hm

theorem step_recvVote (h : Inv m0 s g) {n : NodeId} {lid : LeaderId} {last : Option LogId}
    (hm : Msg.voteReq lid last ∈ s.msgs) (hne : lid.node ≠ n) (hv : (s.nodes n).vote ≤ ⟨lid, false⟩)
    (hlast : lastId (s.nodes n).mem ≤ last) :
    StepOk m0 ((s.set n ((s.nodes n).adopt ⟨lid, false⟩)).post (.grant n lid)) g := by
  have hn := h.node n
  obtain ⟨l, hcl, rfl⟩ := h.msg _ hm
  have st := step_addGrant (g := g) n ⟨n, lid, (s.nodes n).mem⟩ rfl
  refine stepOk_of h st ?_ (fun i hi => set_ne _ _ hi) ?_ ?_ (fun m hm => Or.inl hm) (fun m hm => Or.inl hm)
  · refine ginv_addGrant h.ghost _ ⟨l, hcl, hlast⟩ hn.good ?_
    intro a ha hq hlt m hm hyp
    obtain ⟨h1, h2⟩ := hn.acks a ha hq.symm
    have := h2 m hm fun L'' S l hS hl hlt'' hv' => hyp L'' S l hS hl hlt'' (vote_true_le.1 (le_trans hv' hv))
    exact this.trans (NodeInv.log_pre _)
  · show NodeInv _ n ((s.set n ((s.nodes n).adopt ⟨lid, false⟩)).nodes n)
    rw [set_same]
    exact (hn.adopt hv hne (by intro hc; cases hc)).addGrant _ (le_refl _)
  · intro m hm
    rcases List.mem_cons.1 hm with rfl | hm
    · exact Or.inr ⟨_, List.mem_cons_self, rfl, rfl⟩
    · exact Or.inl hm

theorem new_vector_zero {configs : List (List NodeId)} {ls : List NodeId} {p : NodeId × Nat}
    (h : p ∈ (VecProgress.new configs ls 0).vector) : p.2 = 0 := by
  simp only [VecProgress.new, List.mem_append, List.mem_map] at h
  rcases h with ⟨_, _, rfl⟩ | ⟨_, _, rfl⟩ <;> rfl

theorem voter_ne_nil {l : Log} {n : NodeId} (h : (effMembership l).isVoter n = true) : l ≠ [] := by
  rintro rfl
  simp [effMembership, lastCfg, lastCfgFrom, Membership.isVoter] at h

theorem step_recvGrant (h : Inv m0 s g) {n q : NodeId} {c : Cand} (hc : (s.nodes n).cand = some c)
    (hm : Msg.grant q c.lid ∈ s.msgs) : StepOk m0 (s.set n ((s.nodes n).granted c q)) g := by
  have hn := h.node n
  generalize hnd : s.nodes n = nd at *
  have hC := hn.cand c hc
  have hl := hC.noLeader
  have hmem := hn.mem_eq hl
  obtain ⟨gr, hgr, hgq, hgL⟩ := h.msg _ hm
  have hG : (if q ∈ c.granted then c.granted else q :: c.granted).Nodup ∧
      ∀ x ∈ (if q ∈ c.granted then c.granted else q :: c.granted), ∃ gr ∈ g.grants, gr.q = x ∧ gr.L = c.lid := by
    split
    · exact ⟨hC.nodup, hC.grants⟩
    · rename_i hq
      refine ⟨List.nodup_cons.2 ⟨hq, hC.nodup⟩, ?_⟩
      intro x hx
      rcases List.mem_cons.1 hx with rfl | hx
      · exact ⟨gr, hgr, hgq, hgL⟩
      · exact hC.grants x hx
  generalize hGdef : (if q ∈ c.granted then c.granted else q :: c.granted) = G at hG
  unfold Node.granted
  simp only [hGdef]
  by_cases hQ : isQuorum c.configs G = true
  · rw [if_pos hQ]
    have hne := voter_ne_nil hC.voter
    have hll := h.ghost.llNil hC.el hC.pos
    have st := step_establish (g := g) n c.lid G nd.log hC.node hC.el hll
    have g1 := ginv_establish h.ghost c.lid G nd.log hC.el hC.pos hC.cl hne (by rw [← hC.configs]; exact hQ) hG.1 hG.2
    have hllL : (g.establish c.lid G nd.log).ll c.lid = nd.log ++ [⟨c.lid, .blank⟩] := fset_same _ _ _
    have helL : (g.establish c.lid G nd.log).el c.lid = some G := fset_same _ _ _
    have hvle : nd.vote ≤ ⟨c.lid, true⟩ := by rw [hC.vote]; exact vote_false_le.2 (le_refl _)
    have hvlid : nd.vote.leaderId = c.lid := by rw [hC.vote]
    refine stepOk_of h st g1 (fun i hi => set_ne _ _ hi) ?_ (fun m hm => Or.inl hm) (fun m hm => Or.inl hm)
      (fun m hm => Or.inl hm)
    rw [set_same]
    generalize hnd' : ({ nd with
      vote := ⟨c.lid, true⟩
      leader := some ⟨c.lid, VecProgress.new c.configs (effMembership nd.log).learnerIds 0⟩
      cand := none
      buf := [⟨c.lid, .blank⟩]
      acc := 0 } : Node) = nd'
    have hmem' : nd'.mem = nd.log ++ [⟨c.lid, .blank⟩] := by rw [← hnd']; rfl
    have hpre : nd.mem <+: nd'.mem := by rw [hmem', hmem]; exact List.prefix_append _ _
    have hvote' : nd'.vote = ⟨c.lid, true⟩ := by rw [← hnd']
    have hlog' : nd'.log = nd.log := by rw [← hnd']
    have hcomm' : nd'.committed = nd.committed := by rw [← hnd']
    have htk : nd'.mem.take nd.committed = nd.mem.take nd.committed := take_eq_of_pre hpre hn.commLe
    have hlead' : nd'.leader = some ⟨c.lid, VecProgress.new c.configs (effMembership nd.log).learnerIds 0⟩ := by
      rw [← hnd']
    exact {
      good := by rw [hmem', ← hllL]; exact g1.goodL _
      lids := by
        rw [hmem', hvote']
        intro e he
        rcases List.mem_append.1 he with he | he
        · rw [← hmem] at he; rw [← hvlid]; exact hn.lids e he
        · simp at he; subst he; exact le_refl _
      voteEl := by intro _; rw [hvote']; exact ⟨G, helL⟩
      bufNil := by intro hx; rw [hlead'] at hx; cases hx
      lead := by
        intro ld hld
        rw [hlead'] at hld
        cases hld
        exact {
          vote := hvote', node := hC.node, el := ⟨G, helL⟩
          ll := by rw [hllL, hmem']
          configs := by
            show c.configs = _
            rw [hmem', cfgs, effMembership, lastCfg_snoc_none _ _ rfl]
            exact hC.configs
          prog := by
            intro p hp h0
            have := new_vector_zero hp
            omega
          own := by
            intro _ r hr hrL
            obtain ⟨⟨S', hS'⟩, _⟩ := h.ghost.commit r hr
            have hrL' : r.L = c.lid := hrL
            rw [hrL', hC.el] at hS'; cases hS' }
      cand := by intro c' hc'; rw [← hnd'] at hc'; cases hc'
      ownCl := by
        intro X hX hXn
        rw [hvote']
        have := hn.ownCl X hX hXn
        rw [hvlid] at this; exact this
      acks := by
        intro a ha hq
        obtain ⟨h1, h2⟩ := hn.acks a ha hq
        refine ⟨by rw [hvote']; exact le_trans h1 hvle, ?_⟩
        intro m hm hyp
        have hlen := (h.ghost.ackEl a ha).2
        rw [st.take (le_trans hm hlen)] at hyp ⊢
        rw [hlog']
        exact h2 m hm fun L'' S l hS hl hlt hv => hyp L'' S l (st.el _ _ hS) hl hlt (by rw [hvote']; exact le_trans hv hvle)
      grants := by
        intro gr hgr hq
        rw [hvote']
        exact le_trans (hn.grants gr hgr hq) hvle
      commLe := by rw [hcomm']; exact le_trans hn.commLe hpre.length_le
      comm := by
        rw [hcomm', htk, hvote']
        have := hn.comm.mono st.toGhostLe
        rw [hvlid] at this; exact this
      sm := by
        rw [hcomm', htk, ← hnd']; exact hn.sm
      acc := by intro hx; rw [hlead'] at hx; cases hx }
  · rw [if_neg hQ]
    refine stepOk_of h (GhostStep.refl n g) h.ghost (fun i hi => set_ne _ _ hi) ?_ (fun m hm => Or.inl hm)
      (fun m hm => Or.inl hm) (fun m hm => Or.inl hm)
    rw [set_same]
    exact {
      good := hn.good, lids := hn.lids, voteEl := hn.voteEl, bufNil := hn.bufNil
      lead := by intro ld hld; rw [show nd.leader = some ld from hld] at hl; cases hl
      cand := by
        intro c' hc'
        have : c' = { c with granted := G } := by simpa using hc'.symm
        subst this
        exact ⟨hC.vote, hC.node, hC.el, hC.cl, hC.configs, hC.voter, hC.pos, hG.1, hG.2, hC.noLeader⟩
      ownCl := hn.ownCl, acks := hn.acks, grants := hn.grants, commLe := hn.commLe, comm := hn.comm
      sm := hn.sm, acc := hn.acc }

theorem step_post (h : Inv m0 s g) {m : Msg} (hm : MsgInv g m) : StepOk m0 (s.post m) g := by
  refine stepOk_of h (GhostStep.refl 0 g) h.ghost (fun i hi => rfl) (h.node 0) ?_
    (fun m hm => Or.inl hm) (fun m hm => Or.inl hm)
  intro m' hm'
  rcases List.mem_cons.1 hm' with rfl | hm'
  · exact Or.inr hm
  · exact Or.inl hm'

theorem step_tell (h : Inv m0 s g) (n : NodeId) : StepOk m0 (s.post (.tell (s.nodes n).vote)) g :=
  step_post h fun hv => (h.node n).voteEl hv

/-- A step of node `n` that changes neither history nor messages. -/
theorem step_node (h : Inv m0 s g) {n : NodeId} {nd : Node} (hn : NodeInv g n nd) : StepOk m0 (s.set n nd) g := by
  refine stepOk_of h (GhostStep.refl n g) h.ghost (fun i hi => set_ne _ _ hi) ?_ (fun m hm => Or.inl hm)
    (fun m hm => Or.inl hm) (fun m hm => Or.inl hm)
  rw [set_same]; exact hn

theorem step_learn (h : Inv m0 s g) {n : NodeId} {v : Vote} (hm : s.msgs.any (fun m => m.vote? == some v) = true)
    (hne : v.leaderId.node ≠ n) (hv : (s.nodes n).vote < v) : StepOk m0 (s.set n ((s.nodes n).adopt v)) g := by
  refine step_node h ((h.node n).adopt (le_of_lt hv) hne ?_)
  intro hc
  obtain ⟨m, hm, he⟩ := List.any_eq_true.1 hm
  have hi := h.msg m hm
  have he' : m.vote? = some v := by simpa using he
  cases m with
  | tell w => simp only [Msg.vote?, Option.some.injEq] at he'; subst he'; exact hi hc
  | app a => simp only [Msg.vote?, Option.some.injEq] at he'; subst he'; exact hi.1
  | snap lid c => simp only [Msg.vote?, Option.some.injEq] at he'; subst he'; exact hi.1
  | voteReq => simp [Msg.vote?] at he'
  | grant => simp [Msg.vote?] at he'
  | ack => simp [Msg.vote?] at he'

/-! ## Append entries on a follower -/

section
variable {n : NodeId} {L : LeaderId} {S : List NodeId}

/-- facts about the merged log -/
theorem merge_spec (hm0 : m0.configs ≠ []) (hg : GInv m0 g) {nd : Node} (h : NodeInv g n nd) (hl : nd.leader = none)
    (hv : nd.vote.leaderId = L) (hS : g.el L = some S) {a : App} (hp : a.prev ≤ (g.ll L).length)
    (hpl : 0 < a.prev → ∃ e, (g.ll L)[a.prev - 1]? = some e ∧ e.lid = a.prevLid) (hok : nd.prevOk a = true)
    {es : Log} (hes : (g.ll L).take a.prev ++ es <+: g.ll L) :
    (nd.merge a.prev es = nd.log ∨ nd.merge a.prev es = (g.ll L).take (a.prev + es.length)) ∧
    (g.ll L).take (a.prev + es.length) <+: nd.merge a.prev es ∧
    ∀ X, X <+: nd.log → X <+: g.ll L → X <+: nd.merge a.prev es := by
  obtain ⟨h1, h2⟩ := h.conflict_take hm0 hg hl hv hS hp hpl hok hes
  have hsle := firstConflict_le nd a.prev es
  unfold Node.merge
  simp only
  by_cases hs : nd.firstConflict a.prev es < es.length
  · rw [if_pos hs]
    have hkeep : ∀ X, X <+: nd.log → X <+: g.ll L → X.length ≤ a.prev + nd.firstConflict a.prev es :=
      fun X hX hX' => conflict_keep hp hes hs hX hX'
    generalize nd.firstConflict a.prev es = k at *
    have heq : nd.log.take (a.prev + k) ++ es.drop k = (g.ll L).take (a.prev + es.length) := by
      rw [h1, entries_take hp hes]
      have : (g.ll L).take (a.prev + k) = (g.ll L).take a.prev ++ es.take k := by
        have := take_eq_of_pre hes (n := a.prev + k) (by simp only [List.length_append, List.length_take]; omega)
        rw [this, List.take_append]
        rw [List.take_take, Nat.min_eq_right (by omega), List.length_take, Nat.min_eq_left hp]
        congr 2; omega
      rw [this, List.append_assoc, List.take_append_drop]
    rw [heq]
    refine ⟨Or.inr rfl, List.prefix_refl _, ?_⟩
    intro X hX hX'
    exact pre_take_of_le hX' (by have := hkeep X hX hX'; omega)
  · rw [if_neg hs]
    refine ⟨Or.inl rfl, ?_, fun X hX _ => hX⟩
    have : nd.firstConflict a.prev es = es.length := by omega
    rw [this] at h1
    rw [← h1]; exact List.take_prefix _ _

/-- a prefix of the leader's log on a follower -/
theorem lids_of_ll (hg : GInv m0 g) {l : Log} (h : l <+: g.ll L) : ∀ e ∈ l, e.lid ≤ L := by
  intro e he
  obtain ⟨i, hi⟩ := List.mem_iff_getElem?.1 he
  exact hg.lidLe (get_of_pre_some h hi)

theorem NodeInv.cutTo (hg : GInv m0 g) (hm0 : m0.configs ≠ []) {nd : Node} (h : NodeInv g n nd) (hv : nd.vote = ⟨L, true⟩) (hl : nd.leader = none)
    (hc : nd.cand = none) {k : Nat}
    (hkeep : ∀ X, X <+: nd.log → X <+: g.ll L → X.length ≤ k) :
    NodeInv g n { nd with log := nd.log.take k } := by
  have hmem := h.mem_eq hl
  obtain ⟨S, hS⟩ := h.voteEl (by rw [hv])
  have hvl : nd.vote.leaderId = L := by rw [hv]
  rw [hvl] at hS
  have hcle := h.commLe
  rw [hmem] at hcle
  have hck : nd.committed ≤ k := by
    have h1 := h.comm
    rw [hmem, hvl] at h1
    have := hkeep _ (List.take_prefix _ _) (h1.ll hm0 hg hS)
    rw [List.length_take] at this; omega
  have htk : (nd.log.take k).take nd.committed = nd.log.take nd.committed := by
    rw [List.take_take, Nat.min_eq_left hck]
  have := h.acc hl (by rw [hv])
  rw [hvl] at this
  obtain ⟨ha1, ha2⟩ := this
  refine h.write (log2 := nd.log.take k) (c2 := nd.committed) (acc2 := nd.acc) (sm2 := nd.sm) hv hl hc ?_ ?_ ?_ ?_ ?_ ?_ ha1 ?_ hg
  · have := h.good; rw [hmem] at this; exact this.pre (List.take_prefix _ _)
  · intro e he
    have := h.lids e (by rw [hmem]; exact List.mem_of_mem_take he)
    rw [hvl] at this; exact this
  · intro X hX hX'; exact pre_take_of_le hX (hkeep X hX hX')
  · rw [List.length_take]; omega
  · rw [htk]; have := h.comm; rw [hmem, hvl] at this; exact this
  · rw [htk]; have := h.sm; rw [hmem] at this; exact this
  · exact pre_take_of_le ha2 (hkeep _ ha2 (List.take_prefix _ _))

theorem prev_keep {nd : Node} {a : App} (hpl : 0 < a.prev → ∃ e, (g.ll L)[a.prev - 1]? = some e ∧ e.lid = a.prevLid)
    (hok : ¬ nd.prevOk a = true) (X : Log) (hX : X <+: nd.log) (hX' : X <+: g.ll L) : X.length ≤ a.prev - 1 := by
  by_contra hno
  apply hok
  simp only [Node.prevOk, Bool.or_eq_true, beq_iff_eq]
  by_cases hz : a.prev = 0
  · exact Or.inl hz
  · right
    obtain ⟨e, he, hel⟩ := hpl (by omega)
    rw [← hel]
    refine hasId_of (get_of_pre_some hX ?_)
    rw [← get_of_pre hX' (by omega)]; exact he

theorem adopt_leader (nd : Node) (v : Vote) : (nd.adopt v).leader = none := rfl
theorem adopt_cand (nd : Node) (v : Vote) : (nd.adopt v).cand = none := rfl
theorem adopt_vote (nd : Node) (v : Vote) : (nd.adopt v).vote = v := rfl

theorem step_recvApp (hm0 : m0.configs ≠ []) (h : Inv m0 s g) {a : App} {j : Nat} (hm : Msg.app a ∈ s.msgs)
    (hne : a.lid.node ≠ n) (hv : (s.nodes n).vote ≤ ⟨a.lid, true⟩) (hj : j ≤ a.entries.length) :
    StepOk m0 (next m0 s (.recvApp n a j)) g := by
  obtain ⟨⟨S, hS⟩, hp, hes, hpl, hcl, hcc⟩ := h.msg _ hm
  have hn := (h.node n).adopt hv hne (fun _ => ⟨S, hS⟩)
  simp only [next]
  generalize hnd : (s.nodes n).adopt ⟨a.lid, true⟩ = nd at *
  have hl : nd.leader = none := by rw [← hnd]; rfl
  have hcand : nd.cand = none := by rw [← hnd]; rfl
  have hvote : nd.vote = ⟨a.lid, true⟩ := by rw [← hnd]; rfl
  have hvl : nd.vote.leaderId = a.lid := by rw [hvote]
  have hmem := hn.mem_eq hl
  by_cases hok : nd.prevOk a = true
  · rw [if_pos hok]
    have hes' : (g.ll a.lid).take a.prev ++ a.entries.take j <+: g.ll a.lid :=
      ((List.prefix_append_right_inj _).2 (List.take_prefix _ _)).trans hes
    have hjlen : (a.entries.take j).length = j := by rw [List.length_take]; omega
    have hlenj : a.prev + j ≤ (g.ll a.lid).length := by
      have := hes'.length_le
      simp only [List.length_append, List.length_take] at this
      omega
    obtain ⟨hA, hB, hK⟩ := merge_spec hm0 h.ghost hn hl hvl hS hp hpl hok hes'
    rw [hjlen] at hA hB
    have hacc := hn.acc hl (by rw [hvote])
    rw [hvl] at hacc
    obtain ⟨ha1, ha2⟩ := hacc
    unfold Node.append
    rw [if_pos hok]
    simp only
    generalize nd.merge a.prev (a.entries.take j) = log2 at *
    have hacc2 : (g.ll a.lid).take (max nd.acc (a.prev + j)) <+: log2 := by
      rcases le_total nd.acc (a.prev + j) with hx | hx
      · rw [Nat.max_eq_right hx]; exact hB
      · rw [Nat.max_eq_left hx]; exact hK _ ha2 (List.take_prefix _ _)
    have hacc1 : max nd.acc (a.prev + j) ≤ (g.ll a.lid).length := by omega
    generalize max nd.acc (a.prev + j) = acc2 at *
    have hacl : acc2 ≤ log2.length := by
      have := hacc2.length_le; rw [List.length_take] at this; omega
    have hcomm := hn.comm
    rw [hmem, hvl] at hcomm
    have hcle := hn.commLe
    rw [hmem] at hcle
    have hold : nd.log.take nd.committed <+: log2 := hK _ (List.take_prefix _ _) (hcomm.ll hm0 h.ghost hS)
    have holdl : nd.committed ≤ log2.length := by
      have := hold.length_le; rw [List.length_take] at this; omega
    have hold' : log2.take nd.committed = nd.log.take nd.committed := by
      have := take_eq_of_pre hold (n := nd.committed) (by rw [List.length_take]; omega)
      rw [this, List.take_take, Nat.min_self]
    have hnew : CPre g a.lid (log2.take (min acc2 a.commit)) := by
      refine hcc.pre ?_
      have h1 : log2.take (min acc2 a.commit) = ((g.ll a.lid).take acc2).take (min acc2 a.commit) :=
        take_eq_of_pre hacc2 (by rw [List.length_take]; omega)
      rw [h1, List.take_take]
      exact take_pre_take (by omega)
    have hn2 : NodeInv g n { nd with
        log := log2
        acc := acc2
        committed := max nd.committed (min acc2 a.commit) } := by
      refine hn.write (log2 := log2) (c2 := max nd.committed (min acc2 a.commit)) (acc2 := acc2) (sm2 := nd.sm)
        hvote hl hcand ?_ ?_ hK ?_ ?_ ?_ hacc1 hacc2 h.ghost
      · rcases hA with hA | hA
        · rw [hA]; have := hn.good; rw [hmem] at this; exact this
        · rw [hA]; exact (h.ghost.goodL _).pre (List.take_prefix _ _)
      · rcases hA with hA | hA
        · rw [hA]; intro e he
          have := hn.lids e (by rw [hmem]; exact he)
          rw [hvl] at this; exact this
        · rw [hA]; exact lids_of_ll h.ghost (List.take_prefix _ _)
      · omega
      · rcases le_total nd.committed (min acc2 a.commit) with hx | hx
        · rw [Nat.max_eq_right hx]; exact hnew
        · rw [Nat.max_eq_left hx, hold']; exact hcomm
      · have h1 := hn.sm
        rw [hmem, ← hold'] at h1
        exact h1.trans (take_pre_take (by omega))
    have hvn : (⟨a.lid, true⟩ : Vote) ≤ nd.vote := le_of_eq hvote.symm
    have st := step_addAck (g := g) n ⟨n, a.lid, a.prev + j⟩ rfl
    refine stepOk_of h st ?_ (fun i hi => set_ne _ _ hi) ?_ ?_ (fun m hm => Or.inl hm) (fun m hm => Or.inl hm)
    · refine ginv_addAck h.ghost _ ⟨S, hS⟩ hlenj ?_
      intro gr hgr hq
      have := hn.grants gr hgr hq
      rw [hvote] at this
      exact vote_false_le.1 this
    · show NodeInv _ n ((s.set n _).nodes n)
      rw [set_same]
      exact hn2.addAck hvn hB
    · intro m hm
      rcases List.mem_cons.1 hm with rfl | hm
      · exact Or.inr ⟨_, List.mem_cons_self, rfl, rfl, le_refl _⟩
      · exact Or.inl hm
  · rw [if_neg hok]
    unfold Node.append
    rw [if_neg hok]
    exact step_node h (hn.cutTo h.ghost hm0 hvote hl hcand (prev_keep hpl hok))

theorem step_cutApp (hm0 : m0.configs ≠ []) (h : Inv m0 s g) {a : App} (hm : Msg.app a ∈ s.msgs)
    (hne : a.lid.node ≠ n) (hv : (s.nodes n).vote ≤ ⟨a.lid, true⟩) :
    StepOk m0 (s.set n (((s.nodes n).adopt ⟨a.lid, true⟩).cut a)) g := by
  obtain ⟨⟨S, hS⟩, hp, hes, hpl, hcl, hcc⟩ := h.msg _ hm
  have hn := (h.node n).adopt hv hne (fun _ => ⟨S, hS⟩)
  refine step_node h ?_
  unfold Node.cut
  simp only
  split
  · rename_i hs
    exact hn.cutTo h.ghost hm0 rfl rfl rfl (fun X hX hX' => conflict_keep hp hes hs.2 hX hX')
  · exact hn

/-! ## Snapshots -/

theorem step_recvSnap (hm0 : m0.configs ≠ []) (h : Inv m0 s g) {c : Log} (hm : Msg.snap L c ∈ s.msgs)
    (hne : L.node ≠ n) (hv : (s.nodes n).vote ≤ ⟨L, true⟩) : StepOk m0 (next m0 s (.recvSnap n L c)) g := by
  obtain ⟨⟨S, hS⟩, hp, hcc⟩ := h.msg _ hm
  have hn := (h.node n).adopt hv hne (fun _ => ⟨S, hS⟩)
  simp only [next]
  generalize hnd : (s.nodes n).adopt ⟨L, true⟩ = nd at *
  have hl : nd.leader = none := by rw [← hnd]; rfl
  have hcand : nd.cand = none := by rw [← hnd]; rfl
  have hvote : nd.vote = ⟨L, true⟩ := by rw [← hnd]; rfl
  have hvl : nd.vote.leaderId = L := by rw [hvote]
  have hmem := hn.mem_eq hl
  have hcomm := hn.comm
  rw [hmem, hvl] at hcomm
  have hcle := hn.commLe
  rw [hmem] at hcle
  have hcll := hcomm.ll hm0 h.ghost hS
  have hgood := hn.good
  rw [hmem] at hgood
  have hacc := hn.acc hl (by rw [hvote])
  rw [hvl] at hacc
  obtain ⟨ha1, ha2⟩ := hacc
  -- the node after the step contains the snapshot
  have key : NodeInv g n (nd.install c) ∧ c <+: (nd.install c).log ∧ (∃ L, CPre g L (nd.install c).sm) ∧
      (nd.install c).vote = nd.vote := by
    unfold Node.install
    by_cases hle : lastId c ≤ nd.committedId
    · rw [if_pos hle]
      refine ⟨hn, ?_, ⟨L, ?_⟩, rfl⟩
      · -- the snapshot is covered by the committed log
        by_cases hcn : c = []
        · rw [hcn]; exact List.nil_prefix
        · obtain ⟨e, he, hid⟩ := lastId_some hcn
          have hclen : 0 < c.length := List.length_pos_iff.2 hcn
          rw [hid] at hle
          unfold Node.committedId at hle
          by_cases h0 : nd.committed = 0
          · rw [if_pos h0] at hle; exact absurd hle OptOrd.not_some_le_none'
          · rw [if_neg h0] at hle
            have hlt : nd.committed - 1 < nd.log.length := by omega
            have hge := List.getElem?_eq_getElem hlt
            rw [idAt, hge] at hle
            simp only [Option.map_some] at hle
            have hle' : (⟨e.lid, c.length - 1⟩ : LogId) ≤ ⟨(nd.log[nd.committed - 1]).lid, nd.committed - 1⟩ := hle
            -- both are prefixes of the leader's log
            have hcl2 : (nd.log.take nd.committed).length = nd.committed := by rw [List.length_take]; omega
            have hlen : c.length ≤ nd.committed := by
              by_contra hgt
              have h1 : (g.ll L)[c.length - 1]? = some e := get_of_pre_some hp he
              have h2 : (g.ll L)[nd.committed - 1]? = some nd.log[nd.committed - 1] := by
                refine get_of_pre_some hcll ?_
                rw [get_take (by omega)]; exact hge
              have hmono := h.ghost.mono (h.ghost.goodL L) h2 h1 (by omega)
              rcases hle' with hx | ⟨hx, hy⟩
              · simp only at hx
                exact absurd (lt_of_lt_of_le hx hmono) (lt_irrefl _)
              · simp only at hy; omega
            exact pre_of_pre_take (pre_of_le hp hcll (by omega))
      · have := hn.sm; rw [hmem] at this; exact hcomm.pre this
    · rw [if_neg hle]
      have hcn : c ≠ [] := by
        rintro rfl
        exact hle (OptOrd.none_le' _)
      have hclen : 0 < c.length := List.length_pos_iff.2 hcn
      obtain ⟨e, he, hid⟩ := lastId_some hcn
      -- committed part is covered by the snapshot
      have hcl2 : (nd.log.take nd.committed).length = nd.committed := by rw [List.length_take]; omega
      have hlt : nd.committed < c.length := by
        by_contra hge
        apply hle
        have h0 : nd.committed ≠ 0 := by omega
        have hlt : nd.committed - 1 < nd.log.length := by omega
        have hge' := List.getElem?_eq_getElem hlt
        rw [Node.committedId, if_neg h0, hid, idAt, hge']
        show (⟨e.lid, c.length - 1⟩ : LogId) ≤ ⟨(nd.log[nd.committed - 1]).lid, nd.committed - 1⟩
        have h1 : (g.ll L)[c.length - 1]? = some e := get_of_pre_some hp he
        have h2 : (g.ll L)[nd.committed - 1]? = some nd.log[nd.committed - 1] := by
          refine get_of_pre_some hcll ?_
          rw [get_take (by omega)]; exact hge'
        have hmono := h.ghost.mono (h.ghost.goodL L) h1 h2 (by omega)
        rcases lt_or_eq_of_le hmono with hx | hx
        · exact Or.inl hx
        · exact Or.inr ⟨hx, by simp only; omega⟩
      have hlog2 : c <+: (if idAt nd.log (c.length - 1) = lastId c then nd.log else c) ∧
          ((if idAt nd.log (c.length - 1) = lastId c then nd.log else c) = nd.log ∨
           (if idAt nd.log (c.length - 1) = lastId c then nd.log else c) = c) ∧
          (∀ X, X <+: nd.log → X <+: g.ll L → X <+: (if idAt nd.log (c.length - 1) = lastId c then nd.log else c)) := by
        by_cases hi : idAt nd.log (c.length - 1) = lastId c
        · rw [if_pos hi]
          refine ⟨?_, Or.inl rfl, fun X hX _ => hX⟩
          rw [hid] at hi
          obtain ⟨e', he', hx⟩ := idAt_some.1 hi
          simp only [LogId.mk.injEq, and_true] at hx
          have := GInv.matching hgood (h.ghost.goodC' hp) he' he hx.symm
          rw [show c.length - 1 + 1 = c.length by omega, List.take_length] at this
          rw [← this]; exact List.take_prefix _ _
        · rw [if_neg hi]
          refine ⟨List.prefix_refl _, Or.inr rfl, ?_⟩
          intro X hX hX'
          refine pre_of_le hX' hp ?_
          by_contra hgt
          apply hi
          have h1 : X[c.length - 1]? = some e := by
            rw [← get_of_pre hX' (by omega)]; exact get_of_pre_some hp he
          rw [hid, idAt_some]
          exact ⟨e, get_of_pre_some hX h1, rfl⟩
      generalize (if idAt nd.log (c.length - 1) = lastId c then nd.log else c) = log2 at *
      obtain ⟨hcl, hor, hK⟩ := hlog2
      have hlen2 := hcl.length_le
      have htk : log2.take c.length = c := (List.prefix_iff_eq_take.1 hcl).symm
      have hclen' : c.length ≤ (g.ll L).length := hp.length_le
      refine ⟨?_, hcl, ⟨L, hcc⟩, rfl⟩
      refine hn.write (log2 := log2) (c2 := c.length) (acc2 := max nd.acc c.length) (sm2 := c) hvote hl hcand
        ?_ ?_ hK hlen2 (by rw [htk]; exact hcc) (by rw [htk]) (by omega) ?_ h.ghost
      · rcases hor with hx | hx
        · rw [hx]; exact hgood
        · rw [hx]; exact h.ghost.goodC' hp
      · rcases hor with hx | hx
        · rw [hx]; intro e he
          have := hn.lids e (by rw [hmem]; exact he)
          rw [hvl] at this; exact this
        · rw [hx]; exact lids_of_ll h.ghost hp
      · rcases le_total nd.acc c.length with hx | hx
        · rw [Nat.max_eq_right hx, ← List.prefix_iff_eq_take.1 hp]; exact hcl
        · rw [Nat.max_eq_left hx]; exact hK _ ha2 (List.take_prefix _ _)
  obtain ⟨hn2, hcl, hsm, hvv⟩ := key
  have hack : (g.ll L).take c.length <+: (nd.install c).log := by
    rw [← List.prefix_iff_eq_take.1 hp]; exact hcl
  have st := step_addAck (g := g) n ⟨n, L, c.length⟩ rfl
  refine stepOk_of h st ?_ (fun i hi => set_ne _ _ hi) ?_ ?_ (fun m hm => Or.inl hm) ?_
  · refine ginv_addAck h.ghost _ ⟨S, hS⟩ hp.length_le ?_
    intro gr hgr hq
    have := hn.grants gr hgr hq
    rw [hvote] at this
    exact vote_false_le.1 this
  · show NodeInv _ n ((s.set n _).nodes n)
    rw [set_same]
    exact hn2.addAck (by rw [hvv, hvote]) hack
  · intro m hm
    rcases List.mem_cons.1 hm with rfl | hm
    · exact Or.inr ⟨_, List.mem_cons_self, rfl, rfl, le_refl _⟩
    · exact Or.inl hm
  · intro x hx
    rcases List.mem_cons.1 hx with rfl | hx
    · obtain ⟨L', hL'⟩ := hsm
      exact Or.inr ⟨L', hL'.mono st.toGhostLe⟩
    · exact Or.inl hx

end
end Openraft.Cluster
