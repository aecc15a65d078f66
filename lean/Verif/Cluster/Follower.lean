import Verif.Cluster.GhostSteps

/-!
# Invariants of a follower
-/

set_option autoImplicit false

namespace Openraft.Cluster

variable {m0 : Membership} {g : Ghost} {n : NodeId} {nd : Node}

theorem NodeInv.log_pre (nd : Node) : nd.log <+: nd.mem := List.prefix_append _ _

theorem NodeInv.mem_eq (h : NodeInv g n nd) (hl : nd.leader = none) : nd.mem = nd.log := by
  rw [Node.mem, h.bufNil hl, List.append_nil]

@[simp] theorem adopt_mem (nd : Node) (v : Vote) : (nd.adopt v).mem = nd.mem := by
  simp [Node.adopt, Node.mem]

theorem NodeInv.adopt (h : NodeInv g n nd) {v : Vote} (hv : nd.vote ≤ v) (hn : v.leaderId.node ≠ n)
    (hel : v.committed = true → ∃ S, g.el v.leaderId = some S) : NodeInv g n (nd.adopt v) where
  good := by rw [adopt_mem]; exact h.good
  lids := by
    rw [adopt_mem]
    intro e he
    exact le_trans (h.lids e he) (Vote.leaderId_le_of_le hv)
  voteEl := hel
  bufNil _ := rfl
  lead ld hl := by simp [Node.adopt] at hl
  cand c hc := by simp [Node.adopt] at hc
  ownCl L hL hLn := le_trans (h.ownCl L hL hLn) (Vote.leaderId_le_of_le hv)
  acks a ha hq := by
    obtain ⟨h1, h2⟩ := h.acks a ha hq
    refine ⟨le_trans h1 hv, ?_⟩
    intro m hm hyp
    have := h2 m hm fun L'' S l hS hl hlt hle => hyp L'' S l hS hl hlt (le_trans hle hv)
    exact this.trans (NodeInv.log_pre nd)
  grants gr hgr hq := le_trans (h.grants gr hgr hq) hv
  commLe := by rw [adopt_mem]; exact h.commLe
  comm := by rw [adopt_mem]; exact h.comm.le (Vote.leaderId_le_of_le hv)
  sm := by rw [adopt_mem]; exact h.sm
  acc _ hc := by
    show (if nd.vote = v then nd.acc else 0) ≤ _ ∧ List.take (if nd.vote = v then nd.acc else 0) _ <+: nd.mem
    by_cases hvv : nd.vote = v
    · rw [if_pos hvv]
      subst hvv
      have hl : nd.leader = none := by
        cases hl : nd.leader with
        | none => rfl
        | some ld =>
          have := h.lead ld hl
          rw [this.vote] at hn
          exact absurd this.node hn
      obtain ⟨h1, h2⟩ := h.acc hl hc
      exact ⟨h1, h2.trans (NodeInv.log_pre nd)⟩
    · rw [if_neg hvv]; simp

/-- Changes of the log, committed position and state machine of a node that follows leader `L`. -/
theorem NodeInv.write (h : NodeInv g n nd) {L : LeaderId} (hv : nd.vote = ⟨L, true⟩) (hl : nd.leader = none)
    (hc : nd.cand = none) {log2 : Log} {c2 acc2 : Nat} {sm2 : Log} (hgood : Good g log2)
    (hlids : ∀ e ∈ log2, e.lid ≤ L)
    (hkeep : ∀ X, X <+: nd.log → X <+: g.ll L → X <+: log2)
    (hc2 : c2 ≤ log2.length) (hcc : CPre g L (log2.take c2)) (hsm : sm2 <+: log2.take c2)
    (hacc : acc2 ≤ (g.ll L).length) (hacc' : (g.ll L).take acc2 <+: log2) (hg : GInv m0 g) :
    NodeInv g n { nd with log := log2, committed := c2, acc := acc2, sm := sm2 } := by
  have hb : nd.buf = [] := h.bufNil hl
  have hmem : ({ nd with log := log2, committed := c2, acc := acc2, sm := sm2 } : Node).mem = log2 := by
    simp [Node.mem, hb]
  exact {
    good := by rw [hmem]; exact hgood
    lids := by
      rw [hmem]
      intro e he
      show e.lid ≤ nd.vote.leaderId
      rw [hv]; exact hlids e he
    voteEl := h.voteEl
    bufNil := h.bufNil
    lead := by intro ld hld; simp [hl] at hld
    cand := by intro c hcc; simp [hc] at hcc
    ownCl := h.ownCl
    acks := by
      intro a ha hq
      obtain ⟨h1, h2⟩ := h.acks a ha hq
      refine ⟨h1, ?_⟩
      intro m hm hyp
      have hlog := h2 m hm hyp
      refine hkeep _ hlog ?_
      obtain ⟨S, hS⟩ := h.voteEl (by rw [hv])
      rw [hv] at hS
      obtain ⟨l, hl', hp, _⟩ := hg.elCl L S hS
      have h1' : a.L ≤ L := by
        have := Vote.leaderId_le_of_le h1
        rw [hv] at this; exact this
      rcases lt_or_eq_of_le h1' with hlt | heq
      · exact (hyp L S l hS hl' hlt (le_of_eq hv.symm)).trans hp
      · rw [heq]; exact List.take_prefix _ _
    grants := h.grants
    commLe := by rw [hmem]; exact hc2
    comm := by
      rw [hmem]
      show CPre g nd.vote.leaderId _
      rw [hv]; exact hcc
    sm := by rw [hmem]; exact hsm
    acc := by
      intro _ _
      show acc2 ≤ (g.ll nd.vote.leaderId).length ∧ (g.ll nd.vote.leaderId).take acc2 <+: log2
      rw [hv]; exact ⟨hacc, hacc'⟩ }

/-! ## Recording acknowledgements, grants, commits -/

theorem NodeInv.addAck (h : NodeInv g n nd) {L : LeaderId} {m : Nat} (hv : (⟨L, true⟩ : Vote) ≤ nd.vote)
    (hp : (g.ll L).take m <+: nd.log) : NodeInv (g.addAck ⟨n, L, m⟩) n nd where
  good := h.good
  lids := h.lids
  voteEl := h.voteEl
  bufNil := h.bufNil
  lead ld hl := by
    have := h.lead ld hl
    refine ⟨this.vote, this.node, this.el, this.ll, this.configs, ?_, this.own⟩
    intro p hp h0
    obtain ⟨a, ha, h1⟩ := this.prog p hp h0
    exact ⟨a, List.mem_cons_of_mem _ ha, h1⟩
  cand c hc := by
    have := h.cand c hc
    exact ⟨this.vote, this.node, this.el, this.cl, this.configs, this.voter, this.pos, this.nodup, this.grants, this.noLeader⟩
  ownCl := h.ownCl
  acks a ha hq := by
    rcases List.mem_cons.1 ha with rfl | ha
    · refine ⟨hv, ?_⟩
      intro m' hm' _
      exact (take_pre_take hm').trans hp
    · exact h.acks a ha hq
  grants := h.grants
  commLe := h.commLe
  comm := h.comm
  sm := h.sm
  acc := h.acc

theorem NodeInv.addGrant (h : NodeInv g n nd) (gr : Grant) (hv : (⟨gr.L, false⟩ : Vote) ≤ nd.vote) :
    NodeInv (g.addGrant gr) n nd where
  good := h.good
  lids := h.lids
  voteEl := h.voteEl
  bufNil := h.bufNil
  lead ld hl := by
    have := h.lead ld hl
    exact ⟨this.vote, this.node, this.el, this.ll, this.configs, this.prog, this.own⟩
  cand c hc := by
    have := h.cand c hc
    refine ⟨this.vote, this.node, this.el, this.cl, this.configs, this.voter, this.pos, this.nodup, ?_, this.noLeader⟩
    intro q hq
    obtain ⟨a, ha, h1⟩ := this.grants q hq
    exact ⟨a, List.mem_cons_of_mem _ ha, h1⟩
  ownCl := h.ownCl
  acks := h.acks
  grants b hb hq := by
    rcases List.mem_cons.1 hb with rfl | hb
    · exact hv
    · exact h.grants b hb hq
  commLe := h.commLe
  comm := h.comm
  sm := h.sm
  acc := h.acc

/-! ## Matching positions -/

section follow
variable {L : LeaderId} {S : List NodeId}

theorem hasId_of {i : Nat} {e : Entry} (h : nd.log[i]? = some e) : nd.hasId i e.lid = true := by
  simp [Node.hasId, idAt, h]

/-- An entry of the leader that the follower claims to have, it has, with everything before it. -/
theorem NodeInv.hasId_take (hm0 : m0.configs ≠ []) (hg : GInv m0 g) (h : NodeInv g n nd) (hl : nd.leader = none)
    (hv : nd.vote.leaderId = L) (hS : g.el L = some S) {i : Nat} {e : Entry} (he : (g.ll L)[i]? = some e)
    (hid : nd.hasId i e.lid = true) : i < nd.log.length ∧ nd.log.take (i + 1) = (g.ll L).take (i + 1) := by
  have hmem := h.mem_eq hl
  simp only [Node.hasId, Bool.or_eq_true, decide_eq_true_eq, beq_iff_eq] at hid
  rcases hid with hid | hid
  · have hc := h.comm
    have hle := h.commLe
    rw [hmem] at hc hle
    rw [hv] at hc
    have hp := hc.ll hm0 hg hS
    refine ⟨by omega, ?_⟩
    have h1 := take_eq_of_pre hp (n := i + 1) (by rw [List.length_take]; omega)
    rw [h1, List.take_take]
    congr 1; omega
  · obtain ⟨e', he', hx⟩ := idAt_some.1 hid
    simp only [LogId.mk.injEq, and_true] at hx
    refine ⟨lt_of_get he', ?_⟩
    have hgood := h.good
    rw [hmem] at hgood
    exact GInv.matching hgood (hg.goodL L) he' he hx.symm

theorem firstConflict_le (nd : Node) (i : Nat) (es : List Entry) : nd.firstConflict i es ≤ es.length := by
  induction es generalizing i with
  | nil => simp [Node.firstConflict]
  | cons e es ih =>
    simp only [Node.firstConflict]
    split
    · have := ih (i + 1); simp; omega
    · simp

/-- entries before the first conflict are present, the one at it is not -/
theorem firstConflict_spec (nd : Node) (i : Nat) (es : List Entry) :
    (∀ j e, j < nd.firstConflict i es → es[j]? = some e → nd.hasId (i + j) e.lid = true) ∧
    (∀ e, es[nd.firstConflict i es]? = some e → nd.hasId (i + nd.firstConflict i es) e.lid = false) := by
  induction es generalizing i with
  | nil => simp [Node.firstConflict]
  | cons x es ih =>
    simp only [Node.firstConflict]
    by_cases hx : nd.hasId i x.lid = true
    · rw [if_pos hx]
      obtain ⟨h1, h2⟩ := ih (i + 1)
      constructor
      · intro j e hj he
        cases j with
        | zero => simp at he; subst he; exact hx
        | succ j =>
          rw [List.getElem?_cons_succ] at he
          have := h1 j e (by omega) he
          rw [show i + (j + 1) = i + 1 + j by omega]; exact this
      · intro e he
        rw [List.getElem?_cons_succ] at he
        have := h2 e he
        rw [show i + (nd.firstConflict (i + 1) es + 1) = i + 1 + nd.firstConflict (i + 1) es by omega]; exact this
    · rw [if_neg hx]
      constructor
      · intro j e hj; omega
      · intro e he
        simp at he; subst he; simpa using hx

/-- What `entries` says about the leader's log. -/
theorem entries_get {A es : Log} {prev : Nat} (hp : prev ≤ A.length) (h : A.take prev ++ es <+: A) {j : Nat} {e : Entry}
    (he : es[j]? = some e) : A[prev + j]? = some e := by
  refine get_of_pre_some h ?_
  have hl : (A.take prev).length = prev := by rw [List.length_take]; omega
  rw [List.getElem?_append_right (by omega), hl]
  rw [show prev + j - prev = j by omega]; exact he

theorem entries_take {A es : Log} {prev : Nat} (hp : prev ≤ A.length) (h : A.take prev ++ es <+: A) :
    A.take (prev + es.length) = A.take prev ++ es := by
  have hl : (A.take prev ++ es).length = prev + es.length := by simp only [List.length_append, List.length_take]; omega
  rw [← hl]
  exact (List.prefix_iff_eq_take.1 h).symm

/-- Up to the first conflict the log is the leader's. -/
theorem NodeInv.conflict_take (hm0 : m0.configs ≠ []) (hg : GInv m0 g) (h : NodeInv g n nd) (hl : nd.leader = none)
    (hv : nd.vote.leaderId = L) (hS : g.el L = some S) {a : App} (hp : a.prev ≤ (g.ll L).length)
    (hpl : 0 < a.prev → ∃ e, (g.ll L)[a.prev - 1]? = some e ∧ e.lid = a.prevLid) (hok : nd.prevOk a = true)
    {es : Log} (hes : (g.ll L).take a.prev ++ es <+: g.ll L) :
    nd.log.take (a.prev + nd.firstConflict a.prev es) = (g.ll L).take (a.prev + nd.firstConflict a.prev es) ∧
    a.prev + nd.firstConflict a.prev es ≤ nd.log.length := by
  have hsle := firstConflict_le nd a.prev es
  obtain ⟨h1, _⟩ := firstConflict_spec nd a.prev es
  generalize nd.firstConflict a.prev es = s at *
  cases s with
  | zero =>
    rw [Nat.add_zero]
    by_cases hz : a.prev = 0
    · rw [hz]; simp
    · simp only [Node.prevOk, Bool.or_eq_true, beq_iff_eq, hz, false_or] at hok
      obtain ⟨e, he, hel⟩ := hpl (by omega)
      rw [← hel] at hok
      obtain ⟨h2, h3⟩ := h.hasId_take hm0 hg hl hv hS he hok
      rw [show a.prev - 1 + 1 = a.prev by omega] at h3
      exact ⟨h3, by omega⟩
  | succ s =>
    have hlt : s < es.length := by omega
    have hes' := entries_get hp hes (List.getElem?_eq_getElem hlt)
    have := h1 s es[s] (by omega) (List.getElem?_eq_getElem hlt)
    obtain ⟨h2, h3⟩ := h.hasId_take hm0 hg hl hv hS hes' this
    exact ⟨h3, by omega⟩

/-- A common prefix ends before the first conflict. -/
theorem conflict_keep {A : Log} {es : Log} {prev : Nat} (hp : prev ≤ A.length) (hes : A.take prev ++ es <+: A)
    (hs : nd.firstConflict prev es < es.length) {X : Log} (h1 : X <+: nd.log) (h2 : X <+: A) :
    X.length ≤ prev + nd.firstConflict prev es := by
  by_contra hno
  obtain ⟨_, hc⟩ := firstConflict_spec nd prev es
  generalize nd.firstConflict prev es = s at *
  have he := List.getElem?_eq_getElem hs
  have hA := entries_get hp hes he
  have hX : X[prev + s]? = some es[s] := by rw [← get_of_pre h2 (by omega)]; exact hA
  have hlog := get_of_pre_some h1 hX
  have := hasId_of (nd := nd) hlog
  rw [hc _ he] at this
  cases this

end follow

end Openraft.Cluster
