import Verif.Cluster.Reach

/-!
# Elections, without any restriction of the executions
-/

set_option autoImplicit false

namespace Openraft.Cluster

variable {m0 : Membership} {R : Rules}

/-- `lid` asked for votes with a log `l`, and a quorum of the membership in `l` granted it. -/
def Elected (ms : List Msg) (lid : LeaderId) : Prop :=
  ∃ (l : Log) (S : List NodeId), Msg.voteReq lid (lastId l) ∈ ms ∧ S.Nodup ∧
    isQuorum (effMembership l).configs S = true ∧ ∀ q ∈ S, Msg.grant q lid ∈ ms

structure CandE (ms : List Msg) (n : NodeId) (nd : Node) (c : Cand) : Prop where
  node : c.lid.node = n
  vote : nd.vote = ⟨c.lid, false⟩
  noLeader : nd.leader = none
  nodup : c.granted.Nodup
  grants : ∀ q ∈ c.granted, Msg.grant q c.lid ∈ ms
  req : ∃ l, Msg.voteReq c.lid (lastId l) ∈ ms ∧ c.configs = (effMembership l).configs

structure NodeE (ms : List Msg) (n : NodeId) (nd : Node) : Prop where
  vote : nd.vote.committed = true → Elected ms nd.vote.leaderId
  lead : ∀ ld, nd.leader = some ld → nd.vote = ⟨ld.lid, true⟩ ∧ ld.lid.node = n
  cand : ∀ c, nd.cand = some c → CandE ms n nd c
  grants : ∀ lid, Msg.grant n lid ∈ ms → (⟨lid, false⟩ : Vote) ≤ nd.vote

structure EInv (s : State) : Prop where
  node : ∀ n, NodeE s.msgs n (s.nodes n)
  msg : ∀ m ∈ s.msgs, ∀ v, m.vote? = some v → v.committed = true → Elected s.msgs v.leaderId
  task : ∀ t ∈ s.tasks, Elected s.msgs t.lid

theorem Elected.mono {ms ms' : List Msg} (h : ∀ m ∈ ms, m ∈ ms') {lid : LeaderId} (he : Elected ms lid) :
    Elected ms' lid := by
  obtain ⟨l, S, h1, h2, h3, h4⟩ := he
  exact ⟨l, S, h _ h1, h2, h3, fun q hq => h _ (h4 q hq)⟩

theorem NodeE.mono {ms ms' : List Msg} {n : NodeId} {nd : Node} (h : ∀ m ∈ ms, m ∈ ms')
    (hg : ∀ lid, Msg.grant n lid ∈ ms' → Msg.grant n lid ∈ ms) (hn : NodeE ms n nd) : NodeE ms' n nd where
  vote hv := (hn.vote hv).mono h
  lead := hn.lead
  cand c hc := by
    have := hn.cand c hc
    obtain ⟨l, h1, h2⟩ := this.req
    exact ⟨this.node, this.vote, this.noLeader, this.nodup, fun q hq => h _ (this.grants q hq), l, h _ h1, h2⟩
  grants lid hl := hn.grants lid (hg lid hl)

/-- One node changes, some messages are added. -/
theorem EInv.next {s s' : State} (h : EInv s) (n : NodeId) (new : List Msg) (hms : s'.msgs = new ++ s.msgs)
    (hnd : ∀ i, i ≠ n → s'.nodes i = s.nodes i) (hn : NodeE s'.msgs n (s'.nodes n))
    (hg : ∀ i lid, Msg.grant i lid ∈ new → i = n)
    (hnew : ∀ m ∈ new, ∀ v, m.vote? = some v → v.committed = true → Elected s'.msgs v.leaderId)
    (ht : ∀ t ∈ s'.tasks, t ∈ s.tasks ∨ Elected s'.msgs t.lid) : EInv s' := by
  have hsub : ∀ m ∈ s.msgs, m ∈ s'.msgs := fun m hm => by rw [hms]; exact List.mem_append_right _ hm
  refine ⟨fun i => ?_, fun m hm v hv hc => ?_, fun t h' => ?_⟩
  · by_cases hi : i = n
    · subst hi; exact hn
    · rw [hnd i hi]
      refine (h.node i).mono hsub fun lid hl => ?_
      rw [hms] at hl
      rcases List.mem_append.1 hl with hl | hl
      · exact absurd (hg i lid hl) hi
      · exact hl
  · have hm' := hm
    rw [hms] at hm'
    rcases List.mem_append.1 hm' with hm' | hm'
    · exact hnew m hm' v hv hc
    · exact (h.msg m hm' v hv hc).mono hsub
  · rcases ht t h' with h1 | h1
    · exact (h.task t h1).mono hsub
    · exact h1

/-- A node whose vote does not shrink and that has neither leader nor candidate. -/
theorem NodeE.follow {ms : List Msg} {n : NodeId} {nd nd' : Node} (hn : NodeE ms n nd)
    (hl : nd'.leader = none) (hc : nd'.cand = none) (hle : nd.vote ≤ nd'.vote)
    (hv : nd'.vote.committed = true → Elected ms nd'.vote.leaderId) : NodeE ms n nd' where
  vote := hv
  lead ld h := by rw [hl] at h; cases h
  cand ld h := by rw [hc] at h; cases h
  grants lid hg := le_trans (hn.grants lid hg) hle

/-- A node that keeps its vote, candidate and the id of its leader. -/
theorem NodeE.keep {ms : List Msg} {n : NodeId} {nd nd' : Node} (hn : NodeE ms n nd)
    (hl : nd'.leader.map (·.lid) = nd.leader.map (·.lid)) (hc : nd'.cand = nd.cand) (hv : nd'.vote = nd.vote) :
    NodeE ms n nd' where
  vote h := by rw [hv] at h ⊢; exact hn.vote h
  lead ld h := by
    rw [h] at hl
    obtain ⟨ld0, h0, h1⟩ := Option.map_eq_some_iff.1 hl.symm
    have := hn.lead ld0 h0
    have h1' : ld0.lid = ld.lid := h1
    rw [hv, ← h1']; exact this
  cand c h := by
    rw [hc] at h
    have := hn.cand c h
    refine ⟨this.node, by rw [hv]; exact this.vote, ?_, this.nodup, this.grants, this.req⟩
    have hl0 := this.noLeader
    rw [hl0] at hl
    simpa using hl
  grants lid hg := by rw [hv]; exact hn.grants lid hg

theorem progress_keep (nd : Node) (ld : Leader) (q : NodeId) (v : Nat) (hl : nd.leader = some ld) :
    (nd.progress ld q v).leader.map (·.lid) = nd.leader.map (·.lid) ∧ (nd.progress ld q v).cand = nd.cand ∧
    (nd.progress ld q v).vote = nd.vote := by
  rw [Node.progress]
  split
  · exact ⟨rfl, rfl, rfl⟩
  · simp [hl]

theorem app_follow (nd : Node) (a : App) (j : Nat) (hl : nd.leader = none) (hc : nd.cand = none) :
    (nd.append a j).leader = none ∧ (nd.append a j).cand = none ∧ (nd.append a j).vote = nd.vote := by
  rw [Node.append]; split <;> exact ⟨hl, hc, rfl⟩

theorem cut_follow (nd : Node) (a : App) (hl : nd.leader = none) (hc : nd.cand = none) :
    (nd.cut a).leader = none ∧ (nd.cut a).cand = none ∧ (nd.cut a).vote = nd.vote := by
  rw [Node.cut]; split <;> exact ⟨hl, hc, rfl⟩

theorem install_follow (nd : Node) (c : Log) (hl : nd.leader = none) (hc : nd.cand = none) :
    (nd.install c).leader = none ∧ (nd.install c).cand = none ∧ (nd.install c).vote = nd.vote := by
  rw [Node.install]; split <;> exact ⟨hl, hc, rfl⟩

theorem cutSnap_follow (nd : Node) (c : Log) (hl : nd.leader = none) (hc : nd.cand = none) :
    (nd.cutSnap c).leader = none ∧ (nd.cutSnap c).cand = none ∧ (nd.cutSnap c).vote = nd.vote := by
  rw [Node.cutSnap]; split
  · exact ⟨hl, hc, rfl⟩
  · split <;> exact ⟨hl, hc, rfl⟩

theorem step_einv {s : State} (h : EInv s) {e : Event} (hok : ok m0 R s e = true) : EInv (next m0 s e) := by
  -- a node change without messages
  have upd : ∀ n nd', NodeE s.msgs n nd' → EInv (s.set n nd') := fun n nd' hn =>
    h.next n [] rfl (fun i hi => set_ne _ _ hi) (by rw [set_same]; exact hn) (by simp) (by simp) (fun t ht => Or.inl ht)
  -- messages without a node change
  have post : ∀ m, (∀ i lid, m ≠ .grant i lid) →
      (∀ v, m.vote? = some v → v.committed = true → Elected s.msgs v.leaderId) → EInv (s.post m) := by
    intro m hg hv
    refine h.next 0 [m] rfl (fun i _ => rfl) ?_ ?_ ?_ (fun t ht => Or.inl ht)
    · refine (h.node 0).mono (fun m hm => List.mem_cons_of_mem _ hm) fun lid hl => ?_
      rcases List.mem_cons.1 hl with hl | hl
      · exact absurd hl.symm (hg _ _)
      · exact hl
    · intro i lid hl
      simp only [List.mem_singleton] at hl
      exact absurd hl.symm (hg _ _)
    · intro m' hm' v hv' hc
      simp only [List.mem_singleton] at hm'; subst hm'
      exact (hv v hv' hc).mono fun m hm => List.mem_cons_of_mem _ hm
  cases e with
  | init n =>
    simp only [ok, decide_eq_true_eq] at hok
    exact upd n _ ((h.node n).keep rfl rfl rfl)
  | elect n =>
    simp only [ok, decide_eq_true_eq] at hok
    have hn := h.node n
    simp only [next]
    refine h.next n [_, _] rfl (fun i hi => set_ne _ _ hi) ?_ ?_ ?_ (fun t ht => Or.inl ht)
    · show NodeE _ n ((s.set n ((s.nodes n).elect n)).nodes n)
      rw [set_same]
      have hlt : (s.nodes n).vote < ⟨⟨(s.nodes n).vote.leaderId.term + 1, n⟩, false⟩ := Or.inl (elect_lt _ _)
      refine ⟨fun hv => by simp [Node.elect] at hv, fun ld hl => ?_, fun c hc => ?_, fun lid hl => ?_⟩
      · simp only [Node.elect] at hl; rw [hok.1] at hl; cases hl
      · simp only [Node.elect, Option.some.injEq] at hc
        subst hc
        refine ⟨rfl, rfl, hok.1, List.nodup_nil, by simp, (s.nodes n).mem, ?_, rfl⟩
        simp [State.post, Node.elect, Node.mem]
      · show _ ≤ (⟨⟨(s.nodes n).vote.leaderId.term + 1, n⟩, false⟩ : Vote)
        simp only [State.post, State.set, List.mem_cons, Msg.grant.injEq, Node.elect, reduceCtorEq, false_or, true_and] at hl
        rcases hl with rfl | hl
        · exact le_refl _
        · exact le_of_lt (lt_of_le_of_lt (hn.grants lid hl) hlt)
    · intro i lid hl
      simp only [List.mem_cons, Msg.grant.injEq, reduceCtorEq, List.not_mem_nil, or_false] at hl
      exact hl.1
    · intro m hm v hv
      simp only [List.mem_cons, List.not_mem_nil, or_false] at hm
      rcases hm with rfl | rfl <;> simp [Msg.vote?] at hv
  | recvVote n lid last =>
    simp only [ok, decide_eq_true_eq] at hok
    have hn := h.node n
    simp only [next]
    refine h.next n [.grant n lid] rfl (fun i hi => set_ne _ _ hi) ?_ ?_ ?_ (fun t ht => Or.inl ht)
    · show NodeE _ n ((s.set n ((s.nodes n).adopt ⟨lid, false⟩)).nodes n)
      rw [set_same]
      refine ⟨fun hv => by simp [Node.adopt] at hv, fun ld hl => (by cases hl), fun c hc => (by cases hc),
        fun lid' hl => ?_⟩
      rcases List.mem_cons.1 hl with hl | hl
      · cases hl; exact le_refl _
      · exact le_trans (hn.grants lid' hl) hok.2.2.1
    · intro i lid' hl
      simp only [List.mem_singleton, Msg.grant.injEq] at hl
      exact hl.1
    · intro m hm v hv
      simp only [List.mem_singleton] at hm
      subst hm; simp [Msg.vote?] at hv
  | recvGrant n q =>
    simp only [ok] at hok
    split at hok
    · rename_i c hc
      simp only [decide_eq_true_eq] at hok
      simp only [next, hc]
      have hn := h.node n
      have hC := hn.cand c hc
      refine upd n _ ?_
      rw [Node.granted]
      have hnd : (if q ∈ c.granted then c.granted else q :: c.granted).Nodup := by
        split
        · exact hC.nodup
        · rename_i hq; exact List.nodup_cons.2 ⟨hq, hC.nodup⟩
      have hgr : ∀ x ∈ (if q ∈ c.granted then c.granted else q :: c.granted), Msg.grant x c.lid ∈ s.msgs := by
        intro x hx
        split at hx
        · exact hC.grants x hx
        · rcases List.mem_cons.1 hx with rfl | hx
          · exact hok
          · exact hC.grants x hx
      obtain ⟨l, hl1, hl2⟩ := hC.req
      revert hnd hgr
      generalize (if q ∈ c.granted then c.granted else q :: c.granted) = G
      intro hnd hgr
      split
      · rename_i hq
        refine ⟨fun _ => ⟨l, _, hl1, hnd, by rw [← hl2]; exact hq, hgr⟩, fun ld hl => ?_, fun c hc => (by cases hc),
          fun lid hl => ?_⟩
        · simp only [Option.some.injEq] at hl; subst hl; exact ⟨rfl, hC.node⟩
        · have := hn.grants lid hl
          rw [hC.vote] at this
          exact le_trans this (Or.inr ⟨rfl, by simp⟩)
      · refine ⟨hn.vote, hn.lead, fun c' hc' => ?_, hn.grants⟩
        simp only [Option.some.injEq] at hc'; subst hc'
        exact ⟨hC.node, hC.vote, hC.noLeader, hnd, hgr, l, hl1, hl2⟩
    · cases hok
  | tell n =>
    refine post _ (by intro i l hh; cases hh) ?_
    intro v hv hc
    simp only [Msg.vote?, Option.some.injEq] at hv
    subst hv; exact (h.node n).vote hc
  | learn n v =>
    simp only [ok, decide_eq_true_eq] at hok
    obtain ⟨m, hm, hv⟩ := List.any_eq_true.1 hok.1
    refine upd n _ ((h.node n).follow rfl rfl (le_of_lt hok.2.2) fun hc => ?_)
    exact h.msg m hm v (by simpa using hv) hc
  | write n d =>
    simp only [ok] at hok
    obtain ⟨ld, hl⟩ := Option.isSome_iff_exists.1 hok
    simp only [next, hl]
    exact upd n _ ((h.node n).keep rfl rfl rfl)
  | change n ch retain =>
    simp only [next]
    split
    · rename_i ld m hl _
      exact upd n _ ((h.node n).keep (by simp [Node.propose, hl]) rfl rfl)
    · exact h
  | queue n lo hi =>
    simp only [ok, decide_eq_true_eq] at hok
    obtain ⟨ld, hl⟩ := Option.isSome_iff_exists.1 hok.1
    simp only [next, hl]
    have hL := (h.node n).lead ld hl
    refine h.next n [] rfl (fun i _ => rfl) (h.node n) (by simp) (by simp) fun t ht => ?_
    rcases List.mem_cons.1 ht with rfl | ht
    · right
      have := (h.node n).vote (by rw [hL.1])
      rw [hL.1] at this; exact this
    · exact Or.inl ht
  | send t =>
    simp only [ok, decide_eq_true_eq] at hok
    refine post _ (by intro i l hh; cases hh) ?_
    intro v hv hc
    simp only [Msg.vote?, Option.some.injEq] at hv
    subst hv; exact h.task t hok.1
  | beat n =>
    simp only [ok] at hok
    obtain ⟨ld, hl⟩ := Option.isSome_iff_exists.1 hok
    simp only [next, hl]
    have hL := (h.node n).lead ld hl
    refine post _ (by intro i l hh; cases hh) ?_
    intro v hv hc
    simp only [Msg.vote?, Option.some.injEq] at hv
    subst hv
    have := (h.node n).vote (by rw [hL.1])
    rw [hL.1] at this; exact this
  | recvApp n a j =>
    simp only [ok, decide_eq_true_eq] at hok
    have hel := h.msg _ hok.1 _ rfl rfl
    obtain ⟨h1, h2, h3⟩ := app_follow ((s.nodes n).adopt ⟨a.lid, true⟩) a j rfl rfl
    have hE : EInv (s.set n (((s.nodes n).adopt ⟨a.lid, true⟩).append a j)) :=
      upd n _ ((h.node n).follow h1 h2 (by rw [h3]; exact hok.2.2.1) (by rw [h3]; exact fun _ => hel))
    simp only [next]
    split
    · refine hE.next 0 [.ack n a.lid (a.prev + j)] rfl (fun i _ => rfl) ?_ (by simp) ?_ (fun t ht => Or.inl ht)
      · refine (hE.node 0).mono (fun m hm => List.mem_cons_of_mem _ hm) fun lid hl => ?_
        rcases List.mem_cons.1 hl with hl | hl
        · cases hl
        · exact hl
      · intro m hm v hv
        simp only [List.mem_singleton] at hm
        subst hm; simp [Msg.vote?] at hv
    · exact hE
  | cutApp n a =>
    simp only [ok, decide_eq_true_eq] at hok
    have hel := h.msg _ hok.1 _ rfl rfl
    obtain ⟨h1, h2, h3⟩ := cut_follow ((s.nodes n).adopt ⟨a.lid, true⟩) a rfl rfl
    exact upd n _ ((h.node n).follow h1 h2 (by rw [h3]; exact hok.2.2) (by rw [h3]; exact fun _ => hel))
  | recvAck n q m =>
    simp only [next]
    split
    · rename_i ld hl
      obtain ⟨h1, h2, h3⟩ := progress_keep (s.nodes n) ld q m hl
      exact upd n _ ((h.node n).keep h1 h2 h3)
    · exact h
  | flush n k => exact upd n _ ((h.node n).keep rfl rfl rfl)
  | notify n v =>
    simp only [next]
    split
    · rename_i ld hl
      obtain ⟨h1, h2, h3⟩ := progress_keep (s.nodes n) ld n v hl
      exact upd n _ ((h.node n).keep h1 h2 h3)
    · exact h
  | apply n k =>
    have := upd n { s.nodes n with sm := (s.nodes n).sm ++ ((s.nodes n).mem.take k).drop (s.nodes n).sm.length }
      ((h.node n).keep rfl rfl rfl)
    exact ⟨this.node, this.msg, this.task⟩
  | sendSnap n k =>
    simp only [ok, decide_eq_true_eq] at hok
    obtain ⟨ld, hl⟩ := Option.isSome_iff_exists.1 hok.1
    simp only [next, hl]
    have hL := (h.node n).lead ld hl
    refine post _ (by intro i l hh; cases hh) ?_
    intro v hv hc
    simp only [Msg.vote?, Option.some.injEq] at hv
    subst hv
    have := (h.node n).vote (by rw [hL.1])
    rw [hL.1] at this; exact this
  | recvSnap n lid c =>
    simp only [ok, decide_eq_true_eq] at hok
    have hel := h.msg _ hok.1 _ rfl rfl
    obtain ⟨h1, h2, h3⟩ := install_follow ((s.nodes n).adopt ⟨lid, true⟩) c rfl rfl
    have hE : EInv (s.set n (((s.nodes n).adopt ⟨lid, true⟩).install c)) :=
      upd n _ ((h.node n).follow h1 h2 (by rw [h3]; exact hok.2.2) (by rw [h3]; exact fun _ => hel))
    simp only [next]
    refine hE.next 0 [.ack n lid c.length] rfl (fun i _ => rfl) ?_ (by simp) ?_ (fun t ht => Or.inl ht)
    · refine (hE.node 0).mono (fun m hm => List.mem_cons_of_mem _ hm) fun lid hl => ?_
      rcases List.mem_cons.1 hl with hl | hl
      · cases hl
      · exact hl
    · intro m hm v hv
      simp only [List.mem_singleton] at hm
      subst hm; simp [Msg.vote?] at hv
  | cutSnap n lid c =>
    simp only [ok, decide_eq_true_eq] at hok
    have hel := h.msg _ hok.2.1 _ rfl rfl
    obtain ⟨h1, h2, h3⟩ := cutSnap_follow ((s.nodes n).adopt ⟨lid, true⟩) c rfl rfl
    exact upd n _ ((h.node n).follow h1 h2 (by rw [h3]; exact hok.2.2.2) (by rw [h3]; exact fun _ => hel))
  | quit n =>
    simp only [ok] at hok
    obtain ⟨ld, hl⟩ := Option.isSome_iff_exists.1 hok
    have hn := h.node n
    refine upd n _ (hn.follow rfl ?_ (le_refl _) hn.vote)
    cases hc : (s.nodes n).cand with
    | none => rfl
    | some c => rw [(hn.cand c hc).noLeader] at hl; cases hl
  | crash n f k c resume =>
    simp only [ok, decide_eq_true_eq] at hok
    obtain ⟨_, _, _, _, _, h6⟩ := hok
    have hn := h.node n
    refine h.next n [] rfl (fun i hi => set_ne _ _ hi) ?_ (by simp) (by simp) fun t ht => ?_
    · show NodeE _ n ((s.set n ((s.nodes n).restart f k c resume)).nodes n)
      rw [set_same]
      cases resume with
      | false => exact hn.follow (by simp [Node.restart]) rfl (le_refl _) hn.vote
      | true =>
        obtain ⟨h1, h2, _⟩ := h6 rfl
        refine ⟨hn.vote, fun ld hl => ?_, fun c hc => by simp [Node.restart] at hc, hn.grants⟩
        simp only [Node.restart, if_true, Option.some.injEq] at hl
        subst hl
        refine ⟨?_, h2⟩
        show (s.nodes n).vote = _
        rw [← h1]
    · left
      exact List.mem_of_mem_filter ht

theorem reach_einv {s : State} (h : Reachable m0 R s) : EInv s := by
  induction h with
  | init =>
    refine ⟨fun n => ⟨fun h => by simp [init] at h, fun ld h => by simp [init] at h, fun c h => by simp [init] at h,
      fun lid h => by simp [init] at h⟩, fun m h => by simp [init] at h, fun m h => by simp [init] at h⟩
  | step e _ hok ih => exact step_einv ih hok

/-- Votes only grow. -/
theorem step_vote {s : State} (h : EInv s) {e : Event} (hok : ok m0 R s e = true) (i : NodeId) :
    (s.nodes i).vote ≤ ((next m0 s e).nodes i).vote := by
  have upd : ∀ n nd', (s.nodes n).vote ≤ nd'.vote → (s.nodes i).vote ≤ ((s.set n nd').nodes i).vote := by
    intro n nd' hn
    by_cases hi : i = n
    · subst hi; rw [set_same]; exact hn
    · rw [set_ne _ _ hi]
  cases e with
  | init n => exact upd n _ (le_refl _)
  | elect n =>
    exact upd n _ (show (s.nodes n).vote ≤ ⟨⟨(s.nodes n).vote.leaderId.term + 1, n⟩, false⟩ from Or.inl (elect_lt _ _))
  | recvVote n lid last =>
    simp only [ok, decide_eq_true_eq] at hok
    exact upd n _ hok.2.2.1
  | recvGrant n q =>
    simp only [next]
    split
    · rename_i c hc
      refine upd n _ ?_
      have hC := (h.node n).cand c hc
      rw [hC.vote, Node.granted]
      generalize (if q ∈ c.granted then c.granted else q :: c.granted) = G
      split
      · exact Or.inr ⟨rfl, by simp⟩
      · exact le_of_eq hC.vote.symm
    · exact le_refl _
  | tell n => exact le_refl _
  | learn n v =>
    simp only [ok, decide_eq_true_eq] at hok
    exact upd n _ (le_of_lt hok.2.2)
  | write n d => simp only [next]; split; exacts [upd n _ (le_refl _), le_refl _]
  | change n ch retain => simp only [next]; split; exacts [upd n _ (le_refl _), le_refl _]
  | queue n lo hi => simp only [next]; split <;> exact le_refl _
  | send t => exact le_refl _
  | beat n => simp only [next]; split <;> exact le_refl _
  | recvApp n a j =>
    simp only [ok, decide_eq_true_eq] at hok
    have : (s.nodes i).vote ≤ ((s.set n (((s.nodes n).adopt ⟨a.lid, true⟩).append a j)).nodes i).vote :=
      upd n _ (by rw [(app_follow _ a j rfl rfl).2.2]; exact hok.2.2.1)
    simp only [next]; split <;> exact this
  | cutApp n a =>
    simp only [ok, decide_eq_true_eq] at hok
    exact upd n _ (by rw [(cut_follow _ a rfl rfl).2.2]; exact hok.2.2)
  | recvAck n q m =>
    simp only [next]; split
    · rename_i ld hl
      exact upd n _ (by rw [(progress_keep _ ld q m hl).2.2])
    · exact le_refl _
  | flush n k => exact upd n _ (le_refl _)
  | notify n v =>
    simp only [next]; split
    · rename_i ld hl
      exact upd n _ (by rw [(progress_keep _ ld n v hl).2.2])
    · exact le_refl _
  | apply n k =>
    exact upd n { s.nodes n with sm := (s.nodes n).sm ++ ((s.nodes n).mem.take k).drop (s.nodes n).sm.length } (le_refl _)
  | sendSnap n k => simp only [next]; split <;> exact le_refl _
  | recvSnap n lid c =>
    simp only [ok, decide_eq_true_eq] at hok
    exact upd n (((s.nodes n).adopt ⟨lid, true⟩).install c)
      (by rw [(install_follow _ c rfl rfl).2.2]; exact hok.2.2)
  | cutSnap n lid c =>
    simp only [ok, decide_eq_true_eq] at hok
    exact upd n _ (by rw [(cutSnap_follow _ c rfl rfl).2.2]; exact hok.2.2.2)
  | quit n => exact upd n _ (le_refl _)
  | crash n f k c resume => exact upd n ((s.nodes n).restart f k c resume) (le_refl _)

theorem steps_vote {s s' : State} (h : Reachable m0 R s) (hs : Steps m0 R s s') (i : NodeId) :
    (s.nodes i).vote ≤ (s'.nodes i).vote := by
  induction hs with
  | refl => exact le_refl _
  | step e hst hok ih => exact le_trans ih (step_vote (reach_einv (h.steps hst)) hok i)

/-- Messages are never forgotten. -/
theorem step_msgs {s : State} {e : Event} {m : Msg} (hm : m ∈ s.msgs) : m ∈ (next m0 s e).msgs := by
  cases e <;> simp only [next] <;> (try split) <;> simp [State.set, State.post, hm]

end Openraft.Cluster
