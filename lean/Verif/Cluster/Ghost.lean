import Verif.Cluster.Prefix

/-!
# Ghost history of a cluster and its invariants

The proofs about the cluster carry a history beside the state: the log of every leader ever elected,
every acknowledgement, every granted vote, every commit. The history is only an instrument of the
proofs: the properties speak about the states of `Verif/Cluster/Model.lean`.
-/

set_option autoImplicit false

namespace Openraft.Cluster

/-- node `q` durably stored the first `m` entries of leader `L` -/
structure Ack where
  q : NodeId
  L : LeaderId
  m : Nat

/-- node `q` granted its vote to `L`, its log being `log` -/
structure Grant where
  q : NodeId
  L : LeaderId
  log : Log

/-- leader `L` committed its first `m` entries when its log had `t` entries, because the nodes `S`
acknowledged them -/
structure Commit where
  L : LeaderId
  m : Nat
  t : Nat
  S : List NodeId

structure Ghost where
  /-- the whole log of leader `L`; `ll ⟨0, 0⟩` is the initial log -/
  ll : LeaderId → Log
  /-- the log of candidate `L` -/
  cl : LeaderId → Option Log
  /-- the quorum that elected `L` -/
  el : LeaderId → Option (List NodeId)
  acks : List Ack
  grants : List Grant
  commits : List Commit
  /-- a constant: whether executions are restricted by `Rules.keepCommitted` -/
  keep : Bool

/-- Every prefix of `l` is a prefix of the log of the leader that created its last entry. -/
def Good (g : Ghost) (l : Log) : Prop := ∀ i e, l[i]? = some e → l.take (i + 1) <+: g.ll e.lid

/-- `l` is committed by a leader not later than `L`. -/
def CPre (g : Ghost) (L : LeaderId) (l : Log) : Prop :=
  l = [] ∨ ∃ r ∈ g.commits, r.L ≤ L ∧ l <+: (g.ll r.L).take r.m

/-- voter configs in effect with log `l` -/
def cfgs (l : Log) : List (List NodeId) := (effMembership l).configs

variable (m0 : Membership)

/-- Invariants of the history alone. -/
structure GInv (g : Ghost) : Prop where
  ll0 : g.ll ⟨0, 0⟩ = [initEntry m0]
  llEl : ∀ L, g.ll L ≠ [] → (∃ S, g.el L = some S) ∨ L = ⟨0, 0⟩
  goodL : ∀ L, Good g (g.ll L)
  goodC : ∀ L l, g.cl L = some l → Good g l
  clLt : ∀ L l, g.cl L = some l → ∀ e ∈ l, e.lid < L
  elCl : ∀ L S, g.el L = some S → ∃ l, g.cl L = some l ∧ l <+: g.ll L ∧ l[0]? = some (initEntry m0) ∧
    isQuorum (cfgs l) S = true ∧ S.Nodup ∧ (∀ q ∈ S, ∃ gr ∈ g.grants, gr.q = q ∧ gr.L = L) ∧
    (∀ i e, l.length ≤ i → (g.ll L)[i]? = some e → e.lid = L) ∧ (⟨0, 0⟩ : LeaderId) < L
  grantLast : ∀ gr ∈ g.grants, ∃ l, g.cl gr.L = some l ∧ lastId gr.log ≤ lastId l
  grantGood : ∀ gr ∈ g.grants, Good g gr.log
  grantAck : ∀ gr ∈ g.grants, ∀ a ∈ g.acks, gr.q = a.q → a.L < gr.L → ∀ m ≤ a.m,
    (∀ L'' S l, g.el L'' = some S → g.cl L'' = some l → a.L < L'' → L'' < gr.L → (g.ll a.L).take m <+: l) →
    (g.ll a.L).take m <+: gr.log
  ackEl : ∀ a ∈ g.acks, (∃ S, g.el a.L = some S) ∧ a.m ≤ (g.ll a.L).length
  commit : ∀ r ∈ g.commits, (∃ S, g.el r.L = some S) ∧ 0 < r.m ∧ r.m ≤ r.t ∧ r.t ≤ (g.ll r.L).length ∧
    (∃ e, (g.ll r.L)[r.m - 1]? = some e ∧ e.lid = r.L) ∧ isQuorum (cfgs ((g.ll r.L).take r.t)) r.S = true ∧
    r.S.Nodup ∧ ∀ q ∈ r.S, ∃ a ∈ g.acks, a.q = q ∧ a.L = r.L ∧ r.m ≤ a.m
  change : ∀ X x e m, g.el X ≠ none → (g.ll X)[x]? = some e → e.lid = X → e.cfg = some m →
    ∃ k0 mp, lastCfg ((g.ll X).take x) = some (k0, mp) ∧ (∃ c, c ∈ mp.configs ∧ c ∈ m.configs) ∧
      ∃ r ∈ g.commits, r.L = X ∧ k0 < r.m ∧ r.t ≤ x

/-- Invariants of a leader. -/
structure LeadInv (g : Ghost) (n : NodeId) (nd : Node) (ld : Leader) : Prop where
  vote : nd.vote = ⟨ld.lid, true⟩
  node : ld.lid.node = n
  el : ∃ S, g.el ld.lid = some S
  ll : g.ll ld.lid = nd.mem
  configs : ld.prog.configs = cfgs nd.mem
  prog : ∀ p ∈ ld.prog.vector, 0 < p.2 → ∃ a ∈ g.acks, a.q = p.1 ∧ a.L = ld.lid ∧ p.2 ≤ a.m
  own : g.keep = true → ∀ r ∈ g.commits, r.L = ld.lid → r.m ≤ nd.committed

/-- Invariants of a candidate. -/
structure CandInv (g : Ghost) (n : NodeId) (nd : Node) (c : Cand) : Prop where
  vote : nd.vote = ⟨c.lid, false⟩
  node : c.lid.node = n
  el : g.el c.lid = none
  cl : g.cl c.lid = some nd.log
  configs : c.configs = cfgs nd.log
  voter : (effMembership nd.log).isVoter n = true
  pos : (⟨0, 0⟩ : LeaderId) < c.lid
  nodup : c.granted.Nodup
  grants : ∀ q ∈ c.granted, ∃ gr ∈ g.grants, gr.q = q ∧ gr.L = c.lid
  noLeader : nd.leader = none

structure NodeInv (g : Ghost) (n : NodeId) (nd : Node) : Prop where
  good : Good g nd.mem
  lids : ∀ e ∈ nd.mem, e.lid ≤ nd.vote.leaderId
  voteEl : nd.vote.committed = true → ∃ S, g.el nd.vote.leaderId = some S
  bufNil : nd.leader = none → nd.buf = []
  lead : ∀ ld, nd.leader = some ld → LeadInv g n nd ld
  cand : ∀ c, nd.cand = some c → CandInv g n nd c
  ownCl : ∀ L, g.cl L ≠ none → L.node = n → L ≤ nd.vote.leaderId
  acks : ∀ a ∈ g.acks, a.q = n → (⟨a.L, true⟩ : Vote) ≤ nd.vote ∧ ∀ m ≤ a.m,
    (∀ L'' S l, g.el L'' = some S → g.cl L'' = some l → a.L < L'' → (⟨L'', true⟩ : Vote) ≤ nd.vote →
      (g.ll a.L).take m <+: l) → (g.ll a.L).take m <+: nd.log
  grants : ∀ gr ∈ g.grants, gr.q = n → (⟨gr.L, false⟩ : Vote) ≤ nd.vote
  commLe : nd.committed ≤ nd.mem.length
  comm : CPre g nd.vote.leaderId (nd.mem.take nd.committed)
  sm : nd.sm <+: nd.mem.take nd.committed
  acc : nd.leader = none → nd.vote.committed = true → nd.acc ≤ (g.ll nd.vote.leaderId).length ∧
    (g.ll nd.vote.leaderId).take nd.acc <+: nd.log

/-- Invariants of messages. -/
def MsgInv (g : Ghost) : Msg → Prop
  | .voteReq lid last => ∃ l, g.cl lid = some l ∧ last = lastId l
  | .grant q lid => ∃ gr ∈ g.grants, gr.q = q ∧ gr.L = lid
  | .tell v => v.committed = true → ∃ S, g.el v.leaderId = some S
  | .app a => (∃ S, g.el a.lid = some S) ∧ a.prev ≤ (g.ll a.lid).length ∧
      (g.ll a.lid).take a.prev ++ a.entries <+: g.ll a.lid ∧
      (0 < a.prev → ∃ e, (g.ll a.lid)[a.prev - 1]? = some e ∧ e.lid = a.prevLid) ∧
      a.commit ≤ (g.ll a.lid).length ∧ CPre g a.lid ((g.ll a.lid).take a.commit)
  | .ack q lid m => ∃ a ∈ g.acks, a.q = q ∧ a.L = lid ∧ m ≤ a.m
  | .snap lid c => (∃ S, g.el lid = some S) ∧ c <+: g.ll lid ∧ CPre g lid c

/-- Invariants of queued replication tasks. -/
def TaskInv (g : Ghost) (t : Task) : Prop :=
  (∃ S, g.el t.lid = some S) ∧ t.prev ≤ (g.ll t.lid).length ∧ t.prev ≤ t.hi ∧ t.lid.node = t.owner ∧
  (0 < t.prev → ∃ e, (g.ll t.lid)[t.prev - 1]? = some e ∧ e.lid = t.prevLid) ∧
  t.commit ≤ (g.ll t.lid).length ∧ CPre g t.lid ((g.ll t.lid).take t.commit)

structure Inv (s : State) (g : Ghost) : Prop where
  ghost : GInv m0 g
  node : ∀ n, NodeInv g n (s.nodes n)
  msg : ∀ m ∈ s.msgs, MsgInv g m
  task : ∀ t ∈ s.tasks, TaskInv g t
  hist : ∀ h ∈ s.hist, ∃ L, CPre g L h.2

/-! ## Growth of the history -/

structure GhostLe (g g' : Ghost) : Prop where
  ll : ∀ L, g.ll L <+: g'.ll L
  cl : ∀ L l, g.cl L = some l → g'.cl L = some l
  el : ∀ L S, g.el L = some S → g'.el L = some S
  acks : ∀ a ∈ g.acks, a ∈ g'.acks
  grants : ∀ a ∈ g.grants, a ∈ g'.grants
  commits : ∀ a ∈ g.commits, a ∈ g'.commits
  keep : g'.keep = g.keep

/-- A step of the history caused by node `n`. -/
structure GhostStep (n : NodeId) (g g' : Ghost) : Prop extends GhostLe g g' where
  ll_eq : ∀ L, L.node ≠ n → g'.ll L = g.ll L
  el_eq : ∀ L, L.node ≠ n → g'.el L = g.el L
  cl_eq : ∀ L, L.node ≠ n → g'.cl L = g.cl L
  acks_eq : ∀ a ∈ g'.acks, a.q ≠ n → a ∈ g.acks
  grants_eq : ∀ a ∈ g'.grants, a.q ≠ n → a ∈ g.grants
  commits_eq : ∀ r ∈ g'.commits, r.L.node ≠ n → r ∈ g.commits

theorem GhostLe.refl (g : Ghost) : GhostLe g g :=
  ⟨fun _ => List.prefix_refl _, fun _ _ h => h, fun _ _ h => h, fun _ h => h, fun _ h => h, fun _ h => h, rfl⟩

theorem GhostLe.trans {g1 g2 g3 : Ghost} (h1 : GhostLe g1 g2) (h2 : GhostLe g2 g3) : GhostLe g1 g3 where
  ll L := (h1.ll L).trans (h2.ll L)
  cl _ _ h := h2.cl _ _ (h1.cl _ _ h)
  el _ _ h := h2.el _ _ (h1.el _ _ h)
  acks _ h := h2.acks _ (h1.acks _ h)
  grants _ h := h2.grants _ (h1.grants _ h)
  commits _ h := h2.commits _ (h1.commits _ h)
  keep := h2.keep.trans h1.keep

theorem GhostStep.refl (n : NodeId) (g : Ghost) : GhostStep n g g :=
  ⟨GhostLe.refl g, fun _ _ => rfl, fun _ _ => rfl, fun _ _ => rfl, fun _ h _ => h, fun _ h _ => h, fun _ h _ => h⟩

variable {m0} {g g' : Ghost}

theorem Good.mono (hle : GhostLe g g') {l : Log} (h : Good g l) : Good g' l :=
  fun i e he => (h i e he).trans (hle.ll _)

theorem Good.pre {l l' : Log} (h : Good g l) (hp : l' <+: l) : Good g l' := by
  intro i e he
  have hlt := lt_of_get he
  have := h i e (get_of_pre_some hp he)
  rw [take_eq_of_pre hp (by omega)] at this
  exact this

theorem Good.nil : Good g [] := by intro i e h; simp at h

theorem Good.snoc {l : Log} (h : Good g l) {e : Entry} (he : l ++ [e] <+: g.ll e.lid) : Good g (l ++ [e]) := by
  intro i x hx
  by_cases hi : i < l.length
  · rw [List.getElem?_append_left hi] at hx
    rw [List.take_append_of_le_length (by omega)]
    exact h i x hx
  · have hlt := lt_of_get hx
    simp at hlt
    have : i = l.length := by omega
    subst this
    simp at hx; subst hx
    rw [List.take_of_length_le (by simp)]
    exact he

theorem CPre.mono (hle : GhostLe g g') {L : LeaderId} {l : Log} (h : CPre g L l) : CPre g' L l := by
  rcases h with h | ⟨r, hr, hL, hp⟩
  · exact Or.inl h
  · exact Or.inr ⟨r, hle.commits r hr, hL, hp.trans (take_pre (hle.ll _) _)⟩

theorem CPre.pre {L : LeaderId} {l l' : Log} (h : CPre g L l) (hp : l' <+: l) : CPre g L l' := by
  rcases h with rfl | ⟨r, hr, hL, h⟩
  · exact Or.inl (List.prefix_nil.1 hp)
  · exact Or.inr ⟨r, hr, hL, hp.trans h⟩

theorem CPre.le {L L' : LeaderId} {l : Log} (h : CPre g L l) (hL : L ≤ L') : CPre g L' l := by
  rcases h with rfl | ⟨r, hr, h, hp⟩
  · exact Or.inl rfl
  · exact Or.inr ⟨r, hr, le_trans h hL, hp⟩

theorem GhostLe.take (hle : GhostLe g g') {L : LeaderId} {m : Nat} (hm : m ≤ (g.ll L).length) :
    (g'.ll L).take m = (g.ll L).take m := take_eq_of_pre (hle.ll L) hm

theorem GhostLe.len (hle : GhostLe g g') (L : LeaderId) : (g.ll L).length ≤ (g'.ll L).length :=
  (hle.ll L).length_le

theorem MsgInv.mono (hle : GhostLe g g') {m : Msg} (h : MsgInv g m) : MsgInv g' m := by
  cases m with
  | voteReq lid last => obtain ⟨l, h1, h2⟩ := h; exact ⟨l, hle.cl _ _ h1, h2⟩
  | grant q lid => obtain ⟨a, h1, h2⟩ := h; exact ⟨a, hle.grants _ h1, h2⟩
  | tell v => intro hv; obtain ⟨S, hS⟩ := h hv; exact ⟨S, hle.el _ _ hS⟩
  | app a =>
    obtain ⟨⟨S, hS⟩, h1, h2, h3, h4, h5⟩ := h
    refine ⟨⟨S, hle.el _ _ hS⟩, le_trans h1 (hle.len _), ?_, ?_, le_trans h4 (hle.len _), ?_⟩
    · rw [hle.take h1]; exact h2.trans (hle.ll _)
    · intro hp
      obtain ⟨e, he, hl⟩ := h3 hp
      exact ⟨e, get_of_pre_some (hle.ll _) he, hl⟩
    · rw [hle.take h4]; exact h5.mono hle
  | ack q lid m => obtain ⟨a, h1, h2⟩ := h; exact ⟨a, hle.acks _ h1, h2⟩
  | snap lid c =>
    obtain ⟨⟨S, hS⟩, h1, h2⟩ := h
    exact ⟨⟨S, hle.el _ _ hS⟩, h1.trans (hle.ll _), h2.mono hle⟩

theorem TaskInv.mono (hle : GhostLe g g') {t : Task} (h : TaskInv g t) : TaskInv g' t := by
  obtain ⟨⟨S, hS⟩, h1, h2, h6, h3, h4, h5⟩ := h
  refine ⟨⟨S, hle.el _ _ hS⟩, le_trans h1 (hle.len _), h2, h6, ?_, le_trans h4 (hle.len _), ?_⟩
  · intro hp
    obtain ⟨e, he, hl⟩ := h3 hp
    exact ⟨e, get_of_pre_some (hle.ll _) he, hl⟩
  · rw [hle.take h4]; exact h5.mono hle

/-- A step of another node keeps the invariants of a node. -/
theorem NodeInv.mono {n i : NodeId} {nd : Node} (hg : GInv m0 g) (hst : GhostStep n g g') (hi : i ≠ n)
    (h : NodeInv g i nd) : NodeInv g' i nd where
  good := h.good.mono hst.toGhostLe
  lids := h.lids
  voteEl hv := by obtain ⟨S, hS⟩ := h.voteEl hv; exact ⟨S, hst.el _ _ hS⟩
  bufNil := h.bufNil
  lead ld hl := by
    have hL := h.lead ld hl
    have hne : ld.lid.node ≠ n := by rw [hL.node]; exact hi
    refine ⟨hL.vote, hL.node, ?_, ?_, hL.configs, ?_, ?_⟩
    · obtain ⟨S, hS⟩ := hL.el; exact ⟨S, hst.el _ _ hS⟩
    · rw [hst.ll_eq _ hne]; exact hL.ll
    · intro p hp h0
      obtain ⟨a, ha, h1⟩ := hL.prog p hp h0
      exact ⟨a, hst.acks _ ha, h1⟩
    · intro hk r hr hrL
      rw [hst.keep] at hk
      exact hL.own hk r (hst.commits_eq r hr (by rw [hrL]; exact hne)) hrL
  cand c hc := by
    have hC := h.cand c hc
    have hne : c.lid.node ≠ n := by rw [hC.node]; exact hi
    refine ⟨hC.vote, hC.node, ?_, hst.cl _ _ hC.cl, hC.configs, hC.voter, hC.pos, hC.nodup, ?_, hC.noLeader⟩
    · rw [hst.el_eq _ hne]; exact hC.el
    · intro q hq
      obtain ⟨a, ha, h1⟩ := hC.grants q hq
      exact ⟨a, hst.grants _ ha, h1⟩
  ownCl L hL hLn := by
    rw [hst.cl_eq _ (by rw [hLn]; exact hi)] at hL
    exact h.ownCl L hL hLn
  acks a ha hq := by
    have ha' := hst.acks_eq a ha (by rw [hq]; exact hi)
    obtain ⟨h1, h2⟩ := h.acks a ha' hq
    refine ⟨h1, ?_⟩
    intro m hm hyp
    have hlen := (hg.ackEl a ha').2
    rw [hst.take (le_trans hm hlen)] at hyp ⊢
    exact h2 m hm fun L'' S l hS hl hlt hv => hyp L'' S l (hst.el _ _ hS) (hst.cl _ _ hl) hlt hv
  grants gr hgr hq := h.grants gr (hst.grants_eq gr hgr (by rw [hq]; exact hi)) hq
  commLe := h.commLe
  comm := h.comm.mono hst.toGhostLe
  sm := h.sm
  acc hl hv := by
    obtain ⟨h1, h2⟩ := h.acc hl hv
    refine ⟨le_trans h1 (hst.len _), ?_⟩
    rw [hst.take h1]; exact h2

/-- The invariants after a step of node `n`. -/
theorem Inv.step {s s' : State} {n : NodeId} (h : Inv m0 s g) (hst : GhostStep n g g') (hg' : GInv m0 g')
    (hnodes : ∀ i, i ≠ n → s'.nodes i = s.nodes i) (hn : NodeInv g' n (s'.nodes n))
    (hmsgs : ∀ m ∈ s'.msgs, m ∈ s.msgs ∨ MsgInv g' m)
    (htasks : ∀ t ∈ s'.tasks, t ∈ s.tasks ∨ TaskInv g' t)
    (hhist : ∀ x ∈ s'.hist, x ∈ s.hist ∨ ∃ L, CPre g' L x.2) : Inv m0 s' g' where
  ghost := hg'
  node i := by
    by_cases hi : i = n
    · subst hi; exact hn
    · rw [hnodes i hi]; exact (h.node i).mono h.ghost hst hi
  msg m hm := by
    rcases hmsgs m hm with hm | hm
    · exact (h.msg m hm).mono hst.toGhostLe
    · exact hm
  task t ht := by
    rcases htasks t ht with ht | ht
    · exact (h.task t ht).mono hst.toGhostLe
    · exact ht
  hist x hx := by
    rcases hhist x hx with hx | hx
    · obtain ⟨L, hL⟩ := h.hist x hx; exact ⟨L, hL.mono hst.toGhostLe⟩
    · exact hx

end Openraft.Cluster
