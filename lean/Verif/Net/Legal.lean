import Verif.Net.Full
import Verif.Cluster.GhostSteps

/-!
# What one node may write, with the history of the cluster

`VS` relates an abstract node (the log and vote that result from executing a prefix of its commands) to the
history of the cluster. `Legal` says what the next command may be. Executing a legal command keeps `VS`, so a
node that only emits legal commands satisfies `VS` after any number of them, in particular after those that are
durable when it crashes.
-/

set_option autoImplicit false
set_option linter.unusedSectionVars false

namespace Openraft.Net
open Openraft.Engine Openraft.Cluster

/-- the last membership of a log, as the engine stores it -/
def memOf (l : Log) : StoredMem :=
  match lastCfg l with
  | none => StoredMem.empty
  | some (i, m) => ⟨idAt l i, m⟩

/-- `l` is committed by a leader whose vote is not above `v` -/
def CVote (g : Ghost) (v : Vote) (l : Log) : Prop :=
  l = [] ∨ ∃ r ∈ g.commits, (⟨r.L, true⟩ : Vote) ≤ v ∧ l <+: (g.ll r.L).take r.m

/-- what the acknowledgement `a` of a node says about its vote and its log -/
def AckOk (g : Ghost) (a : Ack) (v : Vote) (l : Log) : Prop :=
  (⟨a.L, true⟩ : Vote) ≤ v ∧ ∀ m ≤ a.m,
    (∀ L'' S l'', g.el L'' = some S → g.cl L'' = some l'' → a.L < L'' → (⟨L'', true⟩ : Vote) ≤ v → (g.ll a.L).take m <+: l'') →
    (g.ll a.L).take m <+: l

/-- the memberships of the store start above the committed position -/
def NoMemBelow (G : Gh) : Prop := ∀ e ∈ G.store.entries, e.stored? ≠ none → nextIndex G.com ≤ e.id.index

/-- the committed position is in the whole log -/
def Anch (g : Ghost) (G : Gh) : Prop := ∀ c, G.com = some c → idAt (logOf g G) c.index = some c

/-- an abstract node agrees with the history; `dv` are the votes all nodes have on disk -/
structure VS (g : Ghost) (dv : NodeId → Vote) (q : NodeId) (G : Gh) : Prop where
  st : StOk g G.store
  good : Good g (logOf g G)
  lids : ∀ e ∈ logOf g G, e.lid = ⟨0, 0⟩ ∨ (⟨e.lid, true⟩ : Vote) ≤ G.vote
  voteEl : G.vote.committed = true → ∃ S, g.el G.vote.leaderId = some S
  comVal : ∀ c, G.com = some c → Val g c
  comIn : ∀ c, G.com = some c → idAt (logOf g G) c.index = some c ∨
    (nextIndex G.store.lastLogId ≤ c.index ∧ G.vote.committed = true ∧ G.vote.leaderId.node ≠ q ∧ G.snapMem = memOf (cont g (some c)))
  com : CVote g G.vote (cont g G.com)
  ownCl : ∀ L, g.cl L ≠ none → L.node = q → L ≤ G.vote.leaderId
  acks : ∀ a ∈ g.acks, a.q = q → AckOk g a G.vote (logOf g G)
  grants : ∀ gr ∈ g.grants, gr.q = q → (⟨gr.L, false⟩ : Vote) ≤ G.vote
  pv : G.vote.leaderId.node ≠ q → G.vote ≤ dv G.vote.leaderId.node
  base : NoMemBelow G → G.base = memOf (cont g G.store.purged)
  pc : nextIndex G.store.purged ≤ nextIndex G.com

/-- the next command of a node `q` whose writes so far are `G` -/
def Legal (g : Ghost) (dv : NodeId → Vote) (q : NodeId) (G : Gh) : Cmd → Prop
  | .append _ es => Good g (logOf g G ++ es.map toEntry) ∧
      (∀ e ∈ es, e.id.leaderId = ⟨0, 0⟩ ∨ (⟨e.id.leaderId, true⟩ : Vote) ≤ G.vote) ∧
      (G.vote.committed = true ∨ G.vote.leaderId.term = 0)
  | .truncate since => G.vote.committed = true ∧ G.vote.leaderId.node ≠ q ∧
      ∃ x, (g.ll G.vote.leaderId)[since.index]? = some x ∧ x.lid ≠ since.leaderId
  | .saveVote v => (v.committed = true → ∃ S, g.el v.leaderId = some S) ∧
      (v.leaderId.node ≠ q → v ≤ dv v.leaderId.node) ∧ Anch g G
  | .saveCommitted c => CVote g G.vote ((logOf g G).take (c.index + 1))
  | .apply _ upto => CVote g G.vote ((logOf g G).take (upto.index + 1))
  | .sm (.install m _) => (∀ x, m.lastLogId = some x → Val g x ∧ m.mem = memOf (cont g (some x))) ∧ CVote g G.vote (cont g m.lastLogId) ∧
      G.vote.committed = true ∧ G.vote.leaderId.node ≠ q
  | .updateIO _ io => io.vote.leaderId.node = q → ∀ x, io.last = some x → idAt (logOf g G) x.index = some x
  | .respond _ _ (.append .success v upto) => v = G.vote ∧ v.committed = true ∧
      (∀ x, upto = some x → idAt (g.ll v.leaderId) x.index = some x) ∧ Anch g G
  | .respond _ _ (.append (.higherVote w) _ _) => w = G.vote
  | .respond _ _ (.snapshot w) => w = G.vote
  | .respond _ _ (.vote v _ gr) => v = G.vote ∧ (gr = true → v.committed = false ∧ v.leaderId.term ≠ 0 ∧
      ∃ l, g.cl v.leaderId = some l ∧ G.store.lastLogId ≤ lastId l)
  | .replCommitted c => G.vote.committed = true ∧ ∀ x, c = some x → Val g x ∧ CVote g G.vote (cont g c)
  | .sendVote v last => v = G.vote ∧ v.committed = false ∧ v.leaderId.node = q ∧ v.leaderId.term ≠ 0 ∧
      last = G.store.lastLogId
  | .heartbeat v _ c => v = G.vote ∧ v.committed = true ∧ v.leaderId.node = q ∧
      ∀ x, c = some x → Val g x ∧ CVote g v (cont g c)
  | _ => True

variable {m0 : Membership} [hne : Fact (m0.configs ≠ [])] {g g' : Ghost} {dv dv' : NodeId → Vote} {q : NodeId} {G : Gh}

/-! ## Votes and committed prefixes -/

theorem CVote.cpre {v : Vote} {l : Log} (h : CVote g v l) : CPre g v.leaderId l := by
  rcases h with h | ⟨r, hr, h1, h2⟩
  · exact Or.inl h
  · refine Or.inr ⟨r, hr, ?_, h2⟩
    rcases (Vote.le_def.1 h1) with h | ⟨h, _⟩
    · exact le_of_lt h
    · exact le_of_eq h

theorem CVote.le {v w : Vote} {l : Log} (h : CVote g v l) (hvw : v ≤ w) : CVote g w l := by
  rcases h with h | ⟨r, hr, h1, h2⟩
  · exact Or.inl h
  · exact Or.inr ⟨r, hr, le_trans h1 hvw, h2⟩

theorem CVote.pre {v : Vote} {l l' : Log} (h : CVote g v l) (hp : l' <+: l) : CVote g v l' := by
  rcases h with rfl | ⟨r, hr, h1, h2⟩
  · exact Or.inl (List.prefix_nil.1 hp)
  · exact Or.inr ⟨r, hr, h1, hp.trans h2⟩

theorem CVote.mono (hle : GhostLe g g') {v : Vote} {l : Log} (h : CVote g v l) : CVote g' v l := by
  rcases h with h | ⟨r, hr, h1, h2⟩
  · exact Or.inl h
  · exact Or.inr ⟨r, hle.commits r hr, h1, h2.trans (take_pre (hle.ll _) _)⟩

/-- what is committed is in the log of the vote's leader -/
theorem CVote.ll (hg : GInv m0 g) {v w : Vote} {l : Log} (h : CVote g v l) (hvw : v ≤ w)
    (hel : ∃ S, g.el w.leaderId = some S) : l <+: g.ll w.leaderId := by
  obtain ⟨S, hS⟩ := hel
  exact (h.le hvw).cpre.ll hne.out hg hS

/-- two committed prefixes -/
theorem CVote.pre_of_len (hg : GInv m0 g) {v w : Vote} {a b : Log} (ha : CVote g v a) (hb : CVote g w b)
    (hl : a.length ≤ b.length) : a <+: b := by
  rcases ha.cpre.total hne.out hg hb.cpre with h | h
  · exact h
  · have := h.eq_of_length (le_antisymm h.length_le hl)
    rw [this]

/-- entries of a committed prefix are from leaders not above the vote -/
theorem CVote.lids (hg : GInv m0 g) {v : Vote} {l : Log} (h : CVote g v l) {e : Entry} (he : e ∈ l) : (⟨e.lid, true⟩ : Vote) ≤ v := by
  rcases h with rfl | ⟨r, hr, h1, h2⟩
  · cases he
  · refine le_trans ?_ h1
    obtain ⟨i, hi⟩ := List.getElem?_of_mem ((List.take_prefix _ _).subset (h2.subset he))
    rcases lt_or_eq_of_le (hg.lidLe hi) with hl | hl
    · exact Vote.le_def.2 (Or.inl hl)
    · exact Vote.le_def.2 (Or.inr ⟨hl, fun h => h⟩)

theorem AckOk.mono (hle : GhostLe g g') {a : Ack} (ha : a.m ≤ (g.ll a.L).length) {v : Vote} {l : Log} (h : AckOk g a v l) : AckOk g' a v l := by
  refine ⟨h.1, fun m hm hyp => ?_⟩
  rw [hle.take (le_trans hm ha)] at hyp ⊢
  exact h.2 m hm fun L'' S l hS hl hlt hv => hyp L'' S l (hle.el _ _ hS) (hle.cl _ _ hl) hlt hv

theorem AckOk.le {a : Ack} {v w : Vote} {l : Log} (h : AckOk g a v l) (hvw : v ≤ w) : AckOk g a w l :=
  ⟨le_trans h.1 hvw, fun m hm hyp => h.2 m hm fun L'' S l hS hl hlt hv => hyp L'' S l hS hl hlt (le_trans hv hvw)⟩

theorem AckOk.pre {a : Ack} {v : Vote} {l l' : Log} (h : AckOk g a v l) (hp : l <+: l') : AckOk g a v l' :=
  ⟨h.1, fun m hm hyp => (h.2 m hm hyp).trans hp⟩

/-- a node that truncates what differs from its leader's log keeps what it acknowledged -/
theorem AckOk.truncate (hg : GInv m0 g) {a : Ack} {v : Vote} {l : Log} (h : AckOk g a v l) (hv : v.committed = true)
    (hel : ∃ S, g.el v.leaderId = some S) {i : Nat} {y : Entry} (hy : l[i]? = some y)
    (hne : ∀ x, (g.ll v.leaderId)[i]? = some x → x.lid ≠ y.lid) : AckOk g a v (l.take i) := by
  refine ⟨h.1, fun m hm hyp => ?_⟩
  have hp := h.2 m hm hyp
  by_cases hlt : ((g.ll a.L).take m).length ≤ i
  · exact pre_take_of_le hp hlt
  · exfalso
    have hm' : i < ((g.ll a.L).take m).length := by omega
    have hget : ((g.ll a.L).take m)[i]? = some y := by rw [← get_of_pre hp hm']; exact hy
    have hle : a.L ≤ v.leaderId := by
      rcases (Vote.le_def.1 h.1) with h | ⟨h, _⟩
      · exact le_of_lt h
      · exact le_of_eq h
    rcases lt_or_eq_of_le hle with hl | hl
    · obtain ⟨S, hS⟩ := hel
      obtain ⟨l'', h1, h2, _⟩ := hg.elCl _ S hS
      have hvv : (⟨v.leaderId, true⟩ : Vote) ≤ v := by
        cases v; simp only at hv; subst hv; exact le_refl _
      have := hyp _ S l'' hS h1 hl hvv
      exact hne y (get_of_pre_some (this.trans h2) hget) rfl
    · rw [← hl] at hne
      have hm2 : i < m := by rw [List.length_take] at hm'; omega
      rw [get_take hm2] at hget
      exact hne y hget rfl

/-- a node that replaces its log by a longer committed prefix keeps what it acknowledged -/
theorem AckOk.replace (hg : GInv m0 g) {a : Ack} {v : Vote} {l l' : Log} (h : AckOk g a v l) (ha : ∃ S, g.el a.L = some S)
    (hc : CVote g v l') (hl : l.length ≤ l'.length) : AckOk g a v l' := by
  refine ⟨h.1, fun m hm hyp => ?_⟩
  have hp := h.2 m hm hyp
  have hlen := le_trans hp.length_le hl
  have fin : ∀ {X : Log}, (g.ll a.L).take m <+: X → l' <+: X → (g.ll a.L).take m <+: l' :=
    fun h1 h2 => List.prefix_of_prefix_length_le h1 h2 hlen
  rcases hc with rfl | ⟨r, hr, h1, h2⟩
  · rw [List.prefix_nil]; exact List.length_eq_zero_iff.1 (by simpa using hlen)
  · rcases lt_or_ge a.L r.L with hlt | hge
    · obtain ⟨S, hS⟩ := (hg.commit r hr).1
      obtain ⟨c, h3, h4, _⟩ := hg.elCl _ S hS
      exact fin ((hyp _ S c hS h3 hlt h1).trans h4) (h2.trans (List.take_prefix _ _))
    · have h5 : CVote g ⟨r.L, true⟩ l' := Or.inr ⟨r, hr, le_refl _, h2⟩
      have h6 : (⟨r.L, true⟩ : Vote) ≤ ⟨a.L, true⟩ := by
        rcases lt_or_eq_of_le hge with hl | hl
        · exact Vote.le_def.2 (Or.inl hl)
        · exact Vote.le_def.2 (Or.inr ⟨hl, fun h => h⟩)
      exact fin (List.take_prefix _ _) (h5.ll hg h6 ha)

/-! ## Growth of the history -/

theorem logOf_mono (hle : GhostLe g g') (h : StOk g G.store) : logOf g' G = logOf g G := stLog_mono hle h.val

/-- a growth of the history that adds no acknowledgement, grant or candidate log of this node -/
structure Grown (q : NodeId) (g g' : Ghost) : Prop extends GhostLe g g' where
  acks_eq : ∀ a ∈ g'.acks, a.q = q → a ∈ g.acks
  grants_eq : ∀ a ∈ g'.grants, a.q = q → a ∈ g.grants
  cl_eq : ∀ L, L.node = q → g'.cl L = g.cl L

theorem _root_.Openraft.Cluster.GhostStep.grown {n : NodeId} (h : GhostStep n g g') (hn : q ≠ n) : Grown q g g' :=
  ⟨h.toGhostLe, fun a ha hq => h.acks_eq a ha (by rw [hq]; exact hn), fun a ha hq => h.grants_eq a ha (by rw [hq]; exact hn),
    fun L hL => h.cl_eq L (by rw [hL]; exact hn)⟩

theorem Grown.refl (q : NodeId) (g : Ghost) : Grown q g g := ⟨.refl g, fun _ h _ => h, fun _ h _ => h, fun _ _ => rfl⟩

theorem VS.mono (hg : GInv m0 g) (hgr : Grown q g g') (hdv : ∀ n, dv n ≤ dv' n) (h : VS g dv q G) : VS g' dv' q G := by
  have hl := logOf_mono hgr.toGhostLe h.st
  refine ⟨h.st.mono hgr.toGhostLe, by rw [hl]; exact h.good.mono hgr.toGhostLe, by rw [hl]; exact h.lids, ?_,
    fun c hc => (h.comVal c hc).mono hgr.toGhostLe, ?_,
    by rw [cont_monoO hgr.toGhostLe h.comVal]; exact h.com.mono hgr.toGhostLe, ?_, ?_, ?_, fun hn => le_trans (h.pv hn) (hdv _), ?_, h.pc⟩
  · intro hv
    obtain ⟨S, hS⟩ := h.voteEl hv
    exact ⟨S, hgr.el _ _ hS⟩
  · intro c hc
    rw [hl, cont_mono hgr.toGhostLe (h.comVal c hc)]
    exact h.comIn c hc
  · intro L hL hn
    rw [hgr.cl_eq L hn] at hL
    exact h.ownCl L hL hn
  · intro a ha hq
    rw [hl]
    have ha' := hgr.acks_eq a ha hq
    exact (h.acks a ha' hq).mono hgr.toGhostLe (hg.ackEl a ha').2
  · exact fun gr hgr' hq => h.grants gr (hgr.grants_eq gr hgr' hq) hq
  · intro hb
    rw [cont_monoO hgr.toGhostLe h.st.val]
    exact h.base hb

theorem Anch.mono (hle : GhostLe g g') (hst : StOk g G.store) (h : Anch g G) : Anch g' G := by
  unfold Anch
  rw [logOf_mono hle hst]; exact h

theorem Legal.mono (hle : GhostLe g g') (hdv : ∀ n, dv n ≤ dv' n) (hst : StOk g G.store)
    {c : Cmd} (h : Legal g dv q G c) : Legal g' dv' q G c := by
  have hl := logOf_mono hle hst
  unfold Legal at h ⊢
  split at h
  · rw [hl]; exact ⟨h.1.mono hle, h.2⟩
  · obtain ⟨h1, h2, x, hx, hn⟩ := h
    exact ⟨h1, h2, x, get_of_pre_some (hle.ll _) hx, hn⟩
  · refine ⟨fun hc => ?_, fun hn => le_trans (h.2.1 hn) (hdv _), h.2.2.mono hle hst⟩
    obtain ⟨S, hS⟩ := h.1 hc
    exact ⟨S, hle.el _ _ hS⟩
  · rw [hl]; exact h.mono hle
  · rw [hl]; exact h.mono hle
  · refine ⟨fun x hx => ?_, ?_, h.2.2⟩
    · obtain ⟨h1, h2⟩ := h.1 x hx
      rw [cont_mono hle h1]
      exact ⟨h1.mono hle, h2⟩
    · rw [cont_monoO hle fun x hx => (h.1 x hx).1]
      exact h.2.1.mono hle
  · rw [hl]; exact h
  · exact ⟨h.1, h.2.1, fun x hx => idAt_pre (hle.ll _) (h.2.2.1 x hx), h.2.2.2.mono hle hst⟩
  · exact h
  · exact h
  · refine ⟨h.1, fun hgr => ?_⟩
    obtain ⟨h1, h2, l, h3, h4⟩ := h.2 hgr
    exact ⟨h1, h2, l, hle.cl _ _ h3, h4⟩
  · refine ⟨h.1, fun x hx => ?_⟩
    obtain ⟨h1, h2⟩ := h.2 x hx
    subst hx
    rw [cont_mono hle h1]
    exact ⟨h1.mono hle, h2.mono hle⟩
  · exact h
  · refine ⟨h.1, h.2.1, h.2.2.1, fun x hx => ?_⟩
    obtain ⟨h1, h2⟩ := h.2.2.2 x hx
    subst hx
    rw [cont_mono hle h1]
    exact ⟨h1.mono hle, h2.mono hle⟩
  · trivial

/-! ## Memberships of a log -/

theorem memOf_logId {l : Log} {x : LogId} (h : (memOf l).logId = some x) : idAt l x.index = some x := by
  unfold memOf at h
  split at h
  · cases h
  · have := idAt_index h
    rw [this]; exact h

theorem memOf_mem (l : Log) : (memOf l).mem = effMembership l := by
  unfold memOf effMembership
  cases lastCfg l <;> rfl

theorem stored?_cfg {e : Ent} : e.stored? = (toEntry e).cfg.map fun m => ⟨some e.id, m⟩ := by
  unfold Ent.stored? Ent.membership? Entry.cfg toEntry
  cases e.payload <;> rfl

theorem memOf_snoc (l : Log) (e : Ent) (hi : e.id.index = l.length) :
    memOf (l ++ [toEntry e]) = e.stored?.getD (memOf l) := by
  rw [stored?_cfg]
  cases hc : (toEntry e).cfg with
  | none =>
    have := lastCfg_snoc_none l (toEntry e) hc
    unfold memOf
    rw [this]
    simp only [Option.map_none, Option.getD_none]
    cases hl : lastCfg l with
    | none => rfl
    | some r =>
      obtain ⟨i, m⟩ := r
      simp only
      congr 1
      have hlt := lastCfg_lt hl
      simp [idAt, List.getElem?_append_left hlt]
  | some m =>
    have := lastCfg_snoc_cfg l (toEntry e) m hc
    unfold memOf
    rw [this]
    simp only [Option.map_some, Option.getD_some]
    congr 1
    refine idAt_some.2 ⟨toEntry e, by simp, ?_⟩
    rw [← hi]; rfl

/-- the last membership of a log and entries after it -/
theorem memOf_append (l : Log) (es : List Ent) (hi : ∀ i e, es[i]? = some e → e.id.index = l.length + i) :
    memOf (l ++ es.map toEntry) = (es.filterMap (·.stored?)).getLast?.getD (memOf l) := by
  induction es using List.reverseRecOn with
  | nil => simp
  | append_singleton es e ih =>
    have h1 := ih fun i x hx => hi i x (by
      rw [List.getElem?_append_left (lt_of_get hx)]; exact hx)
    have h2 := hi es.length e (by simp)
    rw [List.map_append, List.map_singleton, ← List.append_assoc, memOf_snoc _ _ (by simp [h2]), h1, List.filterMap_append]
    cases hs : e.stored? with
    | none => simp [hs]
    | some m => simp [hs]

/-- the last membership the store of an abstract node can restore is the last one of its whole log -/
theorem VS.mems_last (h : VS g dv q G) : G.mems.getLast? = some (memOf (logOf g G)) := by
  have h1 := memOf_append (cont g G.store.purged) G.store.entries (fun i e he => by rw [h.st.baseLen]; exact h.st.pos i e he)
  have h2 : logOf g G = cont g G.store.purged ++ G.store.entries.map toEntry := rfl
  rw [h2, h1]
  unfold Gh.mems
  rw [List.getLast?_cons]
  congr 1
  cases hl : (G.store.entries.filterMap (·.stored?)).getLast? with
  | some m => rfl
  | none =>
    rw [List.getLast?_eq_none_iff, List.filterMap_eq_nil_iff] at hl
    simp only [Option.getD_none]
    exact h.base fun e he hs => absurd (hl e he) hs

/-! ## Executing a legal command -/

theorem VS.com_le (h : VS g dv q G) (ha : Anch g G) : nextIndex G.com ≤ (logOf g G).length := by
  cases hc : G.com with
  | none => simp
  | some c => have := idAt_lt (ha c hc); simp only [nextIndex_some]; omega

theorem VS.comTake (h : VS g dv q G) (ha : Anch g G) : (logOf g G).take (nextIndex G.com) = cont g G.com := by
  cases hc : G.com with
  | none => simp [cont]
  | some c => exact (take_of_idAt h.good (ha c hc)).2

theorem VS.comPre (h : VS g dv q G) (ha : Anch g G) : cont g G.com <+: logOf g G := by
  rw [← h.comTake ha]; exact List.take_prefix _ _

theorem VS.comT (h : VS g dv q G) (ha : Anch g G) : CVote g G.vote ((logOf g G).take (nextIndex G.com)) := by
  rw [h.comTake ha]; exact h.com

theorem VS.anchored (h : VS g dv q G) (ha : G.Anchored) : Anch g G := by
  intro c hc
  refine h.st.idAt_mem ?_
  rcases ha c hc with h1 | h1
  · exact List.mem_append_right _ h1
  · rw [h1]; simp

theorem VS.anch_short (h : VS g dv q G) (ha : nextIndex G.com ≤ nextIndex G.store.lastLogId) : Anch g G := by
  intro c hc
  rcases h.comIn c hc with h1 | h1
  · exact h1
  · rw [hc] at ha; simp only [nextIndex_some] at ha; omega

theorem VS.anch_own (h : VS g dv q G) (ha : G.vote.committed = false ∨ G.vote.leaderId.node = q) : Anch g G := by
  intro c hc
  rcases h.comIn c hc with h1 | ⟨_, h1, h2, _⟩
  · exact h1
  · rcases ha with ha | ha
    · rw [ha] at h1; cases h1
    · exact absurd ha h2

theorem lid_of_le {a b : Vote} (h : a ≤ b) : a.leaderId ≤ b.leaderId := by
  rcases (Vote.le_def.1 h) with h | ⟨h, _⟩
  · exact le_of_lt h
  · exact le_of_eq h

theorem VS.run_append (h : VS g dv q G) {v : Vote} {es : List Ent} (hok : G.Ok (.append v es)) (hl : Legal g dv q G (.append v es)) :
    VS g dv q (G.run (.append v es)) ∧ logOf g (G.run (.append v es)) = logOf g G ++ es.map toEntry := by
  obtain ⟨hne, hcons, hhead, _, hanc⟩ := hok
  have hanc := h.anchored hanc
  obtain ⟨hgood, hlid, _⟩ := hl
  obtain ⟨hst, hlog⟩ := h.st.append hhead (cons_append.1 hcons).2.1
  have hlog : logOf g (G.run (.append v es)) = logOf g G ++ es.map toEntry := hlog
  have hp : logOf g G <+: logOf g (G.run (.append v es)) := by rw [hlog]; exact List.prefix_append _ _
  refine ⟨⟨hst, by rw [hlog]; exact hgood, ?_, h.voteEl, h.comVal, fun c hc => Or.inl (idAt_pre hp (hanc c hc)), h.com, h.ownCl,
    fun a ha hq => (h.acks a ha hq).pre hp, h.grants, h.pv, ?_, h.pc⟩, hlog⟩
  · intro e he
    rw [hlog] at he
    rcases List.mem_append.1 he with he | he
    · exact h.lids e he
    · obtain ⟨x, hx, rfl⟩ := List.mem_map.1 he
      exact hlid x hx
  · intro hb
    refine h.base fun e he hs => hb e ?_ hs
    exact List.mem_append_left _ he

theorem VS.run_truncate (hg : GInv m0 g) (h : VS g dv q G) {since : LogId} (hok : G.Ok (.truncate since)) (hl : Legal g dv q G (.truncate since)) :
    VS g dv q (G.run (.truncate since)) ∧ logOf g (G.run (.truncate since)) = (logOf g G).take since.index := by
  obtain ⟨hin, hcom⟩ := hok
  obtain ⟨hvc, hvn, x, hx, hne⟩ := hl
  obtain ⟨y, hy, hys⟩ := List.mem_map.1 hin
  have hpos := h.st.mem_get hy
  rw [hys] at hpos
  obtain ⟨hst, hlog⟩ := h.st.truncate (since := since) hpos.1
  have hlog : logOf g (G.run (.truncate since)) = (logOf g G).take since.index := hlog
  have hp : logOf g (G.run (.truncate since)) <+: logOf g G := by rw [hlog]; exact List.take_prefix _ _
  have hlt := lt_of_get hpos.2
  have hlen : (logOf g (G.run (.truncate since))).length = since.index := by
    rw [hlog, List.length_take]; exact Nat.min_eq_left (by have : (logOf g G).length = (stLog g G.store).length := rfl; omega)
  have hanc : Anch g G := h.anch_short (by
    have := h.st.len_last
    have : (logOf g G).length = (stLog g G.store).length := rfl
    omega)
  refine ⟨⟨hst, h.good.pre hp, fun e he => h.lids e (hp.subset he), h.voteEl, h.comVal, ?_, h.com, h.ownCl, ?_, h.grants, h.pv, ?_, h.pc⟩, hlog⟩
  · intro c hc
    have hc : G.com = some c := hc
    have := hanc c hc
    obtain ⟨e, he, hce⟩ := idAt_some.1 this
    rw [hc] at hcom
    refine Or.inl <| idAt_some.2 ⟨e, ?_, hce⟩
    rw [hlog, get_take (by simp only [nextIndex_some] at hcom; omega)]; exact he
  · intro a ha hq
    rw [hlog]
    refine (h.acks a ha hq).truncate hg hvc (h.voteEl hvc) hpos.2 ?_
    intro x' hx'
    rw [hx] at hx'; cases hx'
    intro heq
    exact hne (by rw [heq, ← hys]; rfl)
  · intro hb
    refine h.base fun e he hs => ?_
    by_cases hlt : e.id.index < since.index
    · exact hb e (List.mem_filter.2 ⟨he, by simpa using hlt⟩) hs
    · omega

/-- a purge of entries of the log -/
theorem VS.run_purgeIn (h : VS g dv q G) {upto : LogId} (hok : G.Ok (.purge upto)) (hin : upto ∈ G.ids) :
    VS g dv q (G.run (.purge upto)) ∧ logOf g (G.run (.purge upto)) = logOf g G := by
  obtain ⟨hlo, hhi, _⟩ := hok
  obtain ⟨hst, hlog⟩ := h.st.purge h.good (List.mem_append_right _ hin)
  have hlog : logOf g (G.run (.purge upto)) = logOf g G := hlog
  have hx := h.st.idAt_mem (List.mem_append_right _ hin)
  refine ⟨⟨hst, by rw [hlog]; exact h.good, by rw [hlog]; exact h.lids, h.voteEl, h.comVal, ?_, h.com, h.ownCl,
    by rw [hlog]; exact h.acks, h.grants, h.pv, ?_, by show upto.index + 1 ≤ _; exact hhi⟩, hlog⟩
  · intro c hc
    rw [hlog]
    have h1 : nextIndex (G.run (.purge upto)).store.lastLogId = nextIndex G.store.lastLogId := by
      show nextIndex (G.store.purge upto).lastLogId = _
      rw [← h.st.len_last, ← hst.len_last]; exact congrArg List.length hlog
    rw [h1]
    exact h.comIn c hc
  · intro hb
    have hlt := idAt_lt hx
    have hlast := h.st.len_last
    have hnl : ¬ nextIndex G.store.lastLogId ≤ upto.index := by omega
    show (if nextIndex G.store.lastLogId ≤ upto.index then G.snapMem
      else ((G.store.entries.filter fun e => decide (e.id.index ≤ upto.index)).filterMap (·.stored?)).getLast?.getD G.base) =
      memOf (cont g (some upto))
    rw [if_neg hnl]
    have hf := h.st.filter_lt (upto.index + 1)
    have hf' : (G.store.entries.filter fun e => decide (e.id.index ≤ upto.index)) = G.store.entries.take (upto.index + 1 - nextIndex G.store.purged) := by
      rw [← hf]; congr 1; funext e; simp only [decide_eq_decide]; omega
    have ht := (take_of_idAt h.good hx).2
    have hsp : (logOf g G).take (upto.index + 1) =
        cont g G.store.purged ++ (G.store.entries.take (upto.index + 1 - nextIndex G.store.purged)).map toEntry := by
      show (stLog g G.store).take _ = _
      unfold stLog
      rw [List.take_append, h.st.baseLen, List.take_of_length_le (l := cont g G.store.purged) (by rw [h.st.baseLen]; omega), List.map_take]
    rw [← ht, hsp, memOf_append _ _ (fun i e he => ?_), hf']
    · cases hl : ((G.store.entries.take (upto.index + 1 - nextIndex G.store.purged)).filterMap (·.stored?)).getLast? with
      | some m => rfl
      | none =>
        simp only [Option.getD_none]
        refine h.base fun e he hs => ?_
        rw [List.getLast?_eq_none_iff, List.filterMap_eq_nil_iff, ← hf'] at hl
        by_cases hle : e.id.index ≤ upto.index
        · exact absurd (hl e (List.mem_filter.2 ⟨he, by simpa using hle⟩)) hs
        · exact hb e (List.mem_filter.2 ⟨he, by simp only [decide_eq_true_eq]; omega⟩) hs
    · have hlt := lt_of_get he
      rw [List.length_take] at hlt
      rw [get_take (by omega)] at he
      rw [h.st.baseLen]
      exact h.st.pos i e he

/-- a purge beyond the log: the log is what the installed snapshot has -/
theorem VS.run_purgeOut (hg : GInv m0 g) (h : VS g dv q G) {upto : LogId} (hlt : nextIndex G.store.lastLogId ≤ upto.index) (hc : G.com = some upto) :
    VS g dv q (G.run (.purge upto)) ∧ logOf g (G.run (.purge upto)) = cont g (some upto) := by
  have hv := h.comVal upto hc
  have hcv := h.com
  rw [hc] at hcv
  have hll := h.st.len_last
  have hnil : (G.store.entries.filter fun e => decide (upto.index < e.id.index)) = [] := by
    rw [List.filter_eq_nil_iff]
    intro e he
    have := lt_of_get (h.st.mem_get he).2
    simp only [decide_eq_true_eq]; omega
  have hent : (G.run (.purge upto)).store.entries = [] := hnil
  have hlog : logOf g (G.run (.purge upto)) = cont g (some upto) := by
    show cont g (some upto) ++ (G.store.entries.filter fun e => decide (upto.index < e.id.index)).map toEntry = _
    rw [hnil]; simp
  have hclen := cont_len hv
  refine ⟨⟨⟨?_, ?_⟩, by rw [hlog]; exact cont_good hg _, ?_, h.voteEl, h.comVal, ?_, h.com, h.ownCl, ?_, h.grants, h.pv, ?_, ?_⟩, hlog⟩
  · intro x hx
    cases hx; exact hv
  · intro i e he
    rw [hent] at he; cases he
  · rw [hlog]
    exact fun e he => Or.inr (hcv.lids hg he)
  · intro c hc'
    have hc' : G.com = some c := hc'
    rw [hc] at hc'; cases hc'
    rw [hlog]
    exact Or.inl (cont_last hv)
  · intro a ha hq
    rw [hlog]
    exact (h.acks a ha hq).replace hg (hg.ackEl a ha).1 hcv (by
      have : (logOf g G).length = (stLog g G.store).length := rfl
      omega)
  · intro _
    show (if nextIndex G.store.lastLogId ≤ upto.index then G.snapMem else _) = memOf (cont g (some upto))
    rw [if_pos hlt]
    rcases h.comIn upto hc with h1 | h1
    · have := idAt_lt h1
      have : (logOf g G).length = (stLog g G.store).length := rfl
      omega
    · exact h1.2.2.2
  · show nextIndex (some upto) ≤ nextIndex G.com
    rw [hc]

theorem VS.run_purge (hg : GInv m0 g) (h : VS g dv q G) {upto : LogId} (hok : G.Ok (.purge upto)) : VS g dv q (G.run (.purge upto)) := by
  rcases hok.2.2 with hin | ⟨h1, h2⟩
  · exact (h.run_purgeIn hok hin).1
  · exact (h.run_purgeOut hg h1 h2).1

/-- while the committed position is in the log, a purge does not change the log -/
theorem VS.purge_log (h : VS g dv q G) (ha : Anch g G) {upto : LogId} (hok : G.Ok (.purge upto)) : logOf g (G.run (.purge upto)) = logOf g G := by
  rcases hok.2.2 with hin | ⟨h1, h2⟩
  · exact (h.run_purgeIn hok hin).2
  · have := idAt_lt (ha upto h2)
    have hl := h.st.len_last
    have : (logOf g G).length = (stLog g G.store).length := rfl
    omega

theorem VS.run_install (h : VS g dv q G) {m : SnapMeta} {io : IOId} (hok : G.Ok (.sm (.install m io))) (hl : Legal g dv q G (.sm (.install m io))) :
    VS g dv q (G.run (.sm (.install m io))) := by
  obtain ⟨⟨x, hx, hle, _, hin, _⟩, _⟩ := hok
  obtain ⟨h1, h2, h3, h4⟩ := hl
  have hcm : (G.run (.sm (.install m io))).com = some x := hx
  have hnx : nextIndex G.com ≤ nextIndex (some x) := by simp only [nextIndex_some]; omega
  refine ⟨h.st, h.good, h.lids, h.voteEl, ?_, ?_, h2, h.ownCl, h.acks, h.grants, h.pv, ?_, le_trans h.pc (by rw [hcm]; exact hnx)⟩
  · intro c hc
    exact (h1 c hc).1
  · intro c hc
    rw [hcm] at hc; cases hc
    rcases hin with hin | hin
    · exact Or.inl (h.st.idAt_mem (List.mem_append_right _ hin))
    · exact Or.inr ⟨hin, h3, h4, (h1 x hx).2⟩
  · intro hb
    refine h.base fun e he hs => ?_
    have := hb e he hs
    rw [hcm] at this
    omega

theorem VS.run_apply (h : VS g dv q G) {prev : Option LogId} {upto : LogId} (hok : G.Ok (.apply prev upto)) (hl : Legal g dv q G (.apply prev upto)) :
    VS g dv q (G.run (.apply prev upto)) := by
  obtain ⟨_, hin, hle, _, _⟩ := hok
  have hin' : idAt (logOf g G) upto.index = some upto := h.st.idAt_mem (List.mem_append_right _ hin)
  obtain ⟨hv, ht⟩ := take_of_idAt h.good hin'
  refine ⟨h.st, h.good, h.lids, h.voteEl, ?_, ?_, ?_, h.ownCl, h.acks, h.grants, h.pv, ?_,
    le_trans h.pc (by show _ ≤ upto.index + 1; omega)⟩
  · intro c hc
    have hc : some upto = some c := hc
    cases hc
    exact hv
  · intro c hc
    have hc : some upto = some c := hc
    cases hc
    exact Or.inl hin'
  · show CVote g G.vote (cont g (some upto))
    rw [← ht]; exact hl
  · intro hb
    refine h.base fun e he hs => ?_
    have := hb e he hs
    have : nextIndex (some upto) ≤ e.id.index := this
    simp only [nextIndex_some] at this
    omega

theorem VS.run_saveVote (h : VS g dv q G) {v : Vote} (hok : G.Ok (.saveVote v)) (hl : Legal g dv q G (.saveVote v)) :
    VS g dv q (G.run (.saveVote v)) := by
  have hlt : G.vote ≤ v := le_of_lt hok
  exact ⟨h.st, h.good, fun e he => (h.lids e he).imp_right fun h => le_trans h hlt, hl.1, h.comVal, fun c hc => Or.inl (hl.2.2 c hc), h.com.le hlt,
    fun L hL hn => le_trans (h.ownCl L hL hn) (lid_of_le hlt), fun a ha hq => (h.acks a ha hq).le hlt,
    fun gr hgr hq => le_trans (h.grants gr hgr hq) hlt, hl.2.1, h.base, h.pc⟩

/-- commands that are not writes of the log, of the vote or of the committed position -/
theorem VS.run (hg : GInv m0 g) (h : VS g dv q G) {c : Cmd} (hok : G.Ok c) (hl : Legal g dv q G c) : VS g dv q (G.run c) := by
  cases c with
  | append v es => exact (h.run_append hok hl).1
  | truncate s => exact (h.run_truncate hg hok hl).1
  | purge u => exact h.run_purge hg hok
  | apply p u => exact h.run_apply hok hl
  | saveVote v => exact h.run_saveVote hok hl
  | sm c =>
    cases c with
    | install m io => exact h.run_install hok hl
    | _ => exact h
  | _ => exact h

end Openraft.Net
