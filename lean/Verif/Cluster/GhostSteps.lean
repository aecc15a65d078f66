import Verif.Cluster.LC

/-!
# Elementary steps of the history
-/

set_option autoImplicit false

namespace Openraft.Cluster

/-- change a function at one point -/
def fset {β : Type} (f : LeaderId → β) (L : LeaderId) (v : β) : LeaderId → β := fun x => if x = L then v else f x

theorem fset_same {β : Type} (f : LeaderId → β) (L : LeaderId) (v : β) : fset f L v L = v := by simp [fset]
theorem fset_ne {β : Type} (f : LeaderId → β) {L x : LeaderId} (v : β) (h : x ≠ L) : fset f L v x = f x := by
  simp [fset, h]

namespace Ghost
def addAck (g : Ghost) (a : Ack) : Ghost := { g with acks := a :: g.acks }
def addGrant (g : Ghost) (a : Grant) : Ghost := { g with grants := a :: g.grants }
def addCommit (g : Ghost) (r : Commit) : Ghost := { g with commits := r :: g.commits }
def setCl (g : Ghost) (L : LeaderId) (l : Log) : Ghost := { g with cl := fset g.cl L (some l) }
def establish (g : Ghost) (L : LeaderId) (S : List NodeId) (l : Log) : Ghost :=
  { g with el := fset g.el L (some S), ll := fset g.ll L (l ++ [⟨L, .blank⟩]) }
def append (g : Ghost) (L : LeaderId) (e : Entry) : Ghost := { g with ll := fset g.ll L (g.ll L ++ [e]) }
end Ghost

variable {m0 : Membership} {g : Ghost}

/-! ## They only let the history grow -/

theorem step_addAck (n : NodeId) (a : Ack) (h : a.q = n) : GhostStep n g (g.addAck a) where
  ll _ := List.prefix_refl _
  cl _ _ h := h
  el _ _ h := h
  acks _ h := List.mem_cons_of_mem _ h
  grants _ h := h
  commits _ h := h
  keep := rfl
  ll_eq _ _ := rfl
  el_eq _ _ := rfl
  cl_eq _ _ := rfl
  acks_eq b hb hne := by
    rcases List.mem_cons.1 hb with rfl | hb
    · exact absurd h hne
    · exact hb
  grants_eq _ h _ := h
  commits_eq _ h _ := h

theorem step_addGrant (n : NodeId) (a : Grant) (h : a.q = n) : GhostStep n g (g.addGrant a) where
  ll _ := List.prefix_refl _
  cl _ _ h := h
  el _ _ h := h
  acks _ h := h
  grants _ h := List.mem_cons_of_mem _ h
  commits _ h := h
  keep := rfl
  ll_eq _ _ := rfl
  el_eq _ _ := rfl
  cl_eq _ _ := rfl
  acks_eq _ h _ := h
  grants_eq b hb hne := by
    rcases List.mem_cons.1 hb with rfl | hb
    · exact absurd h hne
    · exact hb
  commits_eq _ h _ := h

theorem step_addCommit (n : NodeId) (r : Commit) (h : r.L.node = n) : GhostStep n g (g.addCommit r) where
  ll _ := List.prefix_refl _
  cl _ _ h := h
  el _ _ h := h
  acks _ h := h
  grants _ h := h
  commits _ h := List.mem_cons_of_mem _ h
  keep := rfl
  ll_eq _ _ := rfl
  el_eq _ _ := rfl
  cl_eq _ _ := rfl
  acks_eq _ h _ := h
  grants_eq _ h _ := h
  commits_eq b hb hne := by
    rcases List.mem_cons.1 hb with rfl | hb
    · exact absurd h hne
    · exact hb

theorem step_setCl (n : NodeId) (L : LeaderId) (l : Log) (h : L.node = n) (hL : g.cl L = none) :
    GhostStep n g (g.setCl L l) where
  ll _ := List.prefix_refl _
  cl X x hx := by
    have : X ≠ L := by rintro rfl; rw [hL] at hx; cases hx
    show fset g.cl L (some l) X = some x
    rw [fset_ne _ _ this]; exact hx
  el _ _ h := h
  acks _ h := h
  grants _ h := h
  commits _ h := h
  keep := rfl
  ll_eq _ _ := rfl
  el_eq _ _ := rfl
  cl_eq X hX := fset_ne _ _ (by rintro rfl; exact hX h)
  acks_eq _ h _ := h
  grants_eq _ h _ := h
  commits_eq _ h _ := h

theorem step_establish (n : NodeId) (L : LeaderId) (S : List NodeId) (l : Log) (h : L.node = n)
    (hL : g.el L = none) (hll : g.ll L = []) : GhostStep n g (g.establish L S l) where
  ll X := by
    show g.ll X <+: fset g.ll L _ X
    by_cases hX : X = L
    · subst hX; rw [hll]; exact List.nil_prefix
    · rw [fset_ne _ _ hX]
  cl _ _ h := h
  el X x hx := by
    have : X ≠ L := by rintro rfl; rw [hL] at hx; cases hx
    show fset g.el L (some S) X = some x
    rw [fset_ne _ _ this]; exact hx
  acks _ h := h
  grants _ h := h
  commits _ h := h
  keep := rfl
  ll_eq X hX := fset_ne _ _ (by rintro rfl; exact hX h)
  el_eq X hX := fset_ne _ _ (by rintro rfl; exact hX h)
  cl_eq _ _ := rfl
  acks_eq _ h _ := h
  grants_eq _ h _ := h
  commits_eq _ h _ := h

theorem step_append (n : NodeId) (L : LeaderId) (e : Entry) (h : L.node = n) : GhostStep n g (g.append L e) where
  ll X := by
    show g.ll X <+: fset g.ll L _ X
    by_cases hX : X = L
    · subst hX; rw [fset_same]; exact List.prefix_append _ _
    · rw [fset_ne _ _ hX]
  cl _ _ h := h
  el _ _ h := h
  acks _ h := h
  grants _ h := h
  commits _ h := h
  keep := rfl
  ll_eq X hX := fset_ne _ _ (by rintro rfl; exact hX h)
  el_eq _ _ := rfl
  cl_eq _ _ := rfl
  acks_eq _ h _ := h
  grants_eq _ h _ := h
  commits_eq _ h _ := h

theorem GhostStep.trans {n : NodeId} {g1 g2 g3 : Ghost} (h1 : GhostStep n g1 g2) (h2 : GhostStep n g2 g3) :
    GhostStep n g1 g3 where
  toGhostLe := h1.toGhostLe.trans h2.toGhostLe
  ll_eq L h := (h2.ll_eq L h).trans (h1.ll_eq L h)
  el_eq L h := (h2.el_eq L h).trans (h1.el_eq L h)
  cl_eq L h := (h2.cl_eq L h).trans (h1.cl_eq L h)
  acks_eq _ h hn := h1.acks_eq _ (h2.acks_eq _ h hn) hn
  grants_eq _ h hn := h1.grants_eq _ (h2.grants_eq _ h hn) hn
  commits_eq _ h hn := h1.commits_eq _ (h2.commits_eq _ h hn) hn

/-! ## They keep the invariants -/

theorem ginv_addAck (h : GInv m0 g) (a : Ack) (hel : ∃ S, g.el a.L = some S) (hm : a.m ≤ (g.ll a.L).length)
    (hgr : ∀ gr ∈ g.grants, gr.q = a.q → gr.L ≤ a.L) : GInv m0 (g.addAck a) where
  ll0 := h.ll0
  llEl := h.llEl
  goodL := h.goodL
  goodC := h.goodC
  clLt := h.clLt
  elCl := h.elCl
  grantLast := h.grantLast
  grantGood := h.grantGood
  grantAck gr hg b hb hq hlt := by
    rcases List.mem_cons.1 hb with rfl | hb
    · exact absurd hlt (not_lt.2 (hgr gr hg hq))
    · exact h.grantAck gr hg b hb hq hlt
  ackEl b hb := by
    rcases List.mem_cons.1 hb with rfl | hb
    · exact ⟨hel, hm⟩
    · exact h.ackEl b hb
  commit r hr := by
    obtain ⟨h1, h2, h3, h4, h5, h6, h7, h8⟩ := h.commit r hr
    refine ⟨h1, h2, h3, h4, h5, h6, h7, ?_⟩
    intro q hq
    obtain ⟨b, hb, hx⟩ := h8 q hq
    exact ⟨b, List.mem_cons_of_mem _ hb, hx⟩
  change := h.change

theorem ginv_addGrant (h : GInv m0 g) (gr : Grant) (hcl : ∃ l, g.cl gr.L = some l ∧ lastId gr.log ≤ lastId l)
    (hgood : Good g gr.log)
    (hack : ∀ a ∈ g.acks, gr.q = a.q → a.L < gr.L → ∀ m ≤ a.m,
      (∀ L'' S l, g.el L'' = some S → g.cl L'' = some l → a.L < L'' → L'' < gr.L → (g.ll a.L).take m <+: l) →
      (g.ll a.L).take m <+: gr.log) : GInv m0 (g.addGrant gr) where
  ll0 := h.ll0
  llEl := h.llEl
  goodL := h.goodL
  goodC := h.goodC
  clLt := h.clLt
  elCl L S hS := by
    obtain ⟨l, h1, h2, h3, h4, h5, h6, h7⟩ := h.elCl L S hS
    refine ⟨l, h1, h2, h3, h4, h5, ?_, h7⟩
    intro q hq
    obtain ⟨b, hb, hx⟩ := h6 q hq
    exact ⟨b, List.mem_cons_of_mem _ hb, hx⟩
  grantLast b hb := by
    rcases List.mem_cons.1 hb with rfl | hb
    · exact hcl
    · exact h.grantLast b hb
  grantGood b hb := by
    rcases List.mem_cons.1 hb with rfl | hb
    · exact hgood
    · exact h.grantGood b hb
  grantAck b hb a ha hq hlt := by
    rcases List.mem_cons.1 hb with rfl | hb
    · exact hack a ha hq hlt
    · exact h.grantAck b hb a ha hq hlt
  ackEl := h.ackEl
  commit := h.commit
  change := h.change

theorem ginv_addCommit (h : GInv m0 g) (r : Commit) (h1 : ∃ S, g.el r.L = some S) (h2 : 0 < r.m) (h3 : r.m ≤ r.t)
    (h4 : r.t ≤ (g.ll r.L).length) (h5 : ∃ e, (g.ll r.L)[r.m - 1]? = some e ∧ e.lid = r.L)
    (h6 : isQuorum (cfgs ((g.ll r.L).take r.t)) r.S = true) (h7 : r.S.Nodup)
    (h8 : ∀ q ∈ r.S, ∃ a ∈ g.acks, a.q = q ∧ a.L = r.L ∧ r.m ≤ a.m) : GInv m0 (g.addCommit r) where
  ll0 := h.ll0
  llEl := h.llEl
  goodL := h.goodL
  goodC := h.goodC
  clLt := h.clLt
  elCl := h.elCl
  grantLast := h.grantLast
  grantGood := h.grantGood
  grantAck := h.grantAck
  ackEl := h.ackEl
  commit b hb := by
    rcases List.mem_cons.1 hb with rfl | hb
    · exact ⟨h1, h2, h3, h4, h5, h6, h7, h8⟩
    · exact h.commit b hb
  change X x e m he hx hl hc := by
    obtain ⟨k0, mp, a1, a2, r', hr', a3⟩ := h.change X x e m he hx hl hc
    exact ⟨k0, mp, a1, a2, r', List.mem_cons_of_mem _ hr', a3⟩

theorem ginv_setCl (h : GInv m0 g) (L : LeaderId) (l : Log) (hL : g.cl L = none) (hgood : Good g l)
    (hlt : ∀ e ∈ l, e.lid < L) : GInv m0 (g.setCl L l) := by
  have hst := step_setCl (g := g) L.node L l rfl hL
  have hne : ∀ X x, g.cl X = some x → X ≠ L := by rintro X x hx rfl; rw [hL] at hx; cases hx
  have hcl : ∀ X x, (g.setCl L l).cl X = some x → (X = L ∧ x = l) ∨ g.cl X = some x := by
    intro X x hx
    by_cases hX : X = L
    · subst hX
      simp only [Ghost.setCl, fset_same, Option.some.injEq] at hx
      exact Or.inl ⟨rfl, hx.symm⟩
    · simp only [Ghost.setCl, fset_ne _ _ hX] at hx
      exact Or.inr hx
  exact {
    ll0 := h.ll0
    llEl := h.llEl
    goodL := h.goodL
    goodC := by
      intro X x hx
      rcases hcl X x hx with ⟨rfl, rfl⟩ | hx
      · exact hgood
      · exact h.goodC X x hx
    clLt := by
      intro X x hx
      rcases hcl X x hx with ⟨rfl, rfl⟩ | hx
      · exact hlt
      · exact h.clLt X x hx
    elCl := by
      intro X S hS
      obtain ⟨x, h1, h2⟩ := h.elCl X S hS
      exact ⟨x, hst.cl _ _ h1, h2⟩
    grantLast := by
      intro gr hgr
      obtain ⟨x, h1, h2⟩ := h.grantLast gr hgr
      exact ⟨x, hst.cl _ _ h1, h2⟩
    grantGood := h.grantGood
    grantAck := by
      intro gr hgr a ha hq hL m hm hyp
      exact h.grantAck gr hgr a ha hq hL m hm fun L'' S x hS hx => hyp L'' S x hS (hst.cl _ _ hx)
    ackEl := h.ackEl
    commit := h.commit
    change := h.change }

/-- the log of a leader that is not elected is empty -/
theorem GInv.llNil (h : GInv m0 g) {L : LeaderId} (hel : g.el L = none) (hpos : (⟨0, 0⟩ : LeaderId) < L) :
    g.ll L = [] := by
  by_contra hne
  rcases h.llEl L hne with ⟨S, hS⟩ | rfl
  · rw [hel] at hS; cases hS
  · exact absurd hpos (lt_irrefl _)

theorem ginv_establish (h : GInv m0 g) (L : LeaderId) (S : List NodeId) (l : Log) (hel : g.el L = none)
    (hpos : (⟨0, 0⟩ : LeaderId) < L) (hcl : g.cl L = some l) (hne : l ≠ []) (hq : isQuorum (cfgs l) S = true)
    (hnd : S.Nodup) (hgr : ∀ q ∈ S, ∃ gr ∈ g.grants, gr.q = q ∧ gr.L = L) : GInv m0 (g.establish L S l) := by
  have hll := h.llNil hel hpos
  have hst := step_establish (g := g) L.node L S l rfl hel hll
  have hgl := h.goodC L l hcl
  have hel' : ∀ X x, (g.establish L S l).el X = some x → (X = L ∧ x = S) ∨ (X ≠ L ∧ g.el X = some x) := by
    intro X x hx
    by_cases hX : X = L
    · subst hX
      simp only [Ghost.establish, fset_same, Option.some.injEq] at hx
      exact Or.inl ⟨rfl, hx.symm⟩
    · simp only [Ghost.establish, fset_ne _ _ hX] at hx
      exact Or.inr ⟨hX, hx⟩
  have hllL : (g.establish L S l).ll L = l ++ [⟨L, .blank⟩] := fset_same _ _ _
  have hllN : ∀ X, X ≠ L → (g.establish L S l).ll X = g.ll X := fun X hX => fset_ne _ _ hX
  have hneEl : ∀ X x, g.el X = some x → X ≠ L := by rintro X x hx rfl; rw [hel] at hx; cases hx
  exact {
    ll0 := by rw [hllN _ (ne_of_lt hpos)]; exact h.ll0
    llEl := by
      intro X hX
      by_cases hXL : X = L
      · subst hXL; exact Or.inl ⟨S, fset_same _ _ _⟩
      · rw [hllN _ hXL] at hX
        rcases h.llEl X hX with ⟨x, hx⟩ | h0
        · exact Or.inl ⟨x, hst.el _ _ hx⟩
        · exact Or.inr h0
    goodL := by
      intro X
      by_cases hXL : X = L
      · subst hXL
        rw [hllL]
        refine (hgl.mono hst.toGhostLe).snoc ?_
        rw [hllL]
      · rw [hllN _ hXL]; exact (h.goodL X).mono hst.toGhostLe
    goodC := fun X x hx => (h.goodC X x hx).mono hst.toGhostLe
    clLt := h.clLt
    elCl := by
      intro X x hx
      rcases hel' X x hx with ⟨rfl, rfl⟩ | ⟨hX, hx⟩
      · refine ⟨l, hcl, by rw [hllL]; exact List.prefix_append _ _, h.goodHead hgl hne, hq, hnd, hgr, ?_, hpos⟩
        intro i e hi he
        rw [hllL] at he
        have := lt_of_get he
        simp at this
        have : i = l.length := by omega
        subst this
        simp at he; subst he; rfl
      · rw [hllN _ hX]; exact h.elCl X x hx
    grantLast := h.grantLast
    grantGood := fun gr hg => (h.grantGood gr hg).mono hst.toGhostLe
    grantAck := by
      intro gr hgr a ha hq hlt m hm hyp
      obtain ⟨⟨x, hx⟩, hlen⟩ := h.ackEl a ha
      rw [hst.take (le_trans hm hlen)] at hyp ⊢
      exact h.grantAck gr hgr a ha hq hlt m hm fun L'' S' l' hS' => hyp L'' S' l' (hst.el _ _ hS')
    ackEl := by
      intro a ha
      obtain ⟨⟨x, hx⟩, hlen⟩ := h.ackEl a ha
      exact ⟨⟨x, hst.el _ _ hx⟩, le_trans hlen (hst.len _)⟩
    commit := by
      intro r hr
      obtain ⟨⟨x, hx⟩, h2⟩ := h.commit r hr
      refine ⟨⟨x, hst.el _ _ hx⟩, ?_⟩
      rw [hllN _ (hneEl _ _ hx)]; exact h2
    change := by
      intro X x e m hX hx hl hc
      by_cases hXL : X = L
      · subst hXL
        exfalso
        rw [hllL] at hx
        by_cases hi : x < l.length
        · rw [List.getElem?_append_left hi] at hx
          exact absurd (h.clLt X l hcl e (List.mem_of_getElem? hx)) (by rw [hl]; exact lt_irrefl _)
        · have := lt_of_get hx
          simp at this
          have : x = l.length := by omega
          subst this
          simp at hx; subst hx
          simp [Entry.cfg] at hc
      · rw [hllN _ hXL] at hx ⊢
        exact h.change X x e m (by rw [show (g.establish L S l).el X = g.el X from fset_ne _ _ hXL] at hX; exact hX) hx hl hc }

theorem ginv_append (h : GInv m0 g) (L : LeaderId) (e : Entry) (S : List NodeId) (hel : g.el L = some S)
    (he : e.lid = L)
    (hch : ∀ m, e.cfg = some m → ∃ k0 mp, lastCfg (g.ll L) = some (k0, mp) ∧
      (∃ c, c ∈ mp.configs ∧ c ∈ m.configs) ∧ ∃ r ∈ g.commits, r.L = L ∧ k0 < r.m) :
    GInv m0 (g.append L e) := by
  have hst := step_append (g := g) L.node L e rfl
  have hllL : (g.append L e).ll L = g.ll L ++ [e] := fset_same _ _ _
  have hllN : ∀ X, X ≠ L → (g.append L e).ll X = g.ll X := fun X hX => fset_ne _ _ hX
  have hnz := h.elNe hel
  exact {
    ll0 := by rw [hllN _ (Ne.symm hnz)]; exact h.ll0
    llEl := by
      intro X hX
      by_cases hXL : X = L
      · subst hXL; exact Or.inl ⟨S, hel⟩
      · rw [hllN _ hXL] at hX; exact h.llEl X hX
    goodL := by
      intro X
      by_cases hXL : X = L
      · subst hXL
        rw [hllL]
        refine ((h.goodL _).mono hst.toGhostLe).snoc ?_
        rw [he, hllL]
      · rw [hllN _ hXL]; exact (h.goodL X).mono hst.toGhostLe
    goodC := fun X x hx => (h.goodC X x hx).mono hst.toGhostLe
    clLt := h.clLt
    elCl := by
      intro X x hx
      obtain ⟨l, h1, h2, h3, h4, h5, h6, h7, h8⟩ := h.elCl X x hx
      refine ⟨l, h1, h2.trans (hst.ll X), h3, h4, h5, h6, ?_, h8⟩
      intro i e' hi he'
      by_cases hXL : X = L
      · subst hXL
        rw [hllL] at he'
        by_cases hlt : i < (g.ll X).length
        · rw [List.getElem?_append_left hlt] at he'; exact h7 i e' hi he'
        · have := lt_of_get he'
          simp at this
          have : i = (g.ll X).length := by omega
          subst this
          simp at he'; subst he'; exact he
      · rw [hllN _ hXL] at he'; exact h7 i e' hi he'
    grantLast := h.grantLast
    grantGood := fun gr hg => (h.grantGood gr hg).mono hst.toGhostLe
    grantAck := by
      intro gr hgr a ha hq hlt m hm hyp
      obtain ⟨⟨x, hx⟩, hlen⟩ := h.ackEl a ha
      rw [hst.take (le_trans hm hlen)] at hyp ⊢
      exact h.grantAck gr hgr a ha hq hlt m hm fun L'' S' l' hS' => hyp L'' S' l' (hst.el _ _ hS')
    ackEl := by
      intro a ha
      obtain ⟨⟨x, hx⟩, hlen⟩ := h.ackEl a ha
      exact ⟨⟨x, hst.el _ _ hx⟩, le_trans hlen (hst.len _)⟩
    commit := by
      intro r hr
      obtain ⟨⟨x, hx⟩, h2, h3, h4, ⟨e5, h5, h5'⟩, h6, h7, h8⟩ := h.commit r hr
      refine ⟨⟨x, hx⟩, h2, h3, le_trans h4 (hst.len _), ⟨e5, get_of_pre_some (hst.ll _) h5, h5'⟩, ?_, h7, h8⟩
      rw [hst.take h4]; exact h6
    change := by
      intro X x e' m hX hx hl hc
      by_cases hXL : X = L
      · subst hXL
        rw [hllL] at hx
        by_cases hlt : x < (g.ll X).length
        · rw [List.getElem?_append_left hlt] at hx
          rw [hst.take (by omega)]
          exact h.change X x e' m hX hx hl hc
        · have := lt_of_get hx
          simp at this
          have : x = (g.ll X).length := by omega
          subst this
          simp at hx; subst hx
          obtain ⟨k0, mp, h1, h2, r, hr, hrL, hk⟩ := hch m hc
          refine ⟨k0, mp, ?_, h2, r, hr, hrL, hk, ?_⟩
          · rw [hst.take (le_refl _), List.take_length]; exact h1
          · obtain ⟨_, _, _, h4, _⟩ := h.commit r hr
            rw [hrL] at h4; exact h4
      · rw [hllN _ hXL] at hx ⊢
        exact h.change X x e' m hX hx hl hc }

end Openraft.Cluster
