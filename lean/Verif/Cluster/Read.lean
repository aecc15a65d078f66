import Verif.Cluster.Reach

/-!
# A leader that a quorum still accepts is the newest leader
-/

set_option autoImplicit false

namespace Openraft.Cluster

variable {m0 : Membership} {g : Ghost}

/-- If no member of a quorum of the membership in the log of leader `L` granted a vote to a later leader,
there is no later leader. -/
theorem GInv.noNewer (hm0 : m0.configs ≠ []) (h : GInv m0 g) {L : LeaderId} {SL Q : List NodeId}
    (hSL : g.el L = some SL) (hQ : isQuorum (cfgs (g.ll L)) Q = true) (hQn : Q.Nodup)
    (hno : ∀ q ∈ Q, ∀ gr ∈ g.grants, gr.q = q → gr.L ≤ L) (L' : LeaderId) (S' : List NodeId)
    (hS' : g.el L' = some S') : L' ≤ L := by
  by_contra hgt
  -- the first later leader
  obtain ⟨L', ⟨⟨S', hS'⟩, hlt⟩, hmin⟩ := LeaderId.lt_wf.has_min {X | (∃ S, g.el X = some S) ∧ L < X}
    ⟨L', ⟨S', hS'⟩, not_le.1 hgt⟩
  obtain ⟨B, hB, hBp, hBh, hBq, hBnd, hBg, hBo, hBpos⟩ := h.elCl L' S' hS'
  obtain ⟨CA, hCA, hCAp, hCAh, _, _, _, hAo, hApos⟩ := h.elCl L SL hSL
  set A := g.ll L with hA
  have gA : Good g A := h.goodL _
  have gB : Good g B := h.goodC _ _ hB
  have hAh : A[0]? = some (initEntry m0) := get_of_pre_some hCAp hCAh
  set p := cpl A B with hp
  have hpA : p ≤ A.length := (cpl_le A B).1
  have hpB : p ≤ B.length := (cpl_le A B).2
  have hpE : A.take p = B.take p := take_cpl A B
  have hcp : ∀ {l : Log}, l <+: A → l <+: B → l.length ≤ p := fun h1 h2 => le_cpl h1 h2
  have hp1 : 1 ≤ p := by
    refine hcp (l := [initEntry m0]) ?_ ?_
    · cases hAA : A with
      | nil => rw [hAA] at hAh; simp at hAh
      | cons x t => rw [hAA] at hAh; simp at hAh; subst hAh; exact ⟨t, rfl⟩
    · cases hBB : B with
      | nil => rw [hBB] at hBh; simp at hBh
      | cons x t => rw [hBB] at hBh; simp at hBh; subst hBh; exact ⟨t, rfl⟩
  obtain ⟨k, mk, hk⟩ := lastCfg_exists (List.mem_of_getElem? hAh) (m := m0) rfl
  obtain ⟨k', mk', hk'⟩ := lastCfg_exists (List.mem_of_getElem? hBh) (m := m0) rfl
  have hkt : k < A.length := lastCfg_lt hk
  have hk'l : k' < B.length := lastCfg_lt hk'
  have hqk : isQuorum mk.configs Q = true := by
    have : cfgs A = mk.configs := by rw [cfgs, effMembership_of hk]
    rw [← this]; exact hQ
  have hqk' : isQuorum mk'.configs S' = true := by
    have : cfgs B = mk'.configs := by rw [cfgs, effMembership_of hk']
    rw [← this]; exact hBq
  obtain ⟨⟨ek, hek, hmk⟩, hkmax⟩ := lastCfg_some.1 hk
  obtain ⟨⟨ek', hek', hmk'⟩, hk'max⟩ := lastCfg_some.1 hk'
  have hAside : (k < p → lastCfg (A.take p) = some (k, mk)) ∧
      (p ≤ k → (∃ mp k0, lastCfg (A.take p) = some (k0, mp) ∧ ∃ c, c ∈ mp.configs ∧ c ∈ mk.configs) ∧
        ∃ j e, j < p ∧ A[j]? = some e ∧ e.lid = ek.lid) := by
    constructor
    · intro hkp
      exact lastCfg_pre (List.take_prefix _ _) hk (by rw [List.length_take]; omega)
    · intro hkp
      obtain ⟨hD, k0, mp, h1, h2, r', hr', hrL', hk0, hrm, hrt, htk, e', he', hle'⟩ :=
        h.cfgEntry gA hek hmk (by omega)
      have hDle : ek.lid ≤ L := h.lidLe hek
      have hpre : (g.ll r'.L).take r'.m <+: B :=
        h.leaderComplete hm0 L' r' hr' S' B hS' hB (by rw [hrL']; exact lt_of_le_of_lt hDle hlt)
      rw [hrL', htk] at hpre
      have hlenm : r'.m ≤ p := by
        have := hcp (List.take_prefix r'.m A) hpre
        rw [List.length_take] at this
        omega
      obtain ⟨_, hr'pos, _⟩ := h.commit r' hr'
      refine ⟨⟨mp, k0, ?_, h2⟩, r'.m - 1, e', by omega, he', hle'⟩
      exact lastCfg_pre (take_pre_take hkp) h1 (by rw [List.length_take]; omega)
  have hBside : (k' < p → lastCfg (A.take p) = some (k', mk')) ∧
      (p ≤ k' → (∃ mp k0, lastCfg (A.take p) = some (k0, mp) ∧ ∃ c, c ∈ mp.configs ∧ c ∈ mk'.configs) ∧
        ∃ j e, j < p ∧ B[j]? = some e ∧ e.lid = ek'.lid) := by
    constructor
    · intro hkp
      rw [hpE]
      exact lastCfg_pre (List.take_prefix _ _) hk' (by rw [List.length_take]; omega)
    · intro hkp
      obtain ⟨⟨SE, hSE⟩, k0, mp, h1, h2, r', hr', hrL', hk0, hrm, hrt, htk, e', he', hle'⟩ :=
        h.cfgEntry gB hek' hmk' (by omega)
      have hElt : ek'.lid < L' := h.clLt L' B hB ek' (List.mem_of_getElem? hek')
      have hBE := gB k' ek' hek'
      have hlenB : (B.take (k' + 1)).length = k' + 1 := by rw [List.length_take]; omega
      rcases lt_trichotomy ek'.lid L with hE | hE | hE
      · have hpre := h.leaderComplete hm0 L r' hr' SL CA hSL hCA (by rw [hrL']; exact hE)
        rw [hrL', htk] at hpre
        have hlenm : r'.m ≤ p := by
          have := hcp (hpre.trans hCAp) (List.take_prefix r'.m B)
          rw [List.length_take] at this
          omega
        obtain ⟨_, hr'pos, _⟩ := h.commit r' hr'
        refine ⟨⟨mp, k0, ?_, h2⟩, r'.m - 1, e', by omega, he', hle'⟩
        rw [hpE]
        exact lastCfg_pre (take_pre_take hkp) h1 (by rw [List.length_take]; omega)
      · exfalso
        rw [hE, ← hA] at hBE
        have := hcp hBE (List.take_prefix _ _)
        omega
      · exact absurd hElt (hmin ek'.lid ⟨⟨SE, hSE⟩, hE⟩)
  have hshare : ∃ c, c ∈ mk.configs ∧ c ∈ mk'.configs := by
    by_cases h1 : k < p
    · have hc := hAside.1 h1
      by_cases h2 : k' < p
      · have := hBside.1 h2
        rw [hc] at this
        simp only [Option.some.injEq, Prod.mk.injEq] at this
        obtain ⟨rfl, rfl⟩ := this
        have hne := h.cfgNe hm0 gA hek hmk
        obtain ⟨c, hc⟩ := List.exists_mem_of_ne_nil _ hne
        exact ⟨c, hc, hc⟩
      · obtain ⟨⟨mp, k0, h3, c, hc1, hc2⟩, _⟩ := hBside.2 (by omega)
        rw [hc] at h3
        simp only [Option.some.injEq, Prod.mk.injEq] at h3
        obtain ⟨rfl, rfl⟩ := h3
        exact ⟨c, hc1, hc2⟩
    · obtain ⟨⟨mp, k0, h3, c, hc1, hc2⟩, j, e, hj, hje, hjl⟩ := hAside.2 (by omega)
      by_cases h2 : k' < p
      · have := hBside.1 h2
        rw [h3] at this
        simp only [Option.some.injEq, Prod.mk.injEq] at this
        obtain ⟨rfl, rfl⟩ := this
        exact ⟨c, hc2, hc1⟩
      · exfalso
        obtain ⟨_, j', e', hj', hje', hjl'⟩ := hBside.2 (by omega)
        have hjB : B[j]? = some e := by
          rw [← get_take (a := B) hj, ← hpE, get_take hj]; exact hje
        have hjA : A[j']? = some e' := by
          rw [← get_take (a := A) hj', hpE, get_take hj']; exact hje'
        have hm1 := h.mono gA hjA hek (by omega)
        have hm2 := h.mono gB hjB hek' (by omega)
        rw [hjl'] at hm1
        rw [hjl] at hm2
        have hDE := le_antisymm hm2 hm1
        have pa := gA k ek hek
        have pb := gB k' ek' hek'
        rw [← hDE] at pb
        have q1 : A.take (p + 1) <+: g.ll ek.lid := (take_pre_take (by omega)).trans pa
        have q2 : B.take (p + 1) <+: g.ll ek.lid := (take_pre_take (by omega)).trans pb
        have : A.take (p + 1) <+: B.take (p + 1) :=
          pre_of_le q1 q2 (by simp only [List.length_take]; omega)
        have := hcp (List.take_prefix (p + 1) A) (pre_of_pre_take this)
        rw [List.length_take] at this
        omega
  obtain ⟨c, hc1, hc2⟩ := hshare
  obtain ⟨q, hqS, hqS', _⟩ := joint_inter hQn hBnd hc1 hc2 hqk hqk'
  obtain ⟨gr, hgr, hgq, hgL⟩ := hBg q hqS'
  have := hno q hqS gr hgr hgq
  rw [hgL] at this
  exact absurd hlt (not_lt.2 this)

end Openraft.Cluster
