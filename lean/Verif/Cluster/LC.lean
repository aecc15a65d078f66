import Verif.Cluster.Ghost
import Mathlib.Data.Prod.Lex
import Mathlib.Order.WellFounded

/-!
# What the history invariants imply: log matching and leader completeness
-/

set_option autoImplicit false

namespace Openraft

theorem LeaderId.lt_wf : WellFounded (fun a b : LeaderId => a < b) := by
  have h := InvImage.wf (fun a : LeaderId => (a.term, a.node)) (Prod.lex Nat.lt_wfRel Nat.lt_wfRel).wf
  refine Subrelation.wf ?_ h
  intro a b hab
  rcases hab with h | ⟨h1, h2⟩
  · exact Prod.Lex.left _ _ h
  · simp only [InvImage]
    rw [h1]; exact Prod.Lex.right _ h2

theorem LeaderId.zero_le (L : LeaderId) : (⟨0, 0⟩ : LeaderId) ≤ L := by
  rw [LeaderId.le_def]; simp only; omega

namespace Cluster

variable {m0 : Membership} {g : Ghost}

namespace GInv

theorem lidLe (h : GInv m0 g) {L : LeaderId} {i : Nat} {e : Entry} (he : (g.ll L)[i]? = some e) : e.lid ≤ L := by
  have hne : g.ll L ≠ [] := by rintro h0; rw [h0] at he; simp at he
  rcases h.llEl L hne with ⟨S, hS⟩ | rfl
  · obtain ⟨l, hl, hp, _, _, _, _, ho, _⟩ := h.elCl L S hS
    by_cases hi : i < l.length
    · rw [get_of_pre hp hi] at he
      exact le_of_lt (h.clLt L l hl e (List.mem_of_getElem? he))
    · exact le_of_eq (ho i e (by omega) he)
  · rw [h.ll0] at he
    have := List.mem_of_getElem? he
    simp at this; subst this; exact le_refl _

theorem head (h : GInv m0 g) {L : LeaderId} (hne : g.ll L ≠ []) : (g.ll L)[0]? = some (initEntry m0) := by
  rcases h.llEl L hne with ⟨S, hS⟩ | rfl
  · obtain ⟨l, hl, hp, hh, _⟩ := h.elCl L S hS
    exact get_of_pre_some hp hh
  · rw [h.ll0]; rfl

theorem goodHead (h : GInv m0 g) {l : Log} (hl : Good g l) (hne : l ≠ []) : l[0]? = some (initEntry m0) := by
  cases l with
  | nil => exact absurd rfl hne
  | cons e l =>
    have hp := hl 0 e rfl
    simp only [Nat.zero_add, List.take_succ_cons, List.take_zero] at hp
    have h0 : g.ll e.lid ≠ [] := by rintro h0; rw [h0] at hp; simp at hp
    have h1 := h.head h0
    have h2 := get_of_pre_some hp (i := 0) (x := e) rfl
    rw [h1] at h2
    simpa using h2.symm

/-- lids grow along a good log -/
theorem mono (h : GInv m0 g) {l : Log} (hl : Good g l) {i j : Nat} {a b : Entry} (ha : l[i]? = some a)
    (hb : l[j]? = some b) (hij : i ≤ j) : a.lid ≤ b.lid := by
  have hp := hl j b hb
  have : (l.take (j + 1))[i]? = some a := by rw [get_take (by omega)]; exact ha
  exact h.lidLe (get_of_pre_some hp this)

/-- Log matching. -/
theorem matching {l l' : Log} (hl : Good g l) (hl' : Good g l') {i : Nat} {a b : Entry}
    (ha : l[i]? = some a) (hb : l'[i]? = some b) (hab : a.lid = b.lid) : l.take (i + 1) = l'.take (i + 1) := by
  have h1 := hl i a ha
  have h2 := hl' i b hb
  rw [← hab] at h2
  have l1 := lt_of_get ha
  have l2 := lt_of_get hb
  exact eq_of_pre_len (pre_of_le h1 h2 (by simp only [List.length_take]; omega))
    (by simp only [List.length_take]; omega)

theorem elNe {L : LeaderId} (h : GInv m0 g) {S : List NodeId} (hS : g.el L = some S) : L ≠ ⟨0, 0⟩ := by
  obtain ⟨l, _, _, _, _, _, _, _, hpos⟩ := h.elCl L S hS
  exact ne_of_gt hpos

/-- memberships in good logs are not empty -/
theorem cfgNe (hm0 : m0.configs ≠ []) (h : GInv m0 g) {l : Log} (hl : Good g l) {i : Nat} {e : Entry}
    {m : Membership} (he : l[i]? = some e) (hm : e.cfg = some m) : m.configs ≠ [] := by
  have hp := hl i e he
  have hlt := lt_of_get he
  have he' : (g.ll e.lid)[i]? = some e := get_of_pre_some hp (by rw [get_take (by omega)]; exact he)
  have hne : g.ll e.lid ≠ [] := by rintro h0; rw [h0] at he'; simp at he'
  rcases h.llEl _ hne with ⟨S, hS⟩ | h0
  · obtain ⟨_, _, _, ⟨c, _, hc⟩, _⟩ := h.change e.lid i e m (by rw [hS]; simp) he' rfl hm
    intro h0; rw [h0] at hc; simp at hc
  · rw [h0, h.ll0] at he'
    have := List.mem_of_getElem? he'
    simp at this
    rw [this] at hm
    simp [initEntry, Entry.cfg] at hm
    subst hm; exact hm0

theorem goodC' (h : GInv m0 g) {L : LeaderId} {l : Log} (hp : l <+: g.ll L) : Good g l := (h.goodL L).pre hp

/-- A membership entry past the first position was proposed under a committed membership. -/
theorem cfgEntry (h : GInv m0 g) {l : Log} (hl : Good g l) {x : Nat} {e : Entry} {m : Membership}
    (he : l[x]? = some e) (hm : e.cfg = some m) (hx : 0 < x) :
    (∃ S, g.el e.lid = some S) ∧ ∃ k0 mp, lastCfg (l.take x) = some (k0, mp) ∧
      (∃ c, c ∈ mp.configs ∧ c ∈ m.configs) ∧
      ∃ r ∈ g.commits, r.L = e.lid ∧ k0 < r.m ∧ r.m ≤ x ∧ r.t ≤ x ∧ (g.ll e.lid).take r.m = l.take r.m ∧
        (∃ e', l[r.m - 1]? = some e' ∧ e'.lid = e.lid) := by
  have hp := hl x e he
  have hlt := lt_of_get he
  have he' : (g.ll e.lid)[x]? = some e := get_of_pre_some hp (by rw [get_take (by omega)]; exact he)
  have hne : g.ll e.lid ≠ [] := by rintro h0; rw [h0] at he'; simp at he'
  have hlen : (l.take (x + 1)).length = x + 1 := by simp only [List.length_take]; omega
  have htk : ∀ y, y ≤ x + 1 → (g.ll e.lid).take y = l.take y := by
    intro y hy
    rw [take_eq_of_pre hp (by omega), List.take_take]
    congr 1; omega
  rcases h.llEl _ hne with ⟨S, hS⟩ | h0
  · refine ⟨⟨S, hS⟩, ?_⟩
    obtain ⟨k0, mp, h1, h2, r, hr, hrL, hk, ht⟩ := h.change e.lid x e m (by rw [hS]; simp) he' rfl hm
    obtain ⟨_, hm0, hmt, _, ⟨e1, he1, hl1⟩, _⟩ := h.commit r hr
    rw [htk x (by omega)] at h1
    rw [hrL] at he1 hl1
    refine ⟨k0, mp, h1, h2, r, hr, hrL, hk, by omega, ht, htk _ (by omega), e1, ?_, hl1⟩
    have : ((g.ll e.lid).take (x+1))[r.m - 1]? = some e1 := by rw [get_take (by omega)]; exact he1
    rw [htk (x+1) (by omega), get_take (by omega)] at this
    exact this
  · rw [h0, h.ll0] at he'
    have := lt_of_get he'
    simp at this; omega

/-- **Leader completeness.** -/
theorem leaderComplete (hm0 : m0.configs ≠ []) (h : GInv m0 g) (L' : LeaderId) :
    ∀ r ∈ g.commits, ∀ S' l', g.el L' = some S' → g.cl L' = some l' → r.L < L' →
      (g.ll r.L).take r.m <+: l' := by
  induction L' using LeaderId.lt_wf.induction with
  | _ L' IH =>
  -- inner induction on the log length at commit time
  suffices hin : ∀ (T : Nat) (r : Commit), r ∈ g.commits → r.t ≤ T → ∀ S' l', g.el L' = some S' →
      g.cl L' = some l' → r.L < L' → (g.ll r.L).take r.m <+: l' by
    intro r hr S' l' h1 h2 h3; exact hin r.t r hr (le_refl _) S' l' h1 h2 h3
  intro T
  induction T using Nat.strong_induction_on with
  | _ T IHT =>
  intro r hr hrT S' B hS' hB hlt
  by_contra hno
  obtain ⟨⟨SL, hSL⟩, hmpos, hmt, htl, ⟨em, hem, hemL⟩, hq, hnd, hack⟩ := h.commit r hr
  obtain ⟨B1, hB1, hBp, hBh, hBq, hBnd, hBg, hBo, hBpos⟩ := h.elCl L' S' hS'
  rw [hB] at hB1; cases hB1
  obtain ⟨CA, hCA, hCAp, _, _, _, _, hAo, hApos⟩ := h.elCl r.L SL hSL
  set A := g.ll r.L with hA
  have gA : Good g A := h.goodL _
  have gB : Good g B := h.goodC _ _ hB
  have hAne : A ≠ [] := by intro h0; rw [h0] at htl; simp at htl; omega
  have hAh := h.head (L := r.L) hAne
  set p := cpl A B with hp
  have hpA : p ≤ A.length := (cpl_le A B).1
  have hpB : p ≤ B.length := (cpl_le A B).2
  have hpE : A.take p = B.take p := take_cpl A B
  have hcp : ∀ {l : Log}, l <+: A → l <+: B → l.length ≤ p := fun h1 h2 => le_cpl h1 h2
  have hp1 : 1 ≤ p := by
    refine hcp (l := [initEntry m0]) ?_ ?_
    · cases hAA : A with
      | nil => exact absurd hAA hAne
      | cons x t =>
        rw [← hA, hAA] at hAh; simp at hAh; subst hAh; exact ⟨t, rfl⟩
    · cases hBB : B with
      | nil => rw [hBB] at hBh; simp at hBh
      | cons x t => rw [hBB] at hBh; simp at hBh; subst hBh; exact ⟨t, rfl⟩
  have hpm : p < r.m := by
    by_contra hge
    apply hno
    have : A.take r.m <+: A.take p := take_pre_take (by omega)
    rw [hpE] at this
    exact pre_of_pre_take this
  -- positions of the two memberships
  have hAt0 : (A.take r.t)[0]? = some (initEntry m0) := by rw [get_take (by omega)]; exact hAh
  obtain ⟨k, mk, hk⟩ := lastCfg_exists (List.mem_of_getElem? hAt0) (m := m0) rfl
  obtain ⟨k', mk', hk'⟩ := lastCfg_exists (List.mem_of_getElem? hBh) (m := m0) rfl
  have hkt : k < r.t := by have := lastCfg_lt hk; rw [List.length_take] at this; omega
  have hk'l : k' < B.length := lastCfg_lt hk'
  have hqk : isQuorum mk.configs r.S = true := by
    have : cfgs (A.take r.t) = mk.configs := by rw [cfgs, effMembership_of hk]
    rw [← this]; exact hq
  have hqk' : isQuorum mk'.configs S' = true := by
    have : cfgs B = mk'.configs := by rw [cfgs, effMembership_of hk']
    rw [← this]; exact hBq
  obtain ⟨⟨ek, hek, hmk⟩, hkmax⟩ := lastCfg_some.1 hk
  obtain ⟨⟨ek', hek', hmk'⟩, hk'max⟩ := lastCfg_some.1 hk'
  rw [get_take hkt] at hek
  -- the A side
  have hAside : (k < p → lastCfg (A.take p) = some (k, mk)) ∧
      (p ≤ k → (∃ mp k0, lastCfg (A.take p) = some (k0, mp) ∧ ∃ c, c ∈ mp.configs ∧ c ∈ mk.configs) ∧
        (∃ S, g.el ek.lid = some S) ∧ ∃ j e, j < p ∧ A[j]? = some e ∧ e.lid = ek.lid) := by
    constructor
    · intro hkp
      exact lastCfg_pre (take_pre_take (by omega)) hk (by rw [List.length_take]; omega)
    · intro hkp
      obtain ⟨hD, k0, mp, h1, h2, r', hr', hrL', hk0, hrm, hrt, htk, e', he', hle'⟩ :=
        h.cfgEntry gA hek hmk (by omega)
      have hDle : ek.lid ≤ r.L := h.lidLe hek
      have hpre : (g.ll r'.L).take r'.m <+: B :=
        IHT r'.t (by omega) r' hr' (le_refl _) S' B hS' hB (by rw [hrL']; exact lt_of_le_of_lt hDle hlt)
      rw [hrL', htk] at hpre
      have hlenm : r'.m ≤ p := by
        have := hcp (List.take_prefix r'.m A) hpre
        rw [List.length_take] at this
        have := lt_of_get hek
        omega
      obtain ⟨_, hr'pos, _⟩ := h.commit r' hr'
      refine ⟨⟨mp, k0, ?_, h2⟩, hD, r'.m - 1, e', by omega, he', hle'⟩
      exact lastCfg_pre (take_pre_take hkp) h1 (by rw [List.length_take]; omega)
  have hBside : (k' < p → lastCfg (A.take p) = some (k', mk')) ∧
      (p ≤ k' → (∃ mp k0, lastCfg (A.take p) = some (k0, mp) ∧ ∃ c, c ∈ mp.configs ∧ c ∈ mk'.configs) ∧
        ∃ j e, j < p ∧ B[j]? = some e ∧ e.lid = ek'.lid) := by
    constructor
    · intro hkp
      rw [hpE]
      exact lastCfg_pre (List.take_prefix _ _) hk' (by rw [List.length_take]; omega)
    · intro hkp
      obtain ⟨⟨SE, hSE⟩, k0, mp, h1, h2, r', hr', hrL', hk0, hrm, hrt, htk, e', he', hle'⟩ :=
        h.cfgEntry gB hek' hmk' (by omega)
      have hElt : ek'.lid < L' := h.clLt L' B hB ek' (List.mem_of_getElem? hek')
      have hBE := gB k' ek' hek'
      have hlenB : (B.take (k' + 1)).length = k' + 1 := by rw [List.length_take]; omega
      obtain ⟨CE, hCE, hCEp, _, _, _, _, _, _⟩ := h.elCl _ _ hSE
      rcases lt_trichotomy ek'.lid r.L with hE | hE | hE
      · have hpre := IH r.L hlt r' hr' SL CA hSL hCA (by rw [hrL']; exact hE)
        rw [hrL', htk] at hpre
        have hlenm : r'.m ≤ p := by
          have := hcp (hpre.trans hCAp) (List.take_prefix r'.m B)
          rw [List.length_take] at this
          omega
        obtain ⟨_, hr'pos, _⟩ := h.commit r' hr'
        refine ⟨⟨mp, k0, ?_, h2⟩, r'.m - 1, e', by omega, he', hle'⟩
        rw [hpE]
        exact lastCfg_pre (take_pre_take hkp) h1 (by rw [List.length_take]; omega)
      · exfalso
        rw [hE, ← hA] at hBE
        have := hcp hBE (List.take_prefix _ _)
        omega
      · exfalso
        have hpre := IH ek'.lid hElt r hr SE CE hSE hCE hE
        have hCEl : CE.length ≤ k' := by
          by_contra hc
          have he2 : (g.ll ek'.lid)[k']? = some ek' :=
            get_of_pre_some hBE (by rw [get_take (by omega)]; exact hek')
          rw [get_of_pre hCEp (by omega)] at he2
          exact absurd (h.clLt _ _ hCE ek' (List.mem_of_getElem? he2)) (lt_irrefl _)
        have := pre_of_le (hpre.trans hCEp) hBE (by have := hpre.length_le; omega)
        exact hno (pre_of_pre_take this)
  -- the two quorums share a node
  have hshare : ∃ c, c ∈ mk.configs ∧ c ∈ mk'.configs := by
    by_cases h1 : k < p
    · have hc := hAside.1 h1
      by_cases h2 : k' < p
      · have := hBside.1 h2
        rw [hc] at this
        simp only [Option.some.injEq, Prod.mk.injEq] at this
        obtain ⟨rfl, rfl⟩ := this
        have hne := h.cfgNe hm0 gA hek hmk
        obtain ⟨c, hc⟩ := List.exists_mem_of_ne_nil _ hne
        exact ⟨c, hc, hc⟩
      · obtain ⟨⟨mp, k0, h3, c, hc1, hc2⟩, _⟩ := hBside.2 (by omega)
        rw [hc] at h3
        simp only [Option.some.injEq, Prod.mk.injEq] at h3
        obtain ⟨rfl, rfl⟩ := h3
        exact ⟨c, hc1, hc2⟩
    · obtain ⟨⟨mp, k0, h3, c, hc1, hc2⟩, ⟨SD, hSD⟩, j, e, hj, hje, hjl⟩ := hAside.2 (by omega)
      by_cases h2 : k' < p
      · have := hBside.1 h2
        rw [h3] at this
        simp only [Option.some.injEq, Prod.mk.injEq] at this
        obtain ⟨rfl, rfl⟩ := this
        exact ⟨c, hc2, hc1⟩
      · exfalso
        obtain ⟨_, j', e', hj', hje', hjl'⟩ := hBside.2 (by omega)
        -- entries `j`, `j'` are common to both logs
        have hjB : B[j]? = some e := by
          rw [← get_take (a := B) hj, ← hpE, get_take hj]; exact hje
        have hjA : A[j']? = some e' := by
          rw [← get_take (a := A) hj', hpE, get_take hj']; exact hje'
        have hm1 := h.mono gA hjA hek (by omega)
        have hm2 := h.mono gB hjB hek' (by omega)
        rw [hjl'] at hm1
        rw [hjl] at hm2
        have hDE := le_antisymm hm2 hm1
        have pa := gA k ek hek
        have pb := gB k' ek' hek'
        rw [← hDE] at pb
        have hAk := lt_of_get hek
        have q1 : A.take (p + 1) <+: g.ll ek.lid := (take_pre_take (by omega)).trans pa
        have q2 : B.take (p + 1) <+: g.ll ek.lid := (take_pre_take (by omega)).trans pb
        have : A.take (p + 1) <+: B.take (p + 1) :=
          pre_of_le q1 q2 (by simp only [List.length_take]; omega)
        have := hcp (List.take_prefix (p + 1) A) (pre_of_pre_take this)
        rw [List.length_take] at this
        omega
  obtain ⟨c, hc1, hc2⟩ := hshare
  obtain ⟨q, hqS, hqS', _⟩ := joint_inter hnd hBnd hc1 hc2 hqk hqk'
  obtain ⟨a, ha, haq, haL, ham⟩ := hack q hqS
  obtain ⟨gr, hgr, hgq, hgL⟩ := hBg q hqS'
  have hglog : A.take r.m <+: gr.log := by
    have := h.grantAck gr hgr a ha (by rw [hgq, haq]) (by rw [haL, hgL]; exact hlt) r.m ham
      (by
        intro L'' S l hS hl h1 h2
        rw [haL] at h1 ⊢
        rw [hgL] at h2
        exact IH L'' h2 r hr S l hS hl h1)
    rw [haL] at this
    exact this
  obtain ⟨B2, hB2, hlast⟩ := h.grantLast gr hgr
  rw [hgL, hB] at hB2; cases hB2
  have hmA : (A.take r.m).length = r.m := by rw [List.length_take]; omega
  have hgrlen : r.m ≤ gr.log.length := by have := hglog.length_le; omega
  have hgrne : gr.log ≠ [] := by intro h0; rw [h0] at hgrlen; simp at hgrlen; omega
  have hBne : B ≠ [] := by intro h0; rw [h0] at hBh; simp at hBh
  obtain ⟨eg, heg, hgid⟩ := lastId_some hgrne
  obtain ⟨eb, heb, hbid⟩ := lastId_some hBne
  rw [hgid, hbid] at hlast
  have hem' : gr.log[r.m - 1]? = some em :=
    get_of_pre_some hglog (by rw [get_take (by omega)]; exact hem)
  have hge := h.mono (h.grantGood gr hgr) hem' heg (by omega)
  rw [hemL] at hge
  have hBl : B.take (B.length - 1 + 1) = B := List.take_of_length_le (by omega)
  have hBX := gB _ _ heb
  rw [hBl] at hBX
  have hBlen : 0 < B.length := List.length_pos_iff.2 hBne
  have hebL' : eb.lid < L' := h.clLt L' B hB eb (List.mem_of_getElem? heb)
  rcases hlast with hl1 | ⟨hl1, hl2⟩
  · simp only at hl1
    have hX : r.L < eb.lid := lt_of_le_of_lt hge hl1
    have hXne : g.ll eb.lid ≠ [] := by intro h0; rw [h0] at hBX; exact hBne (List.prefix_nil.1 hBX)
    rcases h.llEl _ hXne with ⟨SX, hSX⟩ | h0
    · obtain ⟨CX, hCX, hCXp, _⟩ := h.elCl _ _ hSX
      have hpre := IH eb.lid hebL' r hr SX CX hSX hCX hX
      have hCl : CX.length ≤ B.length - 1 := by
        by_contra hc
        have he2 : (g.ll eb.lid)[B.length - 1]? = some eb := get_of_pre_some hBX heb
        rw [get_of_pre hCXp (by omega)] at he2
        exact absurd (h.clLt _ _ hCX eb (List.mem_of_getElem? he2)) (lt_irrefl _)
      exact hno (pre_of_le (hpre.trans hCXp) hBX (by have := hpre.length_le; rw [← hA, hmA] at this; rw [hmA]; omega))
    · rw [h0] at hX
      exact absurd (lt_of_lt_of_le hX (LeaderId.zero_le _)) (lt_irrefl _)
  · simp only at hl1 hl2
    rcases lt_or_eq_of_le hge with hgt | heq
    · -- last entry of the voter's log is newer than `r.L`
      have hX : r.L < eb.lid := by rw [← hl1]; exact hgt
      have hXne : g.ll eb.lid ≠ [] := by intro h0; rw [h0] at hBX; exact hBne (List.prefix_nil.1 hBX)
      rcases h.llEl _ hXne with ⟨SX, hSX⟩ | h0
      · obtain ⟨CX, hCX, hCXp, _⟩ := h.elCl _ _ hSX
        have hpre := IH eb.lid hebL' r hr SX CX hSX hCX hX
        exact hno (pre_of_le (hpre.trans hCXp) hBX (by rw [hmA]; omega))
      · rw [h0] at hX
        exact absurd (lt_of_lt_of_le hX (LeaderId.zero_le _)) (lt_irrefl _)
    · rw [← hl1, ← heq] at hBX
      exact hno (pre_of_le (List.take_prefix _ _) hBX (by rw [hmA]; omega))

end GInv

/-! ## Consequences -/

theorem CPre.ll (hm0 : m0.configs ≠ []) (h : GInv m0 g) {L : LeaderId} {l : Log} {S : List NodeId} (hc : CPre g L l)
    (hS : g.el L = some S) : l <+: g.ll L := by
  rcases hc with rfl | ⟨r, hr, hL, hp⟩
  · exact List.nil_prefix
  · obtain ⟨cl, hcl, hclp, _⟩ := h.elCl L S hS
    rcases lt_or_eq_of_le hL with hL | hL
    · exact (hp.trans (h.leaderComplete hm0 L r hr S cl hS hcl hL)).trans hclp
    · rw [hL] at hp; exact pre_of_pre_take hp

/-- Two committed prefixes are comparable. -/
theorem CPre.total (hm0 : m0.configs ≠ []) (h : GInv m0 g) {L1 L2 : LeaderId} {l1 l2 : Log}
    (h1 : CPre g L1 l1) (h2 : CPre g L2 l2) : l1 <+: l2 ∨ l2 <+: l1 := by
  rcases h1 with rfl | ⟨r1, hr1, _, hp1⟩
  · exact Or.inl List.nil_prefix
  rcases h2 with rfl | ⟨r2, hr2, _, hp2⟩
  · exact Or.inr List.nil_prefix
  obtain ⟨⟨S1, hS1⟩, _⟩ := h.commit r1 hr1
  obtain ⟨⟨S2, hS2⟩, _⟩ := h.commit r2 hr2
  rcases le_total r1.L r2.L with hle | hle
  · have c1 : CPre g r2.L l1 := Or.inr ⟨r1, hr1, hle, hp1⟩
    exact pre_total (c1.ll hm0 h hS2) (pre_of_pre_take hp2)
  · have c2 : CPre g r1.L l2 := Or.inr ⟨r2, hr2, hle, hp2⟩
    exact pre_total (pre_of_pre_take hp1) (c2.ll hm0 h hS1)

end Cluster
end Openraft
