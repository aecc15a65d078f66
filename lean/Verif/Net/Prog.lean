import Verif.Pure.Track

/-!
# Progress vectors: where the values come from, and when a candidate is elected
-/

set_option autoImplicit false

namespace Openraft.VecProgress
open Openraft.Props
variable {α : Type} [LinearOrder α]

/-- a property of every pair of a node and its value -/
def AllP (P : NodeId → α → Prop) (p : VecProgress α) : Prop := ∀ e ∈ p.vector, P e.1 e.2

theorem AllP.new {P : NodeId → α → Prop} (configs : List (List NodeId)) (learners : List NodeId) {d : α} (hd : ∀ n, P n d) :
    (VecProgress.new configs learners d).AllP P := by
  intro e he
  simp only [VecProgress.new, List.mem_append, List.mem_map] at he
  rcases he with ⟨_, _, rfl⟩ | ⟨_, _, rfl⟩ <;> exact hd _

theorem AllP.update {P : NodeId → α → Prop} {p p' : VecProgress α} {n : NodeId} {x : α} (h : p.AllP P) (hx : P n x)
    (hu : p.update n x = some p') : p'.AllP P := by
  obtain ⟨_, i, y, _, hp⟩ := update_vector hu
  intro e he
  rcases List.mem_or_eq_of_mem_set (hp.mem_iff.1 he) with h1 | h1
  · exact h e h1
  · subst h1; exact hx

theorem AllP.upgrade {P : NodeId → α → Prop} {p : VecProgress α} (h : p.AllP P) (configs : List (List NodeId))
    (learners : List NodeId) {d : α} (hd : ∀ n, P n d) : (p.upgrade configs learners d).AllP P := by
  rw [upgrade_eq]
  intro e he
  rcases updates_mem e he with h1 | h1
  · exact h e h1
  · exact AllP.new configs learners hd e h1

/-- the votes a candidate has counted: while it is not elected, the granted ones come first; once it is, some of the
nodes that granted are a quorum -/
def BI (p : VecProgress Bool) : Prop :=
  if p.granted then ∃ S : List NodeId, S.Nodup ∧ isQuorum p.configs S = true ∧ ∀ n ∈ S, (n, true) ∈ p.vector
  else ∃ A B, p.vector = A ++ B ∧ (A ++ B).length = p.voterCount ∧ (∀ e ∈ A, e.2 = true) ∧ (∀ e ∈ B, e.2 = false) ∧ (ids (A ++ B)).Nodup

theorem BI.new (configs : List (List NodeId)) : BI (VecProgress.new configs [] false) := by
  unfold BI
  rw [if_neg (by simp [VecProgress.new])]
  refine ⟨[], (VecProgress.new configs [] false).vector, rfl, ?_, by simp, ?_, ?_⟩
  · simp [VecProgress.new]
  · intro e he
    simp only [VecProgress.new, List.map_nil, List.append_nil, List.mem_map] at he
    obtain ⟨_, _, rfl⟩ := he; rfl
  · have : ids ([] ++ (VecProgress.new configs [] false).vector) = Membership.jointIds configs := by
      simp only [VecProgress.new, ids, List.map_nil, List.append_nil, List.nil_append, List.map_map]
      exact List.map_id _
    rw [this]; exact Membership.jointIds_nodup configs

theorem BI.update {p p' : VecProgress Bool} (h : BI p) {n : NodeId} (hu : p.update n true = some p') : BI p' := by
  unfold BI at h
  unfold VecProgress.update at hu
  cases hidx : p.index n with
  | none => rw [hidx] at hu; cases hu
  | some i =>
    obtain ⟨x, hx⟩ := index_some hidx
    rw [hidx] at hu
    simp only [hx] at hu
    have hi := (List.getElem?_eq_some_iff.1 hx).1
    by_cases hg : p.granted = true
    · rw [if_pos hg] at h
      obtain ⟨S, h1, h2, h3⟩ := h
      have hp' : p'.granted = true ∧ p'.configs = p.configs ∧ p'.vector = p.vector.set i (n, true) := by
        split at hu
        · cases hu; exact ⟨hg, rfl, rfl⟩
        · split at hu
          · cases hu; exact ⟨hg, rfl, rfl⟩
          · rw [if_neg (by rw [hg]; simp)] at hu
            cases hu; exact ⟨hg, rfl, rfl⟩
      unfold BI
      rw [if_pos hp'.1, hp'.2.1, hp'.2.2]
      refine ⟨S, h1, h2, fun m hm => ?_⟩
      obtain ⟨j, hj, hjm⟩ := List.getElem_of_mem (h3 m hm)
      by_cases hij : i = j
      · subst hij
        have : m = n := by
          have h4 := List.getElem?_eq_getElem hj
          rw [hx] at h4
          rw [hjm] at h4
          exact (Prod.ext_iff.1 (Option.some.inj h4)).1.symm
        rw [this]
        exact List.mem_of_getElem? (List.getElem?_set_self hi)
      · refine List.mem_of_getElem? (i := j) ?_
        rw [List.getElem?_set_ne hij, List.getElem?_eq_getElem hj, hjm]
    · have hgf : p.granted = false := by simpa using hg
      rw [if_neg hg] at h
      obtain ⟨A, B, hv, hc, hA, hB, hn⟩ := h
      have hvc : ¬ i ≥ p.voterCount := by rw [← hc, ← hv]; omega
      split at hu
      · next hxt =>
        -- granted before
        cases hu
        have hset : p.vector.set i (n, true) = p.vector := by
          obtain ⟨_, hx2⟩ := List.getElem?_eq_some_iff.1 hx
          rw [← hxt, ← hx2, List.set_getElem_self]
        unfold BI
        rw [if_neg hg]
        exact ⟨A, B, by rw [← hv]; exact hset, hc, hA, hB, hn⟩
      · next hxt =>
        have hxf : x = false := by simpa using hxt
        subst hxf
        rw [if_pos (by rw [hgf]; exact ⟨Bool.false_le _, by decide⟩)] at hu
        -- position of the node
        have hiA : A.length ≤ i := by
          by_contra hlt
          rw [hv, List.getElem?_append_left (by omega)] at hx
          have := hA _ (List.mem_of_getElem? hx)
          cases this
        obtain ⟨B1, B2, hB12, hlen⟩ : ∃ B1 B2, B = B1 ++ (n, false) :: B2 ∧ i = (A ++ B1).length := by
          rw [hv, List.getElem?_append_right hiA] at hx
          have hlt := (List.getElem?_eq_some_iff.1 hx).1
          refine ⟨B.take (i - A.length), B.drop (i - A.length + 1), ?_, by simp; omega⟩
          have := List.getElem_of_getElem? hx
          obtain ⟨_, h2⟩ := List.getElem?_eq_some_iff.1 hx
          rw [← h2, List.cons_getElem_drop_succ, List.take_append_drop]
        have hs : p.vector.set i (n, true) = (A ++ B1) ++ (n, true) :: B2 := by
          rw [hv, hB12, ← List.append_assoc, hlen]
          simp
        rw [hs] at hu
        obtain ⟨p1, p2, hp12, hmv, hp2, hp1⟩ := moveUp_append (A ++ B1) (n, true) B2
        rw [hlen, hmv] at hu
        have hpA : p1 = A ∧ p2 = B1 := by
          have hA' : ∀ e ∈ A, e.2 = true := hA
          have hB1 : ∀ e ∈ B1, e.2 = false := fun e he => hB e (by rw [hB12]; simp [he])
          have hlenA : p1.length = A.length := by
            by_contra hne
            rcases Nat.lt_or_gt_of_ne hne with hlt | hgt
            · -- an element of A is in p2
              have h1 : (A ++ B1)[p1.length]? = some (A[p1.length]) := by
                rw [List.getElem?_append_left hlt]; exact List.getElem?_eq_getElem hlt
              rw [hp12, List.getElem?_append_right (le_refl _)] at h1
              have h2 := hp2 _ (List.mem_of_getElem? h1)
              rw [hA' _ (List.getElem_mem hlt)] at h2
              exact absurd h2 (by show ¬ true < true; decide)
            · have hpos : p1 ≠ [] := by intro h0; rw [h0] at hgt; simp at hgt
              have hl := List.getLast?_eq_some_getLast hpos
              have h1 := hp1 _ hl
              have h2 : p1.getLast hpos ∈ B1 := by
                have h3 : p1[p1.length - 1]? = some (p1.getLast hpos) := by
                  rw [← List.getLast?_eq_getElem?]; exact hl
                have h4 : (A ++ B1)[p1.length - 1]? = some (p1.getLast hpos) := by
                  rw [hp12, List.getElem?_append_left (by omega)]; exact h3
                rw [List.getElem?_append_right (by omega)] at h4
                exact List.mem_of_getElem? h4
              rw [hB1 _ h2] at h1
              exact h1 (by show false < true; decide)
          exact (List.append_inj hp12 hlenA.symm).imp Eq.symm Eq.symm
        obtain ⟨rfl, rfl⟩ := hpA
        simp only at hu
        have hu := (Option.some.inj hu).symm
        have hvec : p'.vector = (p1 ++ [(n, true)]) ++ (p2 ++ B2) := by rw [hu]; simp
        have hA2 : ∀ e ∈ p1 ++ [(n, true)], e.2 = true := by
          intro e he
          rcases List.mem_append.1 he with he | he
          · exact hA e he
          · simp at he; rw [he]
        have hB2 : ∀ e ∈ p2 ++ B2, e.2 = false := by
          intro e he
          refine hB e ?_
          rw [hB12]
          rcases List.mem_append.1 he with he | he <;> simp [he]
        have hlen2 : ((p1 ++ [(n, true)]) ++ (p2 ++ B2)).length = p.voterCount := by
          rw [← hc, hB12]; simp; omega
        have hnd : (ids ((p1 ++ [(n, true)]) ++ (p2 ++ B2))).Nodup := by
          refine (List.Perm.nodup_iff ?_).2 hn
          rw [hB12]
          simp only [ids, List.map_append, List.map_cons, List.map_nil, List.append_assoc]
          refine List.Perm.append_left _ ?_
          simp only [List.singleton_append]
          exact (List.perm_middle).symm
        have hsc := scan_spec p.configs false (p1 ++ [(n, true)]) (p2 ++ B2) [] (fun e he => by rw [hA2 e he]; decide)
          (fun e he => by rw [hB2 e he]) p1.length (by simp)
        rw [List.append_nil, hlen2] at hsc
        have hgr : p'.granted = scan p.configs false p.voterCount ((p1 ++ [(n, true)]) ++ (p2 ++ B2)) p1.length := by
          rw [hu, hgf]; simp
        have hcf : p'.configs = p.configs := by rw [hu]
        have hvcn : p'.voterCount = p.voterCount := by rw [hu]
        unfold BI
        rcases hsc with ⟨j, hj, hij, h1, h2, _⟩ | ⟨h1, _⟩
        · have hj' : j = p1.length := by simp at hj; omega
          subst hj'
          rw [hgr, h1, if_pos (hA2 _ (List.getElem_mem hj)), hcf, hvec]
          rw [List.take_of_length_le (by simp)] at h2
          refine ⟨ids (p1 ++ [(n, true)]), ?_, h2, ?_⟩
          · rw [ids_append] at hnd; exact (List.nodup_append.1 hnd).1
          · intro m hm
            obtain ⟨e, he, rfl⟩ := List.mem_map.1 hm
            have := hA2 e he
            refine List.mem_append_left _ ?_
            have h5 : (e.1, true) = e := by rw [← this]
            rw [h5]; exact he
        · rw [hgr, h1, if_neg (by simp)]
          exact ⟨p1 ++ [(n, true)], p2 ++ B2, hvec, by rw [hlen2, hvcn], hA2, hB2, hnd⟩

end Openraft.VecProgress
