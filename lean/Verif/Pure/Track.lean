import Verif.Props.ProgressProps
import Mathlib.Data.List.Perm.Basic

/-!
# Where the values of a `VecProgress` come from

`Track S d p`: every value of `p` is the default `d` or has been reported (`S`), and with one config of at most three voters
the granted value is reached by a majority. It holds for a new `VecProgress`, is kept by `update`, `increaseTo` and
`upgrade`.
-/

set_option autoImplicit false

namespace Openraft.VecProgress
open Openraft.Props

variable {α : Type} [LinearOrder α]

omit [LinearOrder α] in
theorem swap_perm (pre post : List (NodeId × α)) (a b : NodeId × α) :
    (((pre ++ a :: b :: post).set pre.length b).set (pre.length + 1) a).Perm (pre ++ a :: b :: post) := by
  have h1 : ((pre ++ a :: b :: post).set pre.length b).set (pre.length + 1) a = pre ++ b :: a :: post := by
    rw [List.set_append_right _ _ (le_refl _), Nat.sub_self, List.set_cons_zero, List.set_append_right _ _ (by omega)]
    have : pre.length + 1 - pre.length = 1 := by omega
    rw [this]; rfl
  rw [h1]
  exact List.Perm.append_left pre (List.Perm.swap a b post)

theorem moveUp_perm (i : Nat) (v : List (NodeId × α)) : (moveUp v i).1.Perm v := by
  induction i generalizing v with
  | zero => exact List.Perm.refl _
  | succ i ih =>
    unfold moveUp
    split
    · next a b ha hb =>
      split
      · refine (ih _).trans ?_
        obtain ⟨hi, hae⟩ := List.getElem?_eq_some_iff.1 ha
        obtain ⟨hi2, hbe⟩ := List.getElem?_eq_some_iff.1 hb
        have hv : v = v.take i ++ a :: b :: v.drop (i + 2) := by
          conv_lhs => rw [← List.take_append_drop i v]
          rw [List.drop_eq_getElem_cons hi, hae, List.drop_eq_getElem_cons hi2, hbe]
        have hl : (v.take i).length = i := by rw [List.length_take]; omega
        have := swap_perm (v.take i) (v.drop (i + 2)) a b
        rw [hl, ← hv] at this
        exact this
      · exact List.Perm.refl _
    · exact List.Perm.refl _

/-- what an update does to the vector -/
theorem update_vector {p p' : VecProgress α} {id : NodeId} {v : α} (h : p.update id v = some p') :
    p'.configs = p.configs ∧ ∃ i x, p.vector[i]? = some (id, x) ∧ p'.vector.Perm (p.vector.set i (id, v)) := by
  unfold update at h
  cases hi : p.index id with
  | none => rw [hi] at h; cases h
  | some i =>
    obtain ⟨x, hx⟩ := index_some hi
    rw [hi] at h
    simp only [hx] at h
    refine (fun (k : p'.configs = p.configs ∧ p'.vector.Perm (p.vector.set i (id, v))) => ⟨k.1, i, x, hx, k.2⟩) ?_
    split at h
    · cases h; exact ⟨rfl, List.Perm.refl _⟩
    · split at h
      · cases h; exact ⟨rfl, List.Perm.refl _⟩
      · split at h
        · cases h; exact ⟨rfl, moveUp_perm _ _⟩
        · cases h; exact ⟨rfl, List.Perm.refl _⟩

theorem update_mem {p p' : VecProgress α} {id : NodeId} {v : α} (h : p.update id v = some p') :
    ∀ e ∈ p'.vector, e = (id, v) ∨ e ∈ p.vector := by
  obtain ⟨_, i, x, hx, hp⟩ := update_vector h
  intro e he
  rcases List.mem_or_eq_of_mem_set (hp.subset he) with h1 | h1
  · exact Or.inr h1
  · exact Or.inl h1

/-- after an update the node has the new value and the others the old one -/
theorem update_mem' {p p' : VecProgress α} (hn : (ids p.vector).Nodup) {id : NodeId} {v : α} (h : p.update id v = some p') :
    ∀ e ∈ p'.vector, e = (id, v) ∨ (e ∈ p.vector ∧ e.1 ≠ id) := by
  obtain ⟨_, i, x, hx, hp⟩ := update_vector h
  intro e he
  have he := hp.subset he
  obtain ⟨k, hk, rfl⟩ := List.getElem_of_mem he
  rw [List.length_set] at hk
  rw [List.getElem_set]
  split
  · exact Or.inl rfl
  · rename_i hne
    refine Or.inr ⟨List.getElem_mem _, ?_⟩
    intro h
    obtain ⟨hil, hie⟩ := List.getElem?_eq_some_iff.1 hx
    have h1 : (ids p.vector)[k]'(by simpa [ids] using hk) = (ids p.vector)[i]'(by simpa [ids] using hil) := by
      simp [ids, hie, h]
    exact hne ((List.Nodup.getElem_inj_iff hn).1 h1).symm

theorem update_ids {p p' : VecProgress α} {id : NodeId} {v : α} (h : p.update id v = some p') :
    (ids p'.vector).Perm (ids p.vector) := by
  obtain ⟨_, i, x, hx, hp⟩ := update_vector h
  rw [← ids_set hx v]
  exact hp.map _

theorem updates_mem {us : List (NodeId × α)} {p : VecProgress α} : ∀ e ∈ (p.updates us).vector, e ∈ us ∨ e ∈ p.vector := by
  induction us generalizing p with
  | nil => intro e he; exact Or.inr he
  | cons u us ih =>
    obtain ⟨id, v⟩ := u
    intro e he
    rcases ih e he with h | h
    · exact Or.inl (List.mem_cons_of_mem _ h)
    · cases hu : p.update id v with
      | none => rw [hu] at h; exact Or.inr h
      | some p' =>
        rw [hu] at h
        rcases update_mem hu e h with rfl | h
        · exact Or.inl (by simp)
        · exact Or.inr h

/-- after the updates a node that was updated has the value of an update -/
theorem updates_mem' {us : List (NodeId × α)} {p : VecProgress α} (hn : (ids p.vector).Nodup) :
    ∀ e ∈ (p.updates us).vector, e ∈ us ∨ (e ∈ p.vector ∧ ∀ u ∈ us, u.1 ≠ e.1) := by
  induction us generalizing p with
  | nil => intro e he; exact Or.inr ⟨he, by simp⟩
  | cons u us ih =>
    obtain ⟨id, v⟩ := u
    intro e he
    cases hu : p.update id v with
    | none =>
      have he' : e ∈ (p.updates us).vector := by simpa only [updates, hu, Option.getD_none] using he
      rcases ih hn e he' with h | ⟨h, h2⟩
      · exact Or.inl (List.mem_cons_of_mem _ h)
      · refine Or.inr ⟨h, ?_⟩
        intro w hw
        rcases List.mem_cons.1 hw with rfl | hw
        · exact (update_none hu e h).symm
        · exact h2 w hw
    | some p' =>
      have he' : e ∈ (p'.updates us).vector := by simpa only [updates, hu, Option.getD_some] using he
      rcases ih ((update_ids hu).nodup_iff.2 hn) e he' with h | ⟨h, h2⟩
      · exact Or.inl (List.mem_cons_of_mem _ h)
      · rcases update_mem' hn hu e h with rfl | ⟨h3, h4⟩
        · exact Or.inl (by simp)
        · refine Or.inr ⟨h3, ?_⟩
          intro w hw
          rcases List.mem_cons.1 hw with rfl | hw
          · exact h4.symm
          · exact h2 w hw

theorem updates_ids {us : List (NodeId × α)} {p : VecProgress α} : (ids (p.updates us).vector).Perm (ids p.vector) := by
  induction us generalizing p with
  | nil => exact List.Perm.refl _
  | cons u us ih =>
    obtain ⟨id, v⟩ := u
    refine ih.trans ?_
    cases hu : p.update id v with
    | none => exact List.Perm.refl _
    | some p' => exact update_ids hu

theorem updates_configs {us : List (NodeId × α)} {p : VecProgress α} : (p.updates us).configs = p.configs := by
  induction us generalizing p with
  | nil => rfl
  | cons u us ih =>
    obtain ⟨id, v⟩ := u
    refine ih.trans ?_
    cases hu : p.update id v with
    | none => rfl
    | some p' => exact (update_vector hu).1

theorem upgrade_eq (p : VecProgress α) (configs : List (List NodeId)) (learners : List NodeId) (d : α) :
    p.upgrade configs learners d = (new configs learners d).updates p.vector := foldl_updates _ _

/-- one config, at most three voters -/
def Small (x : List NodeId) : Prop := x ≠ [] ∧ x.length ≤ 3

/-- where the values come from; `S n v`: node `n` has reported `v` -/
structure Track (S : NodeId → α → Prop) (d : α) (p : VecProgress α) : Prop where
  nodup : (ids p.vector).Nodup
  from' : ∀ e ∈ p.vector, e.2 = d ∨ S e.1 e.2
  exact' : ∀ x, p.configs = [x] → Small x →
    ∃ vals, p.Ok ∧ Rep p vals ∧ Spec.ReachedByQuorum (p.configs.map List.toFinset) vals p.granted

/-- the node ids of a membership are sets, and no learner is a voter -/
structure SetsOk (configs : List (List NodeId)) (learners : List NodeId) : Prop where
  nodup : ∀ c ∈ configs, c.Nodup
  learnersNodup : learners.Nodup
  disjoint : ∀ x ∈ learners, ¬ ∃ c ∈ configs, x ∈ c

variable {S : NodeId → α → Prop} {d : α} {p p' : VecProgress α}

theorem SetsOk.valid {x learners : List NodeId} (h : SetsOk [x] learners) (hx : Small x) : ValidSets [x] learners :=
  ⟨by simp, by simpa using hx.1, h.nodup, h.learnersNodup, h.disjoint⟩

omit [LinearOrder α] in
theorem new_ids (configs : List (List NodeId)) (learners : List NodeId) (d : α) :
    ids (new configs learners d).vector = Membership.jointIds configs ++ learners := by
  have e : ∀ l : List NodeId, List.map ((fun x : NodeId × α => x.1) ∘ fun id => (id, d)) l = l := by
    intro l; induction l with
    | nil => rfl
    | cons a l ih => simp [ih]
  simp only [ids, new, List.map_append, List.map_map]
  rw [e, e]

theorem track_new {configs : List (List NodeId)} {learners : List NodeId} (h : SetsOk configs learners) :
    Track S d (new configs learners d) := by
  refine ⟨?_, ?_, ?_⟩
  · rw [new_ids, List.nodup_append]
    refine ⟨Membership.jointIds_nodup configs, h.learnersNodup, ?_⟩
    intro a ha b hb hab
    subst hab
    exact h.disjoint a hb (Membership.mem_jointIds.1 ha)
  · intro e he
    simp only [new, List.mem_append, List.mem_map] at he
    rcases he with ⟨_, _, rfl⟩ | ⟨_, _, rfl⟩ <;> exact Or.inl rfl
  · intro x hx hs
    have hx : configs = [x] := hx
    subst hx
    obtain ⟨h1, h2, h3⟩ := new_ok (h.valid hs) d
    exact ⟨_, h1, h2, h3⟩

theorem track_upgrade {configs : List (List NodeId)} {learners : List NodeId} (h : SetsOk configs learners)
    (hd : ∀ a, d ≤ a) (hp : Track S d p) : Track S d (p.upgrade configs learners d) := by
  rw [upgrade_eq]
  have hn := track_new (S := S) (d := d) h
  refine ⟨updates_ids.nodup_iff.2 hn.nodup, ?_, ?_⟩
  · intro e he
    rcases updates_mem e he with h1 | h1
    · exact hp.from' e h1
    · exact hn.from' e h1
  · intro x hx hs
    rw [updates_configs] at hx
    have hx' : configs = [x] := hx
    subst hx'
    obtain ⟨h1, h2, h3⟩ := new_ok (h.valid hs) d
    obtain ⟨hg, hno⟩ := noOvertake_distinct (us := p.vector) (d := d) h1 h2 h3 (le_refl _) (fun _ _ => rfl) hp.nodup
      (fun e _ => hd e.2)
    obtain ⟨r1, r2, r3, r4⟩ := updates_exact h1 h2 h3 hg hno
    exact ⟨_, r1, r2, by rw [r3]; exact r4⟩

/-- an update that does not lower the value of its node -/
theorem track_update (hp : Track S d p) {id : NodeId} {v : α} (hS : v = d ∨ S id v) (hg : ∀ x, (id, x) ∈ p.vector → x ≤ v)
    (h : p.update id v = some p') : Track S d p' := by
  refine ⟨(update_ids h).nodup_iff.2 hp.nodup, ?_, ?_⟩
  · intro e he
    rcases update_mem h e he with rfl | h1
    · exact hS
    · exact hp.from' e h1
  · intro x hx hs
    rw [(update_vector h).1] at hx
    obtain ⟨vals, h1, h2, h3⟩ := hp.exact' x hx hs
    obtain ⟨_, i, y, hy, _⟩ := update_vector h
    have hmem := List.mem_of_getElem? hy
    have hgrow : vals id ≤ v := by
      have := h2.vals _ hmem
      rw [← this]; exact hg y hmem
    have hno := noOvertake_small hs.2 (us := [(id, v)]) h1 h2 hx h3 ⟨hgrow, trivial⟩
    obtain ⟨r1, r2, r3, r4⟩ := update_exact h1 h2 h3 hgrow hno.1 h
    exact ⟨_, r1, r2, r4⟩

theorem track_increase (hp : Track S d p) {id : NodeId} {v : α} (hS : S id v) (h : p.increaseTo id v = some p') :
    Track S d p' := by
  unfold increaseTo at h
  cases hi : p.index id with
  | none => rw [hi] at h; cases h
  | some i =>
    obtain ⟨x, hx⟩ := index_some hi
    rw [hi] at h
    simp only [hx] at h
    split at h
    · next hlt =>
      refine track_update hp (Or.inr hS) ?_ h
      intro y hy
      obtain ⟨k, hk, hky⟩ := List.getElem_of_mem hy
      obtain ⟨hil, hie⟩ := List.getElem?_eq_some_iff.1 hx
      have h1 : (ids p.vector)[k]'(by simpa [ids] using hk) = (ids p.vector)[i]'(by simpa [ids] using hil) := by
        simp [ids, hie, hky]
      have h2 := (List.Nodup.getElem_inj_iff hp.nodup).1 h1
      subst h2
      rw [hie] at hky
      cases hky
      exact le_of_lt hlt
    · cases h; exact hp

theorem Track.mono {S' : NodeId → α → Prop} (hp : Track S d p) (h : ∀ n v, S n v → S' n v) : Track S' d p :=
  ⟨hp.nodup, fun e he => (hp.from' e he).imp id (h _ _), hp.exact'⟩

/-- with one config of at most three voters, a majority of the voters has reported the granted value or more -/
theorem Track.majority (hp : Track S d p) (hd : ∀ a, d ≤ a) {x : List NodeId} (hx : p.configs = [x]) (hs : Small x)
    (hg : p.granted ≠ d) {T : Finset Nat} (hT : ∀ n ∈ x, (∃ v, p.granted ≤ v ∧ S n v) → n ∈ T) : Spec.Majority x.toFinset T := by
  obtain ⟨vals, h1, h2, h3⟩ := hp.exact' x hx hs
  have h4 := h3 x.toFinset (by rw [hx]; simp)
  unfold Spec.Majority
  refine lt_of_lt_of_le h4 ?_
  have : (x.toFinset.filter fun i => p.granted ≤ vals i) ⊆ x.toFinset ∩ T := by
    intro n hn
    rw [Finset.mem_filter, List.mem_toFinset] at hn
    rw [Finset.mem_inter, List.mem_toFinset]
    refine ⟨hn.1, hT n hn.1 ?_⟩
    have hv := (h2.voters n).2 ⟨x, by rw [hx]; simp, hn.1⟩
    obtain ⟨e, he, rfl⟩ := List.mem_map.1 hv
    have hem := List.mem_of_mem_take he
    have hval := h2.vals e hem
    refine ⟨e.2, by rw [hval]; exact hn.2, ?_⟩
    rcases hp.from' e hem with h | h
    · exact absurd (le_antisymm (by rw [← h, hval]; exact hn.2) (hd _)) hg
    · exact h
  have := Finset.card_le_card this
  omega

end Openraft.VecProgress
