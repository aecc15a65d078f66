import Verif.Engine.Stream

/-!
# No log id is from a leader above the stored vote
-/

set_option autoImplicit false

namespace Openraft.Engine

/-- the vote of the greatest IO id is of the leader of the stored vote, and all log ids are from leaders up
to that one -/
structure Bnd (g : Gh) (a : IOId) : Prop where
  vote : a.vote.leaderId = g.vote.leaderId
  ids : ∀ x ∈ g.ids, x.leaderId ≤ g.vote.leaderId
  purged : ∀ x, g.store.purged = some x → x.leaderId ≤ g.vote.leaderId
  com : ∀ x, g.com = some x → x.leaderId ≤ g.vote.leaderId

theorem Bnd.run {g : Gh} {a : IOId} {c : Cmd} (b : Bnd g a) (h : g.Ok c) (k : COk g a c) : Bnd (g.run c) (lvl a c) := by
  cases c with
  | append v es =>
    obtain ⟨x, hx, _, hv⟩ := k
    have hl : v.leaderId = g.vote.leaderId := by
      rw [← b.vote]
      rcases hv with hv | ⟨hv, hw⟩
      · rw [hv]; rfl
      · rw [hv]; have h9 : v.toCommitted.leaderId = ⟨0, 0⟩ := by rw [hw]
        exact h9
    have hlv : lvl a (.append v es) = IOId.newLog v (some x.id) := by simp [lvl, hx]
    refine ⟨by rw [hlv]; exact hl, ?_, b.purged, b.com⟩
    intro y hy
    simp only [Gh.ids, Gh.run, LogStore.append, List.map_append] at hy
    rcases List.mem_append.1 hy with hy | hy
    · exact b.ids y hy
    · obtain ⟨z, hz, rfl⟩ := List.mem_map.1 hy
      have := h.2.2.2.1 z hz
      rw [hl] at this; exact this
  | truncate s =>
    refine ⟨b.vote, ?_, b.purged, b.com⟩
    intro y hy
    obtain ⟨z, hz, rfl⟩ := List.mem_map.1 hy
    exact b.ids _ (List.mem_map_of_mem (List.mem_filter.1 hz).1)
  | purge u =>
    refine ⟨b.vote, ?_, ?_, b.com⟩
    · intro y hy
      obtain ⟨z, hz, rfl⟩ := List.mem_map.1 hy
      exact b.ids _ (List.mem_map_of_mem (List.mem_filter.1 hz).1)
    · intro y hy
      cases hy
      rcases h.2.2 with h1 | h1
      · exact b.ids _ h1
      · exact b.com _ h1.2
  | apply p u =>
    refine ⟨b.vote, b.ids, b.purged, ?_⟩
    intro y hy
    cases hy
    exact b.ids _ h.2.1
  | saveVote v =>
    have hm := Vote.leaderId_le_of_le (le_of_lt (show g.vote < v from h))
    exact ⟨rfl, fun x hx => le_trans (b.ids x hx) hm, fun x hx => le_trans (b.purged x hx) hm,
      fun x hx => le_trans (b.com x hx) hm⟩
  | updateIO w io =>
    refine ⟨?_, b.ids, b.purged, b.com⟩
    show (max a io).vote.leaderId = _
    rcases le_total io a with h1 | h1
    · rw [max_eq_left h1]
      exact b.vote
    · rw [max_eq_right h1, k.1]; exact b.vote
  | sm c =>
    cases c with
    | install m io =>
      refine ⟨?_, b.ids, b.purged, ?_⟩
      · show (max a io).vote.leaderId = _
        have k : io = ⟨a.vote, m.lastLogId⟩ := k
        rcases le_total io a with h1 | h1
        · rw [max_eq_left h1]; exact b.vote
        · rw [max_eq_right h1, k]; exact b.vote
      · obtain ⟨⟨x, h1, _, _, _, h2⟩, _⟩ := h
        intro y hy
        rw [show (g.run (.sm (.install m io))).com = m.lastLogId from rfl, h1] at hy
        cases hy; exact h2
    | _ => exact b
  | _ => exact b

theorem Bnd.runs {g : Gh} {a : IOId} {cs : List Cmd} (b : Bnd g a) (h : g.Oks cs) (k : COks g a cs) :
    Bnd (g.runs cs) (lvls a cs) := by
  induction cs generalizing g a with
  | nil => exact b
  | cons c cs ih => exact ih (b.run h.1 k.1) h.2 k.2

/-- a log from which nothing was purged starts at index 0 -/
def Gh.First (g : Gh) : Prop := g.store.purged = none → ∀ x, g.ids.head? = some x → x.index = 0

theorem Gh.First.run {g : Gh} {c : Cmd} (w : g.First) (h : g.Ok c) : (g.run c).First := by
  cases c with
  | append v es =>
    intro hp x hx
    have hp : g.store.purged = none := hp
    obtain ⟨_, _, h3, _⟩ := h
    have hids : (g.run (.append v es)).ids = g.ids ++ es.map (·.id) := by simp [Gh.run, Gh.ids, LogStore.append]
    rw [hids] at hx
    cases hi : g.ids with
    | cons a r =>
      rw [hi] at hx
      exact w hp x (by rw [hi]; exact hx)
    | nil =>
      rw [hi, List.nil_append, List.head?_map, Option.map_eq_some_iff] at hx
      obtain ⟨e, he, rfl⟩ := hx
      have := h3 e he
      have he0 : g.store.entries = [] := by simpa [Gh.ids] using hi
      rw [LogStore.lastLogId, he0] at this
      simp only [List.getLast?_nil, hp] at this
      exact this
  | truncate s =>
    intro hp x hx
    have hp : g.store.purged = none := hp
    rw [Gh.ids_truncate] at hx
    cases hi : g.ids with
    | nil => rw [hi] at hx; cases hx
    | cons a r =>
      have h0 := w hp a (by rw [hi]; rfl)
      rw [hi] at hx
      by_cases hlt : a.index < s.index
      · rw [List.filter_cons_of_pos (by simpa using hlt)] at hx
        cases hx; exact h0
      · have hs : s.index = 0 := by omega
        rw [List.filter_eq_nil_iff.2 (by intro y _; simp [hs])] at hx
        cases hx
  | purge u => intro hp; cases hp
  | sm c => cases c <;> exact w
  | _ => exact w

theorem Gh.First.runs {g : Gh} {cs : List Cmd} (w : g.First) (h : g.Oks cs) : (g.runs cs).First := by
  induction cs generalizing g with
  | nil => exact w
  | cons c cs ih => exact ih (w.run h.1) h.2

end Openraft.Engine
