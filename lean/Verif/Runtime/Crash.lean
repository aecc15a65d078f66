import Verif.Runtime.RestartInv

/-!
# What a crash leaves on disk
-/

set_option autoImplicit false

namespace Openraft.Engine

/-- a position is in the log or not above the purged position -/
def Gh.Has (g : Gh) (c : Option LogId) : Prop := ∀ x, c = some x → x ∈ g.ids ∨ Le2 c g.store.purged

theorem Gh.Row.le2 {g : Gh} (w : g.Row) {x y : LogId} (hx : x ∈ g.store.purged.toList ++ g.ids) (hy : y ∈ g.store.purged.toList ++ g.ids)
    (hi : x.index ≤ y.index) : Le2 (some x) (some y) := Runtime.cons_le2 w hx hy hi

/-- a position that the state machine was told to go to stays in the log until it is purged -/
theorem Gh.Has.run {g : Gh} {c : Cmd} {o : Option LogId} (h : g.Has o) (w : g.Row) (hc : Le2 o g.com) (k : g.Ok c) :
    (g.run c).Has o ∧ Le2 o (g.run c).com := by
  cases c with
  | append v es =>
    refine ⟨fun x hx => ?_, hc⟩
    rcases h x hx with h1 | h1
    · left
      simp only [Gh.ids, Gh.run, LogStore.append, List.map_append]
      exact List.mem_append_left _ h1
    · exact Or.inr h1
  | truncate s =>
    refine ⟨fun x hx => ?_, hc⟩
    rcases h x hx with h1 | h1
    · left
      rw [Gh.ids_truncate]
      refine List.mem_filter.2 ⟨h1, ?_⟩
      have h2 := hc.next
      rw [hx] at h2
      have h3 := k.2
      simp only [nextIndex_some] at h2
      simp; omega
    · exact Or.inr h1
  | purge u =>
    refine ⟨fun x hx => ?_, hc⟩
    obtain ⟨k1, k2, k3⟩ := k
    have hu : x ∈ g.ids → x.index ≤ u.index → Le2 o (some u) := by
      intro h1 h2
      rcases k3 with k3 | k3
      · rw [hx]
        exact w.le2 (List.mem_append_right _ h1) (List.mem_append_right _ k3) h2
      · rw [← k3.2]; exact hc
    show _ ∨ Le2 o (some u)
    rcases h x hx with h1 | h1
    · rcases Nat.lt_or_ge u.index x.index with h2 | h2
      · left
        obtain ⟨e, he, rfl⟩ := List.mem_map.1 h1
        exact List.mem_map.2 ⟨e, List.mem_filter.2 ⟨he, by simpa using h2⟩, rfl⟩
      · exact Or.inr (hu h1 h2)
    · right
      rcases k3 with k3 | k3
      · refine h1.trans ?_
        cases hp : g.store.purged with
        | none => exact Runtime.le2_none _
        | some p =>
          refine w.le2 (by rw [hp]; simp) (List.mem_append_right _ k3) ?_
          rw [hp] at k1
          simp only [nextIndex_some] at k1; omega
      · rw [← k3.2]; exact hc
  | apply p u =>
    refine ⟨h, hc.trans (Or.inr ?_)⟩
    obtain ⟨_, _, k3, k4, _⟩ := k
    refine ⟨k4, ?_⟩
    show _ < nextIndex (some u)
    simp only [nextIndex_some]; omega
  | sm c =>
    cases c with
    | install m io =>
      refine ⟨h, hc.trans (Or.inr ?_)⟩
      obtain ⟨⟨x, hx, k3, k4, _⟩, _⟩ := k
      show g.com < m.lastLogId ∧ _ < nextIndex m.lastLogId
      rw [hx]
      refine ⟨k4, ?_⟩
      simp only [nextIndex_some]; omega
    | _ => exact ⟨h, hc⟩
  | _ => exact ⟨h, hc⟩

theorem Gh.Has.runs {g : Gh} {cs : List Cmd} {o : Option LogId} (h : g.Has o) (w : g.Row) (hc : Le2 o g.com) (k : g.Oks cs) :
    (g.runs cs).Has o ∧ Le2 o (g.runs cs).com := by
  induction cs generalizing g with
  | nil => exact ⟨h, hc⟩
  | cons c cs ih =>
    obtain ⟨h1, h2⟩ := h.run w hc k.1
    exact ih h1 (w.run k.1) h2 k.2

theorem Paired.tail {c : Cmd} {cs : List Cmd} (h : Paired (c :: cs)) : Paired cs := by
  intro i x hx
  obtain ⟨p, hp⟩ := h (i + 1) x (by simpa using hx)
  exact ⟨p, by simpa using hp⟩

end Openraft.Engine

namespace Openraft.Runtime
open Openraft.Engine Openraft.LogIdList

/-- the saved committed position is in the log or purged, whatever prefix of the commands was executed -/
theorem saved_has {g : Gh} {c : Option LogId} {cs Q R : List Cmd} (w : g.Row) (h : g.Has c)
    (hk : Le2 c g.com ∨ ∃ p y r, cs = .apply p y :: r ∧ c = some y) (ho : g.Oks cs) (hp : Paired cs) (hs : cs = Q ++ R) :
    (g.runs Q).Has (saved c Q) := by
  induction cs generalizing g c Q with
  | nil =>
    have : Q = [] := by
      cases Q with
      | nil => rfl
      | cons a b => cases hs
    subst this; exact h
  | cons a cs ih =>
    cases Q with
    | nil => exact h
    | cons b Q =>
      obtain ⟨rfl, hs'⟩ : a = b ∧ cs = Q ++ R := by simpa using hs
      show ((g.run a).runs Q).Has (saved (saved c [a]) Q)
      have hw := w.run ho.1
      cases hk with
      | inr hk =>
        obtain ⟨p, y, r, h1, h2⟩ := hk
        obtain ⟨rfl, rfl⟩ : a = _ ∧ cs = r := by simpa using h1
        exact ih hw h (Or.inl (by rw [h2]; exact Le2.refl _)) ho.2 hp.tail hs'
      | inl hk =>
        by_cases hsv : ∃ y, a = .saveCommitted y
        · obtain ⟨y, rfl⟩ := hsv
          obtain ⟨p, hp1⟩ := hp 0 y (by simp)
          refine ih hw ?_ (Or.inr ⟨p, y, cs.tail, ?_, rfl⟩) ho.2 hp.tail hs'
          · intro x hx
            cases hx
            exact Or.inl ho.1.1
          · cases cs with
            | nil => simp at hp1
            | cons d cs => simp at hp1; rw [hp1]; rfl
        · have hsame : saved c [a] = c := by
            cases a with
            | saveCommitted y => exact absurd ⟨y, rfl⟩ hsv
            | _ => rfl
          rw [hsame]
          obtain ⟨h1, h2⟩ := h.run w hk ho.1
          exact ih hw h1 (Or.inl h2) ho.2 hp.tail hs'

namespace RInv
variable {g0 : Gh} {a0 : IOId} {s0 c0 : Option LogId} {P S : List Cmd} {n n' : Node} {dbg : Bool}

/-- what is durable at a crash is what some prefix of the executed commands wrote -/
theorem crash_all (h : RInv g0 a0 s0 c0 P S n) (k : Nat) : ∃ S1 S2, S = S1 ++ S2 ∧ (n.pend.take k) = S1.filterMap opOf ∧
    n.crashDisk k = ⟨(g0.runs (P ++ S1)).vote, saved c0 (P ++ S1), (g0.runs (P ++ S1)).store⟩ := by
  obtain ⟨S1, S2, h1, h2⟩ := take_ops S k
  refine ⟨S1, S2, h1, by rw [h.d.pend, h2], ?_⟩
  have hst : (n.crashDisk k).store = (g0.runs (P ++ S1)).store := by
    unfold Node.crashDisk
    rw [h.d.pend, h2, Gh.runs_append]
    exact store_runs _ _ _ h.d.store
  have hv : (n.crashDisk k).vote = (g0.runs (P ++ S1)).vote := by
    unfold Node.crashDisk
    rw [write_vote, h.d.vote, Gh.runs_append, vote_runs_same S1]
    intro v hv
    exact h.d.novote v (by rw [h1]; exact List.mem_append_left _ hv)
  have hc : (n.crashDisk k).committed = saved c0 (P ++ S1) := by
    unfold Node.crashDisk
    rw [h.d.pend, h2, saved_writes, h.d.committed, ← saved_append]
  rw [← hst, ← hv, ← hc]

/-- **What is on disk after a crash at any point**: a log without holes, no id from a leader above the
stored vote, and a saved committed position that is in the log or purged. -/
theorem crash_ok (h : RInv g0 a0 s0 c0 P S n) (k : Nat) : DiskOk (n.crashDisk k) := by
  obtain ⟨S1, S2, h1, _, h2⟩ := h.crash_all k
  have ho := h.oks
  have hk := h.coks
  have hout : n.eng.out = (P ++ S1) ++ (S2 ++ n.eng.out.drop n.done) := by
    rw [← List.append_assoc, List.append_assoc P S1 S2, ← h1, ← h.split, List.take_append_drop]
  rw [h1, ← List.append_assoc, Gh.oks_append] at ho
  rw [h1, ← List.append_assoc, COks_append] at hk
  have hrow := h.z.row.runs ho.1
  have hb := h.z.bnd.runs ho.1 hk.1
  have hsv := saved_has (Q := P ++ S1) h.z.row h.z.savIn (Or.inl h.z.sav) (h.flow.inv.lm.oks) h.flow.pair hout
  rw [h2]
  refine ⟨⟨hrow, ?_⟩, ?_, ?_⟩
  · intro e he
    show e.id.index = nextIndex (g0.runs (P ++ S1)).store.purged
    have he2 : (g0.runs (P ++ S1)).ids.head? = some e.id := by
      have he : (g0.runs (P ++ S1)).store.entries.head? = some e := he
      simp [Gh.ids, List.head?_map, he]
    cases hp : (g0.runs (P ++ S1)).store.purged with
    | none => exact h.z.first.runs ho.1 hp _ he2
    | some p =>
      have hrow' := hrow
      unfold Gh.Row at hrow'
      rw [hp] at hrow'
      cases hi : (g0.runs (P ++ S1)).ids with
      | nil => rw [hi] at he2; cases he2
      | cons a r =>
        rw [hi] at hrow' he2
        cases he2
        exact hrow'.1
  · intro x hx
    rcases List.mem_append.1 hx with h3 | h3
    · refine hb.purged x ?_
      show (g0.runs (P ++ S1)).store.purged = some x
      have h3 : x ∈ (g0.runs (P ++ S1)).store.purged.toList := h3
      simpa using h3
    · exact hb.ids x h3
  · intro c hc
    have hc : saved c0 (P ++ S1) = some c := hc
    have := hsv c hc
    rw [hc] at this; exact this

end RInv

/-- a node that never ran before satisfies the invariant -/
theorem RInv.fresh (cfg : Cfg) (now : Nat) (persist : Bool) :
    RInv Gh.empty (IOId.new ⟨⟨0, 0⟩, false⟩) none none [] [] (Node.fresh cfg now persist) := by
  refine RInv.boot (Flow.fresh cfg now) rfl rfl rfl ⟨le_refl _, Nat.le_refl _⟩ ?_ rfl (le_refl _) rfl (le_refl _) rfl ?_
  · intro f hf
    have hf : some (IOId.new ⟨⟨0, 0⟩, false⟩) = some f := hf
    cases hf; exact le_refl _
  · exact ⟨trivial, fun _ x hx => (by cases hx), fun y hy => (by cases hy), fun y hy => (by cases hy),
      ⟨rfl, fun x hx => (by cases hx), fun x hx => (by cases hx), fun x hx => (by cases hx)⟩, Le2.refl _, fun x hx => (by cases hx)⟩

end Openraft.Runtime
