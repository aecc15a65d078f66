import Verif.Runtime.TasksInv
import Verif.Props.SendProps

/-!
# What is in flight stays in the log

The entries of a range that a leader has in flight are in its log from the `Replicate` command on until the answer is
reported: a leader neither truncates its log nor installs a snapshot, and it does not purge what is in flight.
-/

set_option autoImplicit false

namespace Openraft.Engine
open Openraft.Repl (Inflight)
open Openraft.Engine.Eng (ReplResult Report.handle)

namespace Gh

/-- only a log id of the log is purged -/
theorem Whole.purge_in {g : Gh} {u : LogId} (w : g.Whole) (k : g.Ok (.purge u)) : u ∈ g.ids := by
  obtain ⟨h1, _, h3 | ⟨h3, h4⟩⟩ := k
  · exact h3
  · rcases w.anch u h4 with h5 | h5
    · exact h5
    · rw [h5] at h1; simp only [nextIndex_some] at h1; omega

theorem purged_run {g : Gh} {c : Cmd} (k : g.Ok c) : nextIndex g.store.purged ≤ nextIndex (g.run c).store.purged := by
  cases c with
  | purge u =>
    show _ ≤ u.index + 1
    have := k.1; omega
  | sm c => cases c <;> exact le_refl _
  | _ => exact le_refl _

theorem purged_runs {g : Gh} {cs : List Cmd} (k : g.Oks cs) : nextIndex g.store.purged ≤ nextIndex (g.runs cs).store.purged := by
  induction cs generalizing g with
  | nil => exact le_refl _
  | cons c cs ih => exact (purged_run k.1).trans (ih k.2)

/-- purges that are not above a position of the log leave it the last purged one at most -/
theorem Whole.purge_bound {g : Gh} {cs : List Cmd} {p : Option LogId} (w : g.Whole) (k : g.Oks cs) (hp : ∀ c ∈ cs, c.plain = true) (hh : Held g p)
    (hb : nextIndex g.store.purged ≤ nextIndex p) (hu : ∀ u, .purge u ∈ cs → some u ≤ p) : nextIndex (g.runs cs).store.purged ≤ nextIndex p := by
  induction cs generalizing g with
  | nil => exact hb
  | cons c cs ih =>
    obtain ⟨w1, h1⟩ := w.run k.1 (hp c (by simp))
    refine ih w1 k.2 (fun x hx => hp x (by simp [hx])) (h1 p hh) ?_ (fun u h => hu u (by simp [h]))
    cases c with
    | purge u =>
      have hin := w.purge_in k.1
      have hle := hu u (by simp)
      show u.index + 1 ≤ _
      cases p with
      | none => exact absurd hle (by intro hx; cases hx)
      | some y =>
        simp only [nextIndex_some]
        have hle : u ≤ y := hle
        rcases hh y rfl with h5 | ⟨h5, h6⟩
        · have := (((cons_append.1 w.cons).2.1).le_iff hin h5).1 hle
          omega
        · exfalso
          have h1 := k.1.1
          cases hq : g.store.purged with
          | none => rw [hq] at h6; simp at h6
          | some z =>
            rw [hq] at h5 h1
            simp only [nextIndex_some] at h1
            have hyz : y ≤ z := h5
            have hc := w.cons
            rw [hq] at hc
            have hlt : z < u := (hc.lt_iff (x := z) (y := u) (by simp) (by simp [hin])).2 (by omega)
            exact absurd (lt_of_lt_of_le hlt (hle.trans hyz)) (lt_irrefl _)
    | sm c => cases c <;> exact hb
    | _ => exact hb

end Gh

/-- The range in flight for a member of the leader's progress: the `Replicate` command with its end is among the commands, its
entries were in the log then, nothing since has truncated the log or replaced it, and none of what is left of it is purged. -/
def Avail (g0 : Gh) (e : Eng) : Prop :=
  ∀ l, e.leader = some l → ∀ t ∈ Eng.progIds l, t ≠ e.cfg.id → ∀ p q, (l.progress.ent t).inflight = .logs p q →
    nextIndex (g0.runs e.out).store.purged ≤ nextIndex p ∧ Held (g0.runs e.out) p ∧
    ∃ (A B : List Cmd) (p0 : Option LogId) (x : LogId), e.out = A ++ .replicate t (.logs p0 q) :: B ∧ (∀ c ∈ B, c.plain = true) ∧ (g0.runs A).Whole ∧
      nextIndex p0 ≤ nextIndex p ∧ q = some x ∧ x ∈ (g0.runs A).ids ∧ ∀ i, nextIndex p0 ≤ i → i ≤ x.index → ∃ y ∈ (g0.runs A).ids, y.index = i

theorem held_of_mem {g : Gh} {y : LogId} (h : y ∈ g.store.purged.toList ++ g.ids) : y ∈ g.ids ∨ some y ≤ g.store.purged ∧ y.index < nextIndex g.store.purged := by
  rcases List.mem_append.1 h with h | h
  · right
    rw [Option.mem_toList] at h
    have h : g.store.purged = some y := h
    rw [h]; exact ⟨le_refl _, by simp⟩
  · exact Or.inl h

/-- a request that was just started -/
theorem avail_new {g0 : Gh} {e e' : Eng} {l : Leader} {t : NodeId} {p q : Option LogId} {cs : List Cmd} (hI : EInv g0 e') (hn : Ln e') (hs : Sent false e e')
    (ho : e'.out = e.out ++ cs) (hl : e'.leader = some l) (hr : .logs p q ∈ reqs t cs) :
    nextIndex (g0.runs e'.out).store.purged ≤ nextIndex p ∧ Held (g0.runs e'.out) p ∧
    ∃ (A B : List Cmd) (p0 : Option LogId) (x : LogId), e'.out = A ++ .replicate t (.logs p0 q) :: B ∧ (∀ c ∈ B, c.plain = true) ∧ (g0.runs A).Whole ∧
      nextIndex p0 ≤ nextIndex p ∧ q = some x ∧ x ∈ (g0.runs A).ids ∧ ∀ i, nextIndex p0 ≤ i → i ≤ x.index → ∃ y ∈ (g0.runs A).ids, y.index = i := by
  obtain ⟨ds, hd, h2, as, bs, h3, h4, h5⟩ := hs
  have : cs = ds := List.append_cancel_left (ho.symm.trans hd)
  subst this
  have hm := mem_reqs hr
  obtain ⟨l', hl', _, _, h6, h7⟩ := h2 t _ hm
  rw [hl] at hl'; cases hl'
  have hj := hI.lm.log
  have hE : EntOk (nextIndex e'.st.lastLogId) (l.progress.ent t) := by
    rw [← (hI.pj.lead l hl).last]; exact (hn.lead l hl).ent t
  obtain ⟨x, hx, a1, a2, a3, a4, _, a6, _⟩ := Props.askable_of_req hj h7 (fun _ => hE)
  have hL : ∀ y, y ∈ LogIdList.expand e'.st.logIds → y ∈ (g0.runs e'.out).store.purged.toList ++ (g0.runs e'.out).ids := by
    intro y hy
    rw [hj.stp]
    have : e'.st.lv.L = _ := hj.cpl
    rw [← this]; exact hy
  have hpb : nextIndex (g0.runs e'.out).store.purged ≤ nextIndex p := by
    rw [hj.stp, ← hj.pn]
    exact hj.ord1.trans a6
  have hin : ∀ y ∈ LogIdList.expand e'.st.logIds, nextIndex p ≤ y.index → y ∈ (g0.runs e'.out).ids := by
    intro y hy hi
    rcases held_of_mem (hL y hy) with h | h
    · exact h
    · have := h.2; omega
  refine ⟨hpb, fun y hy => held_of_mem (hL y (a3 y hy)), ?_⟩
  have hmb : Cmd.replicate t (.logs p q) ∈ bs := by
    rw [h3] at hm
    rcases List.mem_append.1 hm with h | h
    · exact absurd (h4 _ h) (fun hh => hh)
    · exact h
  obtain ⟨b1, b2, hb⟩ := List.append_of_mem hmb
  have hrun : g0.runs (e.out ++ as ++ b1) = g0.runs e'.out := by
    rw [ho, h3, hb, ← List.append_assoc, Gh.runs_append g0 (e.out ++ as), Gh.runs_append g0 (e.out ++ as)]
    have hin1 : ∀ c ∈ b1, c.inert = true := by
      intro c hc
      obtain ⟨t', q', rfl⟩ := h5 c (by rw [hb]; simp [hc]); rfl
    have hin2 : ∀ c ∈ b1 ++ Cmd.replicate t (.logs p q) :: b2, c.inert = true := by
      intro c hc
      obtain ⟨t', q', rfl⟩ := h5 c (by rw [hb]; exact hc); rfl
    rw [(Gh.runs_inert hin1).1, (Gh.runs_inert hin2).1]
  refine ⟨e.out ++ as ++ b1, b2, p, x, by rw [ho, h3, hb]; simp, ?_, by rw [hrun]; exact hj.whole, le_refl _, hx, ?_, ?_⟩
  · intro c hc
    obtain ⟨t', q', rfl⟩ := h5 c (by rw [hb]; simp [hc]); rfl
  · rw [hrun]; exact hin x a2 a4
  · intro i hi1 hi2
    rw [hrun]
    obtain ⟨y, hy, hyi⟩ := a1 i (by omega) hi2
    exact ⟨y, hin y hy (by omega), hyi⟩

/-- the range goes on, perhaps from a later position -/
theorem avail_more {g0 : Gh} {e e' : Eng} {t : NodeId} {p p' q : Option LogId} {cs : List Cmd} (hI : EInv g0 e) (hk : g0.Oks e'.out) (ho : e'.out = e.out ++ cs)
    (hpl : ∀ c ∈ cs, c.plain = true) (hp : nextIndex p ≤ nextIndex p') (hh : Held (g0.runs e.out) p') (hu : ∀ u, .purge u ∈ cs → some u ≤ p')
    (h : nextIndex (g0.runs e.out).store.purged ≤ nextIndex p ∧ Held (g0.runs e.out) p ∧
    ∃ (A B : List Cmd) (p0 : Option LogId) (x : LogId), e.out = A ++ .replicate t (.logs p0 q) :: B ∧ (∀ c ∈ B, c.plain = true) ∧ (g0.runs A).Whole ∧
      nextIndex p0 ≤ nextIndex p ∧ q = some x ∧ x ∈ (g0.runs A).ids ∧ ∀ i, nextIndex p0 ≤ i → i ≤ x.index → ∃ y ∈ (g0.runs A).ids, y.index = i) :
    nextIndex (g0.runs e'.out).store.purged ≤ nextIndex p' ∧ Held (g0.runs e'.out) p' ∧
    ∃ (A B : List Cmd) (p0 : Option LogId) (x : LogId), e'.out = A ++ .replicate t (.logs p0 q) :: B ∧ (∀ c ∈ B, c.plain = true) ∧ (g0.runs A).Whole ∧
      nextIndex p0 ≤ nextIndex p' ∧ q = some x ∧ x ∈ (g0.runs A).ids ∧ ∀ i, nextIndex p0 ≤ i → i ≤ x.index → ∃ y ∈ (g0.runs A).ids, y.index = i := by
  obtain ⟨h1, _, A, B, p0, x, h3, h4, h5, h6, h7⟩ := h
  rw [ho, Gh.oks_append] at hk
  have hw := hI.lm.log.whole
  rw [ho, Gh.runs_append]
  refine ⟨hw.purge_bound hk.2 hpl hh (h1.trans hp) hu, (hw.runs hk.2 hpl).2 p' hh, A, B ++ cs, p0, x, by rw [h3]; simp, ?_, h5, h6.trans hp, h7⟩
  intro c hc
  exact (List.mem_append.1 hc).elim (h4 c) (hpl c)

/-- an input other than a report of the session in force -/
theorem Avail.pv {g0 : Gh} {e e' : Eng} {cs : List Cmd} (h : Avail g0 e) (hI : e.leader ≠ none → EInv g0 e ∧ Ln e) (hI' : EInv g0 e') (hn : Ln e') (hk : g0.Oks e'.out) (hs : Sent false e e')
    (hc : e'.cfg = e.cfg) (hp : PV e e') (ho : e'.out = e.out ++ cs) (hpl : e.leader ≠ none → ∀ l, e'.leader = some l → ∀ c ∈ cs, c.plain = true)
    (hu : e.leader ≠ none → ∀ l, e'.leader = some l → ∀ u, .purge u ∈ cs → Props.NothingInFlight l u) : Avail g0 e' := by
  intro l hl t ht htn p q hf
  have hcut : ∀ ds, e'.out = e.out ++ ds → ds = cs := fun ds hd => List.append_cancel_left (hd.symm.trans ho)
  have new : ∀ (a : Repl.Entry) (rs : List Inflight), Starts a (l.progress.ent t) rs → (∀ r ∈ rs, r ∈ reqs t cs) → l.progress.ent t = a ∨ .logs p q ∈ reqs t cs := by
    intro a rs hs hr
    rcases hs with ⟨_, h1⟩ | ⟨_, r, _, rfl, h1⟩
    · exact Or.inl h1
    · right
      rw [h1] at hf
      have hf : r = .logs p q := hf
      subst hf
      exact hr _ (by simp)
  obtain ⟨ds, hds, ⟨l0, k1, k2, k3, k4, k5, k6⟩ | ⟨as, ts, bs, f, m1, m2, m3, m4⟩⟩ := hp.lead l hl
  · cases hcut ds hds
    rcases new _ _ (k6 t htn) (fun _ h => h) with h1 | h1
    · have hle : e.leader ≠ none := by rw [k1]; simp
      obtain ⟨i1, i2⟩ := hI hle
      have ht0 : t ∈ Eng.progIds l0 :=
        ((i2.lead l0 k1).prog t).2 (by rw [← k3]; exact ((hn.lead l hl).prog t).1 ht)
      have hnf := hu hle l hl
      have hav := h l0 k1 t ht0 (by rw [← hc]; exact htn) p q (by rw [← h1]; exact hf)
      exact avail_more i1 hk ho (hpl hle l hl) (le_refl _) hav.2.1 (fun u hx => hnf u hx t ht p q hf) hav
    · exact avail_new hI' hn hs ho hl h1
  · cases hcut ds hds
    have hsub : ∀ r ∈ reqs t bs, r ∈ reqs t cs := by
      intro r hr
      rw [m1, reqs_append]
      exact List.mem_append_right _ hr
    rcases new _ _ (m4 t htn).2 hsub with h1 | h1
    · rw [h1, (m4 t htn).1] at hf; cases hf
    · exact avail_new hI' hn hs ho hl h1

/-- a report of the session in force -/
theorem Avail.reported {g0 : Gh} {e e' : Eng} {l l' : Leader} {t : NodeId} {r : ReplResult} {cs : List Cmd} {N : Nat} (h : Avail g0 e) (hI : EInv g0 e) (hn : Ln e) (hn' : Ln e') (hk : g0.Oks e'.out)
    (hr : Eng.Reported false t r e e' l l') (ho : e'.out = e.out ++ cs) (hpl : ∀ c ∈ cs, c.plain = true) (hu : ∀ u, .purge u ∈ cs → Props.NothingInFlight l' u)
    (hg : Guard N (l.progress.ent t) r) (hm : ∀ m p q, r = .matching m → (l.progress.ent t).inflight = .logs p q → Held (g0.runs e.out) m) : Avail g0 e' := by
  obtain ⟨h1, h2, h3, h4, h5, h6, _, h7, h8⟩ := hr
  intro l2 hl2 i hi hin p q hf
  rw [h2] at hl2; cases hl2
  have hi0 : i ∈ Eng.progIds l := ((hn.lead l h1).prog i).2 (by rw [← h5]; exact ((hn'.lead l' h2).prog i).1 hi)
  rw [h6] at hin
  by_cases hit : i = t
  · subst hit
    rcases handle_cases h8 with ⟨m, rfl, c1, _, ⟨p0, q0, c3, c4⟩ | ⟨_, c4⟩⟩ | ⟨_, _, c4⟩
    · have hmk : p = m ∧ q = q0 := by
        rw [c4] at hf
        unfold Inflight.mkLogs at hf
        split at hf <;> cases hf
        exact ⟨rfl, rfl⟩
      obtain ⟨rfl, rfl⟩ := hmk
      exact avail_more hI hk ho hpl (hg.2.2 p0 q c3).1 (hm p p0 q rfl c3) (fun u hx => hu u hx i hi p q hf) (h l h1 i hi0 hin p0 q c3)
    · rw [c4] at hf; cases hf
    · rw [c4] at hf; cases hf
  · have hf0 := hf
    rw [h7 i hit] at hf
    have hav := h l h1 i hi0 hin p q hf
    exact avail_more hI hk ho hpl (le_refl _) hav.2.1 (fun u hx => hu u hx i hi p q hf0) hav

/-! ## Rows of reports -/

/-- what is in flight after some reports: what was in flight, or what the last report left of it -/
theorem Line.logs {N : Nat} {E F : Repl.Entry} {rs : List ReplResult} (h : Line N E rs F) {p q : Option LogId} (hf : F.inflight = .logs p q) :
    ∃ p0, E.inflight = .logs p0 q ∧ nextIndex p0 ≤ nextIndex p ∧ (p = p0 ∨ .matching p ∈ rs) := by
  induction h with
  | nil E => exact ⟨p, hf, le_refl _, Or.inl rfl⟩
  | @cons E E1 F r rs h1 h2 _ ih =>
    obtain ⟨p1, i1, i2, i3⟩ := ih hf
    rcases handle_cases h2 with ⟨m, rfl, c1, _, ⟨p0, q0, c3, c4⟩ | ⟨_, c4⟩⟩ | ⟨_, _, c4⟩
    · rw [c4] at i1
      unfold Inflight.mkLogs at i1
      split at i1 <;> cases i1
      refine ⟨p0, c3, (h1.2.2 p0 q c3).1.trans i2, Or.inr ?_⟩
      rcases i3 with rfl | i3 <;> simp [*]
    · rw [c4] at i1; cases i1
    · rw [c4] at i1; cases i1

/-- a snapshot that is in flight after some reports was so before, and there are no reports -/
theorem Line.snap {N : Nat} {E F : Repl.Entry} {rs : List ReplResult} (h : Line N E rs F) {x : Option LogId} (hf : F.inflight = .snapshot x) :
    rs = [] ∧ F = E := by
  induction h with
  | nil E => exact ⟨rfl, rfl⟩
  | @cons E E1 F r rs h1 h2 _ ih =>
    obtain ⟨i1, rfl⟩ := ih hf
    rcases handle_cases h2 with ⟨m, rfl, c1, _, ⟨p0, q0, c3, c4⟩ | ⟨_, c4⟩⟩ | ⟨_, _, c4⟩
    · rw [c4] at hf
      unfold Inflight.mkLogs at hf
      split at hf <;> cases hf
    · rw [c4] at hf; cases hf
    · rw [c4] at hf; cases hf

end Openraft.Engine
