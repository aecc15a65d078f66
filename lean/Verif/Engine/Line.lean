import Verif.Engine.Pipe
import Verif.Engine.Rebuild
import Verif.Props.EngineProps

/-!
# Reports that fit what is in flight

`Line`: a row of reports that the leader can take one after the other. `Inf`: the ranges in flight are between what is known
to match and the last log. `Upto`, `Before`: sessions that are not later than the one in force, or earlier.
-/

set_option autoImplicit false

namespace Openraft.Engine
open Openraft.Repl (Inflight)
open Openraft.Engine.Eng (ReplResult Report.handle)

/-- a report that the leader can take; `N`: the index after its last log -/
def Guard (N : Nat) (E : Repl.Entry) : ReplResult → Prop
  | .matching m => E.inflight ≠ .none ∧ nextIndex m ≤ N ∧ ∀ p q, E.inflight = .logs p q → nextIndex p ≤ nextIndex m ∧ nextIndex m ≤ nextIndex q
  | .conflict c => (∃ p q, E.inflight = .logs p q) ∧ nextIndex E.matching ≤ c.index ∧ c.index < E.searchingEnd
  | .failed => E.inflight ≠ .none

/-- reports that the leader can take one after the other, and what it knows of the member then -/
inductive Line (N : Nat) : Repl.Entry → List ReplResult → Repl.Entry → Prop
  | nil (E : Repl.Entry) : Line N E [] E
  | cons {E E1 F : Repl.Entry} {r : ReplResult} {rs : List ReplResult} : Guard N E r → Report.handle false E r = .ok E1 → Line N E1 rs F →
      Line N E (r :: rs) F

theorem Guard.mono {N M : Nat} {E : Repl.Entry} {r : ReplResult} (h : Guard N E r) (hm : N ≤ M) : Guard M E r := by
  cases r with
  | matching m => exact ⟨h.1, h.2.1.trans hm, h.2.2⟩
  | conflict c => exact h
  | failed => exact h

theorem Line.mono {N M : Nat} {E F : Repl.Entry} {rs : List ReplResult} (h : Line N E rs F) (hm : N ≤ M) : Line M E rs F := by
  induction h with
  | nil E => exact .nil E
  | cons h1 h2 _ ih => exact .cons (h1.mono hm) h2 ih

theorem Line.snoc {N : Nat} {E F F' : Repl.Entry} {rs : List ReplResult} {r : ReplResult} (h : Line N E rs F) (hg : Guard N F r)
    (hf : Report.handle false F r = .ok F') : Line N E (rs ++ [r]) F' := by
  induction h with
  | nil E => exact .cons hg hf (.nil _)
  | cons h1 h2 _ ih => exact .cons h1 h2 (ih hg hf)

theorem Guard.some {N : Nat} {E : Repl.Entry} {r : ReplResult} (h : Guard N E r) : E.inflight ≠ .none := by
  cases r with
  | matching m => exact h.1
  | conflict c => obtain ⟨⟨p, q, h1⟩, _⟩ := h; rw [h1]; simp
  | failed => exact h

theorem Line.none {N : Nat} {E F : Repl.Entry} {rs : List ReplResult} (h : Line N E rs F) (he : E.inflight = .none) : rs = [] ∧ F = E := by
  cases h with
  | nil _ => exact ⟨rfl, rfl⟩
  | cons h1 _ _ => exact absurd he h1.some

/-- a range in flight begins after what is known to match and within what is searched, and ends in the log -/
def FOk (N : Nat) (E : Repl.Entry) : Prop :=
  ∀ p q, E.inflight = .logs p q → nextIndex E.matching ≤ nextIndex p ∧ nextIndex p ≤ E.searchingEnd ∧ nextIndex q ≤ N ∧ nextIndex p ≤ nextIndex q

theorem FOk.mono {N M : Nat} {E : Repl.Entry} (h : FOk N E) (hm : N ≤ M) : FOk M E :=
  fun p q hp => ⟨(h p q hp).1, (h p q hp).2.1, (h p q hp).2.2.1.trans hm, (h p q hp).2.2.2⟩

/-- what is known of a member after a report, in a release build -/
theorem handle_cases {E E' : Repl.Entry} {r : ReplResult} (h : Report.handle false E r = .ok E') :
    (∃ m, r = .matching m ∧ E'.matching = m ∧ E'.searchingEnd = max E.searchingEnd (nextIndex m) ∧
      ((∃ p q, E.inflight = .logs p q ∧ E'.inflight = Inflight.mkLogs m q) ∨ (∃ x, E.inflight = .snapshot x) ∧ E'.inflight = .none)) ∨
    ((∀ m, r ≠ .matching m) ∧ E'.matching = E.matching ∧ E'.inflight = .none) := by
  cases r with
  | matching m =>
    refine Or.inl ⟨m, rfl, ?_⟩
    simp only [Report.handle, Repl.Entry.updateMatching, bind_ok, pure_ok] at h
    obtain ⟨i, hi, _, _, rfl⟩ := h
    refine ⟨rfl, rfl, ?_⟩
    unfold Inflight.ack at hi
    cases hf : E.inflight with
    | none => rw [hf] at hi; cases hi
    | logs p q =>
      rw [hf] at hi
      simp only [bind_ok, pure_ok] at hi
      obtain ⟨_, _, _, _, rfl⟩ := hi
      exact Or.inl ⟨p, q, rfl, rfl⟩
    | snapshot x =>
      rw [hf] at hi
      simp only [bind_ok, pure_ok] at hi
      obtain ⟨_, _, rfl⟩ := hi
      exact Or.inr ⟨⟨x, rfl⟩, rfl⟩
  | conflict c =>
    refine Or.inr ⟨(fun m hm => by cases hm), ?_⟩
    simp only [Report.handle, Repl.Entry.updateConflicting, bind_ok, pure_ok] at h
    obtain ⟨i, hi, _, _, _, _, rfl⟩ := h
    refine ⟨rfl, ?_⟩
    unfold Inflight.conflict at hi
    cases hf : E.inflight with
    | none => rw [hf] at hi; cases hi
    | logs p q =>
      rw [hf] at hi
      simp only [bind_ok, pure_ok] at hi
      obtain ⟨_, _, rfl⟩ := hi
      rfl
    | snapshot x => rw [hf] at hi; cases hi
  | failed =>
    refine Or.inr ⟨(fun m hm => by cases hm), ?_⟩
    simp only [Report.handle, pure_ok] at h
    subst h
    exact ⟨rfl, rfl⟩

theorem FOk.handle {N M : Nat} {E E' : Repl.Entry} {r : ReplResult} (h : FOk N E) (hg : Guard M E r) (hr : Report.handle false E r = .ok E') : FOk N E' := by
  intro p q hp
  rcases handle_cases hr with ⟨m, rfl, h1, h2, ⟨p0, q0, h3, h4⟩ | ⟨_, h4⟩⟩ | ⟨_, _, h4⟩
  · rw [h4] at hp
    unfold Inflight.mkLogs at hp
    split at hp
    · cases hp
      exact ⟨by rw [h1], by rw [h2]; exact le_max_right _ _, (h p0 _ h3).2.2.1, (hg.2.2 p0 _ h3).2⟩
    · cases hp
  · rw [h4] at hp; cases hp
  · rw [h4] at hp; cases hp

theorem Line.fok {N : Nat} {E F : Repl.Entry} {rs : List ReplResult} (h : Line N E rs F) (he : FOk N E) : FOk N F := by
  induction h with
  | nil _ => exact he
  | cons h1 h2 _ ih => exact ih (he.handle h1 h2)

/-- a report that fits is taken -/
theorem Guard.ok {N : Nat} {E : Repl.Entry} {r : ReplResult} (h : Guard N E r) : ∃ E', Report.handle false E r = .ok E' := by
  cases r with
  | matching m =>
    have h1 := h.1
    simp only [Report.handle, Repl.Entry.updateMatching, Inflight.ack]
    cases hf : E.inflight with
    | none => exact absurd hf h1
    | logs p q => exact ⟨_, rfl⟩
    | snapshot x => exact ⟨_, rfl⟩
  | conflict c =>
    obtain ⟨⟨p, q, h1⟩, _⟩ := h
    simp only [Report.handle, Repl.Entry.updateConflicting, Inflight.conflict, h1]
    exact ⟨_, rfl⟩
  | failed => exact ⟨_, rfl⟩

/-- the ranges in flight of a leader -/
def Inf (e : Eng) : Prop := ∀ l, e.leader = some l → ∀ t, t ≠ e.cfg.id → FOk (nextIndex l.lastLogId) (l.progress.ent t)

theorem fok_of_req {s : RState} {g : Gh} {max : Nat} {en : Repl.Entry} (h : LogJ s.lv g)
    (hq : Req false s.view max en en.inflight) (hE : EntOk (nextIndex s.lastLogId) en) : FOk (nextIndex s.lastLogId) en := by
  intro p q hp
  rw [hp] at hq
  obtain ⟨i, h1, h2, h3, h4, _, h6, rfl, rfl⟩ := hq
  have hln : s.view.lastNext = nextIndex s.lastLogId := by
    unfold Repl.LogView.lastNext RState.view; simp
  have hup : nextIndex s.view.purgeUpto = nextIndex s.purgeUpto := rfl
  have hi := h4 hE.1
  have hl := hE.2
  have hpn : s.purgedNext ≤ nextIndex s.purgeUpto := h.ord1
  rw [hup] at h1 h2
  rw [hln] at h6 ⊢
  have key : ∀ j, nextIndex s.purgeUpto ≤ j → j ≤ nextIndex s.lastLogId → nextIndex (s.view.prevLogId j) = j := by
    intro j hj1 hj2
    unfold Repl.LogView.prevLogId
    split
    · next h0 => rw [h0]; rfl
    · next h0 =>
      obtain ⟨y, hy, hyi⟩ := h.exists_index (i := j - 1) (show s.purgedNext ≤ _ by omega) (show j - 1 < nextIndex s.lastLogId by omega)
      rw [getLogId_view h hy hyi (by omega)]
      show y.index + 1 = j
      omega
  rw [key i h2 (by omega), key _ (by omega) (by omega)]
  exact ⟨h3, hi, by omega, by omega⟩

theorem mem_reqs {t : NodeId} {q : Inflight} {cs : List Cmd} (h : q ∈ reqs t cs) : Cmd.replicate t q ∈ cs := by
  unfold reqs at h
  obtain ⟨c, h1, h2⟩ := List.mem_filterMap.1 h
  cases c <;> simp only [Cmd.req] at h2 <;> try cases h2
  split at h2
  · next h3 => cases h2; subst h3; exact h1
  · cases h2

theorem inf_starts {g : Gh} {e e' : Eng} {cs : List Cmd} {l : Leader} {a : Repl.Entry} {rs : List Inflight} {t : NodeId} (hI : EInv g e') (hl : e'.leader = some l)
    (hn : Ln e') (hs : Sent false e e') (ho : e'.out = e.out ++ cs) (h : Starts a (l.progress.ent t) rs) (hr : ∀ q ∈ rs, q ∈ reqs t cs) (ha : FOk (nextIndex l.lastLogId) a) :
    FOk (nextIndex l.lastLogId) (l.progress.ent t) := by
  rcases h with ⟨_, h⟩ | ⟨_, q, _, rfl, h⟩
  · rw [h]; exact ha
  · obtain ⟨ds, hd, h2, _⟩ := hs
    have : cs = ds := List.append_cancel_left (ho.symm.trans hd)
    subst this
    obtain ⟨l', hl', _, _, h5, h6⟩ := h2 t q (mem_reqs (hr q (by simp)))
    rw [hl] at hl'; cases hl'
    have hlast := (hI.pj.lead l hl).last
    have hE := (hn.lead l hl).ent t
    rw [hlast] at hE ⊢
    rw [← h5] at h6
    exact fok_of_req hI.lm.log h6 hE

theorem fok_none {N : Nat} {E : Repl.Entry} (h : E.inflight = .none) : FOk N E := fun p q hp => by rw [h] at hp; cases hp

theorem inf_pv {g : Gh} {e e' : Eng} (hI : EInv g e') (hn : Ln e') (hs : Sent false e e') (hc : e'.cfg = e.cfg) (hp : PV e e') (h : Inf e) : Inf e' := by
  intro l hl t ht
  obtain ⟨cs, ho, ⟨l0, h1, _, _, h3, _, h4⟩ | ⟨as, ts, bs, f, h1, _, _, h4⟩⟩ := hp.lead l hl
  · exact inf_starts hI hl hn hs ho (h4 t ht) (fun q hq => hq) ((h l0 h1 t (by rw [← hc]; exact ht)).mono h3)
  · refine inf_starts hI hl hn hs ho (h4 t ht).2 (fun q hq => ?_) (fok_none (h4 t ht).1)
    rw [h1, reqs_append]
    exact List.mem_append_right _ hq

theorem inf_reported {e e' : Eng} {l l' : Leader} {t : NodeId} {r : ReplResult} {N : Nat} (hr : Eng.Reported false t r e e' l l') (hg : Guard N (l.progress.ent t) r) (h : Inf e) : Inf e' := by
  obtain ⟨h1, h2, _, h4, _, h5, _, h6, h7⟩ := hr
  intro k hk i hi
  rw [h2] at hk; cases hk
  rw [h5] at hi
  rw [h4]
  by_cases hit : i = t
  · subst hit; exact (h l h1 i hi).handle hg h7
  · rw [h6 i hit]; exact h l h1 i hi

/-! ## Sessions -/

/-- a session of this vote or an earlier one, and not later than the one in force -/
def Upto (e : Eng) (s : Session) : Prop :=
  s.vote.committed = true ∧ s.vote ≤ e.st.vote.data ∧
    (s.vote = e.st.vote.data → ∀ l, e.leader = some l → nextIndex s.mem ≤ nextIndex e.st.ms.effective.logId)

/-- a session before the one in force -/
def Before (e : Eng) (s : Session) : Prop :=
  s.vote.committed = true ∧ s.vote ≤ e.st.vote.data ∧
    (s.vote = e.st.vote.data → ∀ l, e.leader = some l → nextIndex s.mem < nextIndex e.st.ms.effective.logId)

theorem Before.upto {e : Eng} {s : Session} (h : Before e s) : Upto e s := ⟨h.1, h.2.1, fun a l b => le_of_lt (h.2.2 a l b)⟩

theorem sessionMatch_iff {e : Eng} {s : Session} (hc : s.vote.committed = true) :
    e.sessionMatch s = true ↔ ∃ l, e.leader = some l ∧ l.vote = s.vote ∧ s.mem = e.st.ms.effective.logId := by
  unfold Eng.sessionMatch Eng.voteMatch
  rw [if_pos hc]
  cases e.leader with
  | none => simp
  | some l => simp

theorem Before.noMatch {g : Gh} {e : Eng} {s : Session} (hI : EInv g e) (h : Before e s) : e.sessionMatch s = false := by
  cases hm : e.sessionMatch s with
  | false => rfl
  | true =>
    obtain ⟨l, h1, h2, h3⟩ := (sessionMatch_iff h.1).1 hm
    have := h.2.2 (by rw [← h2]; exact (hI.pj.lead l h1).vote) l h1
    rw [h3] at this
    exact absurd this (lt_irrefl _)

/-- the leader is the one of before, with the same membership -/
def OldSt (e e' : Eng) : Prop := ∃ l, e.leader = some l ∧ e'.st.ms.effective = e.st.ms.effective
/-- the node was elected, or has a later membership -/
def NewSt (e e' : Eng) : Prop :=
  (∃ c, e.candidate = some c) ∨ ∃ l i, e.leader = some l ∧ e'.st.ms.effective.logId = some i ∧ i.index = nextIndex l.lastLogId

theorem Upto.old {e e' : Eng} {s : Session} (h : Upto e s) (hv : e.st.vote.data ≤ e'.st.vote.data) (ho : (∃ l, e'.leader = some l) → OldSt e e') : Upto e' s := by
  refine ⟨h.1, h.2.1.trans hv, fun hs l hl => ?_⟩
  obtain ⟨l0, h1, h2⟩ := ho ⟨l, hl⟩
  rw [h2]
  exact h.2.2 (le_antisymm h.2.1 (by rw [hs]; exact hv)) l0 h1

theorem Before.old {e e' : Eng} {s : Session} (h : Before e s) (hv : e.st.vote.data ≤ e'.st.vote.data) (ho : (∃ l, e'.leader = some l) → OldSt e e') : Before e' s := by
  refine ⟨h.1, h.2.1.trans hv, fun hs l hl => ?_⟩
  obtain ⟨l0, h1, h2⟩ := ho ⟨l, hl⟩
  rw [h2]
  exact h.2.2 (le_antisymm h.2.1 (by rw [hs]; exact hv)) l0 h1

theorem Upto.new {g : Gh} {e e' : Eng} {s : Session} (hI : EInv g e) (h : Upto e s) (hv : e.st.vote.data ≤ e'.st.vote.data) (hn : NewSt e e') : Before e' s := by
  refine ⟨h.1, h.2.1.trans hv, fun hs l hl => ?_⟩
  have hse : s.vote = e.st.vote.data := le_antisymm h.2.1 (by rw [hs]; exact hv)
  rcases hn with ⟨c, hc⟩ | ⟨l0, i, h1, h2, h3⟩
  · have := (hI.pj.cand c hc).com
    rw [← hse, h.1] at this; cases this
  · have h4 := h.2.2 hse l0 h1
    have h5 : nextIndex e.st.ms.effective.logId ≤ nextIndex e.st.lastLogId := hI.lm.mem.eff_le_last hI.lm.log
    rw [h2]
    show _ < i.index + 1
    rw [h3, (hI.pj.lead l0 h1).last]
    omega

/-- a rebuild of two splittings of the same commands -/
theorem rb_unique {as bs pre post : List Cmd} {ts us : List (NodeId × Repl.Entry)} (h : as ++ Cmd.rebuild ts :: bs = pre ++ Cmd.rebuild us :: post)
    (hp : ∀ c ∈ pre, c.noRb) (hq : ∀ c ∈ post, c.noRb) : ∀ c ∈ as, c.noRb := by
  rcases List.append_eq_append_iff.1 h with ⟨x, h1, h2⟩ | ⟨x, h1, h2⟩
  · intro c hc; exact hp c (by rw [h1]; exact List.mem_append_left _ hc)
  · cases x with
    | nil => intro c hc; rw [h1] at hc; exact hp c (by simpa using hc)
    | cons y x =>
      simp only [List.cons_append, List.cons.injEq] at h2
      exact absurd (hq (Cmd.rebuild ts) (by rw [h2.2]; simp)) (fun hh => hh)

end Openraft.Engine
