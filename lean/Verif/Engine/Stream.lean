import Verif.Engine.IoOrder
import Verif.Engine.IoKeep
import Verif.Engine.Emits

/-!
# Facts about a legal command stream

Positions of the state machine only go up, by index and in the order of log ids; IO ids of writes go up;
log ids that the log held stay held while nothing is truncated or installed.
-/

set_option autoImplicit false

namespace Openraft.Engine

/-- equal, or smaller both in the order of log ids and by index -/
def Le2 (a b : Option LogId) : Prop := a = b ∨ (a < b ∧ nextIndex a < nextIndex b)

theorem Le2.refl (a : Option LogId) : Le2 a a := Or.inl rfl
theorem Le2.le {a b : Option LogId} (h : Le2 a b) : a ≤ b := by
  rcases h with h | h
  · rw [h]
  · exact le_of_lt h.1
theorem Le2.next {a b : Option LogId} (h : Le2 a b) : nextIndex a ≤ nextIndex b := by
  rcases h with h | h
  · rw [h]
  · exact Nat.le_of_lt h.2
theorem Le2.trans {a b c : Option LogId} (h : Le2 a b) (k : Le2 b c) : Le2 a c := by
  rcases h with h | h
  · rw [h]; exact k
  · rcases k with k | k
    · rw [← k]; exact Or.inr h
    · exact Or.inr ⟨lt_trans h.1 k.1, Nat.lt_trans h.2 k.2⟩

namespace Gh

theorem com_run {g : Gh} {c : Cmd} (h : g.Ok c) : Le2 g.com (g.run c).com := by
  cases c with
  | apply p u =>
    refine Or.inr ⟨h.2.2.2.1, ?_⟩
    have := h.2.2.1
    show _ < u.index + 1; omega
  | sm c =>
    cases c with
    | install m io =>
      obtain ⟨⟨x, h1, h2, h3, _⟩, _⟩ := h
      refine Or.inr ?_
      show g.com < m.lastLogId ∧ nextIndex g.com < nextIndex m.lastLogId
      rw [h1]
      refine ⟨h3, ?_⟩
      show _ < x.index + 1; omega
    | _ => exact Le2.refl _
  | _ => exact Le2.refl _

theorem com_runs {g : Gh} {cs : List Cmd} (h : g.Oks cs) : Le2 g.com (g.runs cs).com := by
  induction cs generalizing g with
  | nil => exact Le2.refl _
  | cons c cs ih => exact (com_run h.1).trans (ih h.2)

theorem vote_run {g : Gh} {c : Cmd} (h : g.Ok c) : g.vote ≤ (g.run c).vote := by
  cases c with
  | saveVote v => exact le_of_lt h
  | sm c => cases c <;> exact le_refl _
  | _ => exact le_refl _

theorem vote_runs {g : Gh} {cs : List Cmd} (h : g.Oks cs) : g.vote ≤ (g.runs cs).vote := by
  induction cs generalizing g with
  | nil => exact le_refl _
  | cons c cs ih => exact le_trans (vote_run h.1) (ih h.2)

/-- a vote that was saved is not above the one saved last -/
theorem saved_le {g : Gh} {cs : List Cmd} {v : Vote} (h : g.Oks cs) (hv : Cmd.saveVote v ∈ cs) : v ≤ (g.runs cs).vote := by
  obtain ⟨a, b, rfl⟩ := List.append_of_mem hv
  rw [oks_append] at h
  have := vote_runs h.2.2
  rw [runs_append]
  exact this

/-- an id the state machine passed is in the log, below the purged position, or still the position of the
state machine -/
theorem passed_runs {g : Gh} {cs : List Cmd} {x : LogId} (h : g.Oks cs)
    (hx : x ∈ g.ids ∨ x.index < nextIndex g.store.purged ∨ g.com = some x) (hi : x.index < nextIndex g.com) :
    x ∈ (g.runs cs).ids ∨ x.index < nextIndex (g.runs cs).store.purged ∨ (g.runs cs).com = some x := by
  induction cs generalizing g with
  | nil => exact hx
  | cons c cs ih =>
    obtain ⟨h1, h2⟩ := h
    refine ih h2 ?_ (Nat.lt_of_lt_of_le hi (com_run h1).next)
    cases c with
    | append v es =>
      rcases hx with hx | hx
      · left; simp only [Gh.ids, Gh.run, LogStore.append, List.map_append]; exact List.mem_append_left _ hx
      · exact Or.inr hx
    | truncate s =>
      rcases hx with hx | hx
      · left
        obtain ⟨y, hy, rfl⟩ := List.mem_map.1 hx
        refine List.mem_map.2 ⟨y, List.mem_filter.2 ⟨hy, ?_⟩, rfl⟩
        have := h1.2
        simp; omega
      · exact Or.inr hx
    | purge u =>
      have h3 := h1.1
      rcases hx with hx | hx | hx
      · by_cases hu : u.index < x.index
        · left
          obtain ⟨y, hy, rfl⟩ := List.mem_map.1 hx
          exact List.mem_map.2 ⟨y, List.mem_filter.2 ⟨hy, by simpa using hu⟩, rfl⟩
        · right; left; show x.index < u.index + 1; omega
      · right; left; show x.index < u.index + 1; omega
      · exact Or.inr (Or.inr hx)
    | apply p u =>
      rcases hx with hx | hx | hx
      · exact Or.inl hx
      · exact Or.inr (Or.inl hx)
      · rcases h1.2.2.2.2 x hx with h4 | h4
        · exact Or.inl h4
        · right; left; show x.index < nextIndex g.store.purged; rw [h4]; simp
    | sm c =>
      cases c with
      | install m io =>
        rcases hx with hx | hx | hx
        · exact Or.inl hx
        · exact Or.inr (Or.inl hx)
        · rcases h1.2 x hx with h4 | h4
          · exact Or.inl h4
          · right; left; show x.index < nextIndex g.store.purged; rw [h4]; simp
      | _ => exact hx
    | _ => exact hx

/-- the log with its purged position is consecutive and has the position of the state machine -/
structure Whole (g : Gh) : Prop where
  cons : Cons (g.store.purged.toList ++ g.ids)
  anch : g.Anchored

theorem last_eq (g : Gh) : g.store.lastLogId = (g.store.purged.toList ++ g.ids).getLast? := by
  unfold LogStore.lastLogId
  cases he : g.store.entries.getLast? with
  | none =>
    rw [List.getLast?_eq_none_iff] at he
    simp only [Gh.ids, he, List.map_nil, List.append_nil]
    cases g.store.purged <;> rfl
  | some e =>
    have : g.ids.getLast? = some e.id := by simp [Gh.ids, he]
    rw [List.getLast?_append, this]; rfl

theorem _root_.Openraft.Engine.Cons.fromMem {l : List LogId} {u : LogId} (h : Cons l) (hu : u ∈ l) :
    Cons (u :: l.filter fun x => decide (u.index < x.index)) := by
  induction l with
  | nil => cases hu
  | cons a r ih =>
    by_cases hau : a.index < u.index
    · rw [List.filter_cons_of_neg (by simp; omega)]
      rcases List.mem_cons.1 hu with rfl | hu
      · omega
      · exact ih h.tail hu
    · have : u = a := by
        rcases List.mem_cons.1 hu with rfl | hu
        · rfl
        · have := (h.spec u hu).1; omega
      subst this
      rw [List.filter_cons_of_neg (by simp), List.filter_eq_self.2]
      · exact h
      · intro x hx; simpa using (h.spec x hx).1

/-- no command that cuts the log from above or replaces it -/
def _root_.Openraft.Engine.Cmd.plain : Cmd → Bool
  | .truncate _ => false
  | .sm (.install _ _) => false
  | _ => true

theorem Whole.run {g : Gh} {c : Cmd} (w : g.Whole) (h : g.Ok c) (hp : c.plain = true) :
    (g.run c).Whole ∧ ∀ o, Held g o → Held (g.run c) o := by
  cases c with
  | append v es =>
    obtain ⟨h1, h2, h3, h4⟩ := h
    have hids : (g.run (.append v es)).ids = g.ids ++ es.map (·.id) := by simp [Gh.ids, Gh.run, LogStore.append]
    refine ⟨⟨?_, ?_⟩, ?_⟩
    · rw [hids, ← List.append_assoc]
      show Cons ((g.store.purged.toList ++ g.ids) ++ _)
      rw [cons_append]
      refine ⟨w.cons, (cons_append.1 h2).2.1, ?_⟩
      intro a b ha hb
      rw [← last_eq] at ha
      rw [ha] at h2
      exact (cons_append.1 h2).2.2 a b rfl hb
    · intro c hc
      rcases w.anch c hc with h5 | h5
      · left; rw [hids]; exact List.mem_append_left _ h5
      · exact Or.inr h5
    · intro o ho x hx
      rcases ho x hx with h5 | h5
      · left; rw [hids]; exact List.mem_append_left _ h5
      · exact Or.inr h5
  | truncate s => cases hp
  | purge u =>
    obtain ⟨h1, h2, h3⟩ := h
    have hin : u ∈ g.ids := by
      rcases h3 with h3 | h3
      · exact h3
      · exfalso
        cases hc : g.com with
        | none => rw [hc] at h2; simp at h2
        | some c =>
          rw [hc] at h2; simp at h2
          have hcm : c ∈ g.store.purged.toList ++ g.ids := by
            rcases w.anch c hc with h5 | h5
            · exact List.mem_append_right _ h5
            · rw [h5]; simp
          rw [last_eq] at h3
          cases hl : (g.store.purged.toList ++ g.ids).getLast? with
          | none => rw [List.getLast?_eq_none_iff] at hl; rw [hl] at hcm; cases hcm
          | some l =>
            have := w.cons.le_last hl hcm
            rw [hl] at h3; simp at h3; omega
    have hci := (cons_append.1 w.cons).2.1
    have hids : (g.run (.purge u)).ids = g.ids.filter fun x => decide (u.index < x.index) := by
      simp only [Gh.run, Gh.purge, Gh.ids, LogStore.purge]
      rw [LogJ.store_filter_purge]
    refine ⟨⟨?_, ?_⟩, ?_⟩
    · rw [hids]
      exact hci.fromMem hin
    · intro c hc
      have hc' : g.com = some c := hc
      rw [hc'] at h2; simp at h2
      rcases w.anch c hc' with h5 | h5
      · by_cases hlt : u.index < c.index
        · left; rw [hids]; exact List.mem_filter.2 ⟨h5, by simpa using hlt⟩
        · right
          have : c = u := hci.inj h5 hin (by omega)
          rw [this]; rfl
      · exfalso
        rw [h5] at h1; simp at h1; omega
    · intro o ho x hx
      rcases ho x hx with h5 | h5
      · by_cases hlt : u.index < x.index
        · left; rw [hids]; exact List.mem_filter.2 ⟨h5, by simpa using hlt⟩
        · right
          show some x ≤ some u ∧ x.index < u.index + 1
          exact ⟨show x ≤ u from (hci.le_iff h5 hin).2 (by omega), by omega⟩
      · right
        show some x ≤ some u ∧ x.index < u.index + 1
        refine ⟨le_trans h5.1 ?_, by have := h5.2; omega⟩
        cases hq : g.store.purged with
        | none => exact OptOrd.none_le' _
        | some q =>
          rw [hq] at h1; simp at h1
          have hc := w.cons
          rw [hq] at hc
          exact show q ≤ u from (hc.le_iff (by simp) (by simp [hin])).2 (by omega)
  | apply p u =>
    obtain ⟨h1, h2, h3, h4, h5⟩ := h
    refine ⟨⟨w.cons, ?_⟩, fun o ho => ho⟩
    intro c hc
    have : u = c := Option.some.inj hc
    subst this
    exact Or.inl h2
  | saveVote v => exact ⟨⟨w.cons, w.anch⟩, fun o ho => ho⟩
  | sm c =>
    cases c with
    | install m io => cases hp
    | _ => exact ⟨⟨w.cons, w.anch⟩, fun o ho => ho⟩
  | _ => exact ⟨⟨w.cons, w.anch⟩, fun o ho => ho⟩

theorem Whole.runs {g : Gh} {cs : List Cmd} (w : g.Whole) (h : g.Oks cs) (hp : ∀ c ∈ cs, c.plain = true) :
    (g.runs cs).Whole ∧ ∀ o, Held g o → Held (g.runs cs) o := by
  induction cs generalizing g with
  | nil => exact ⟨w, fun _ h => h⟩
  | cons c cs ih =>
    have h1 := w.run h.1 (hp c (by simp))
    have h2 := ih h1.1 h.2 fun x hx => hp x (by simp [hx])
    exact ⟨h2.1, fun o ho => h2.2 o (h1.2 o ho)⟩

end Gh

theorem LogJ.whole {v : LogV} {g : Gh} (h : LogJ v g) : g.Whole :=
  ⟨by rw [h.stp, ← h.cpl]; exact h.cons, h.anchored⟩

/-! ## The log and a position of the state machine -/

namespace Gh

/-- the log with its purged position is consecutive -/
def Row (g : Gh) : Prop := Cons (g.store.purged.toList ++ g.ids)

/-- entries that are not greater than a position are not beyond it -/
def Below (g : Gh) (x : Option LogId) : Prop := ∀ y ∈ g.ids, some y ≤ x → y.index < nextIndex x

theorem ids_truncate (g : Gh) (s : LogId) : (g.run (.truncate s)).ids = g.ids.filter fun x => decide (x.index < s.index) := by
  simp only [Gh.run, Gh.ids, LogStore.truncate, List.filter_map]
  rfl

theorem ids_purge (g : Gh) (u : LogId) : (g.run (.purge u)).ids = g.ids.filter fun x => decide (u.index < x.index) := by
  simp only [Gh.run, Gh.purge, Gh.ids, LogStore.purge]
  rw [LogJ.store_filter_purge]

theorem ids_append (g : Gh) (v : Vote) (es : List Ent) : (g.run (.append v es)).ids = g.ids ++ es.map (·.id) := by
  simp [Gh.ids, Gh.run, LogStore.append]

theorem Row.le_last {g : Gh} (w : g.Row) {x : LogId} (hx : x ∈ g.store.purged.toList ++ g.ids) : x.index < nextIndex g.store.lastLogId := by
  rw [last_eq]
  cases hl : (g.store.purged.toList ++ g.ids).getLast? with
  | none => rw [List.getLast?_eq_none_iff] at hl; rw [hl] at hx; cases hx
  | some l => have := Cons.le_last (show Cons _ from w) hl hx; simp; omega

theorem Row.run {g : Gh} {c : Cmd} (w : g.Row) (h : g.Ok c) : (g.run c).Row := by
  cases c with
  | append v es =>
    obtain ⟨h1, h2, h3, h4⟩ := h
    unfold Row
    rw [ids_append, ← List.append_assoc]
    show Cons ((g.store.purged.toList ++ g.ids) ++ _)
    rw [cons_append]
    refine ⟨w, (cons_append.1 h2).2.1, ?_⟩
    intro a b ha hb
    rw [← last_eq] at ha
    rw [ha] at h2
    exact (cons_append.1 h2).2.2 a b rfl hb
  | truncate s =>
    unfold Row
    rw [ids_truncate]
    show Cons (g.store.purged.toList ++ _)
    have hw := w
    unfold Row at hw
    rw [cons_append] at hw
    rw [cons_append]
    refine ⟨hw.1, hw.2.1.filterLt _, ?_⟩
    intro a b ha hb
    cases hi : g.ids with
    | nil => rw [hi] at hb; cases hb
    | cons y ys =>
      have hyb : b = y := by
        rw [hi, List.filter_cons] at hb
        split at hb
        · simpa using hb.symm
        · next hny =>
          have hbm := List.mem_filter.1 (List.mem_of_head? hb)
          have hcy := hw.2.1
          rw [hi] at hcy
          have := (hcy.spec b hbm.1).1
          have h5 := hbm.2
          simp at h5 hny
          omega
      rw [hyb]
      exact hw.2.2 a y ha (by rw [hi]; rfl)
  | purge u =>
    obtain ⟨h1, h2, h3⟩ := h
    have hci := (cons_append.1 w).2.1
    unfold Row
    rw [ids_purge]
    show Cons (u :: _)
    rcases h3 with h3 | ⟨h3, _⟩
    · exact hci.fromMem h3
    · rw [List.filter_eq_nil_iff.2]
      · trivial
      · intro x hx
        have := w.le_last (List.mem_append_right _ hx)
        simp; omega
  | sm c => cases c <;> exact w
  | _ => exact w

theorem Row.runs {g : Gh} {cs : List Cmd} (w : g.Row) (h : g.Oks cs) : (g.runs cs).Row := by
  induction cs generalizing g with
  | nil => exact w
  | cons c cs ih => exact ih (w.run h.1) h.2

/-- an entry that is appended is greater than every earlier position of the state machine -/
theorem append_gt {g : Gh} {v : Vote} {es : List Ent} (w : g.Row) (h : g.Ok (.append v es)) {y : LogId} (hy : y ∈ es.map (·.id)) :
    g.com < some y := by
  obtain ⟨h1, h2, h3, h4, h5⟩ := h
  cases hc : g.com with
  | none => exact OptOrd.none_lt_some'
  | some c =>
    have hcm : c ∈ g.store.purged.toList ++ g.ids := by
      rcases h5 c hc with h6 | h6
      · exact List.mem_append_right _ h6
      · rw [h6]; simp
    have hall := Row.run (c := .append v es) w ⟨h1, h2, h3, h4, h5⟩
    unfold Row at hall
    rw [ids_append, ← List.append_assoc] at hall
    have hcl : Cons ((g.store.purged.toList ++ g.ids) ++ es.map (·.id)) := hall
    have hlt : c.index < y.index := by
      have h7 := w.le_last hcm
      cases he : es.head? with
      | none => rw [List.head?_eq_none_iff] at he; exact absurd he h1
      | some x =>
        have h8 := h3 x he
        have h9 := (cons_append.1 hcl).2.1.head_le (a := x.id) (by rw [List.head?_map, he]; rfl) hy
        omega
    exact OptOrd.some_lt_some'.2 ((hcl.lt_iff (List.mem_append_left _ hcm) (List.mem_append_right _ hy)).2 hlt)

theorem Below.run {g : Gh} {c : Cmd} {x : Option LogId} (w : g.Row) (b : g.Below x) (h : g.Ok c) (hx : Le2 x g.com) :
    (g.run c).Below x := by
  cases c with
  | append v es =>
    intro y hy hle
    rw [ids_append] at hy
    rcases List.mem_append.1 hy with hy | hy
    · exact b y hy hle
    · exact absurd (lt_of_lt_of_le (append_gt w h hy) (le_trans hle hx.le)) (lt_irrefl _)
  | truncate s =>
    intro y hy hle
    rw [ids_truncate] at hy
    exact b y (List.mem_filter.1 hy).1 hle
  | purge u =>
    intro y hy hle
    rw [ids_purge] at hy
    exact b y (List.mem_filter.1 hy).1 hle
  | sm c => cases c <;> exact b
  | _ => exact b

/-- the position the state machine is at -/
theorem Below.com {g : Gh} {c : Cmd} (w : g.Row) (b : g.Below g.com) (h : g.Ok c) : (g.run c).Below (g.run c).com := by
  cases c with
  | apply p u =>
    obtain ⟨h1, h2, _⟩ := h
    intro y hy hle
    have hci := (cons_append.1 w).2.1
    have := (hci.le_iff hy h2).1 hle
    show y.index < u.index + 1
    omega
  | sm c =>
    cases c with
    | install m io =>
      obtain ⟨⟨x, h1, h2, h3, h4⟩, _⟩ := h
      intro y hy hle
      show y.index < nextIndex m.lastLogId
      have hle : some y ≤ m.lastLogId := hle
      rw [h1] at hle ⊢
      show y.index < x.index + 1
      rcases h4 with h4 | h4
      · have hci := (cons_append.1 w).2.1
        have := (hci.le_iff hy h4).1 hle
        omega
      · have := w.le_last (List.mem_append_right _ hy)
        omega
    | _ => exact b
  | append v es => exact b.run w h (Le2.refl _)
  | truncate s => exact b.run w h (Le2.refl _)
  | purge u => exact b.run w h (Le2.refl _)
  | _ => exact b

theorem Below.runs {g : Gh} {cs : List Cmd} {x : Option LogId} (w : g.Row) (b : g.Below x) (h : g.Oks cs) (hx : Le2 x g.com) :
    (g.runs cs).Below x := by
  induction cs generalizing g with
  | nil => exact b
  | cons c cs ih => exact ih (w.run h.1) (b.run w h.1 hx) h.2 (hx.trans (com_run h.1))

theorem Below.coms {g : Gh} {cs : List Cmd} (w : g.Row) (b : g.Below g.com) (h : g.Oks cs) : (g.runs cs).Below (g.runs cs).com := by
  induction cs generalizing g with
  | nil => exact b
  | cons c cs ih => exact ih (w.run h.1) (b.com w h.1) h.2

/-- every position the state machine ever had -/
theorem Below.val {g : Gh} {a c : List Cmd} (w : g.Row) (b : g.Below g.com) (h : g.Oks (a ++ c)) :
    (g.runs (a ++ c)).Below (g.runs a).com := by
  rw [oks_append] at h
  rw [runs_append]
  exact (b.coms w h.1).runs (w.runs h.1) h.2 (Le2.refl _)

/-- where the entries of a log come from -/
theorem mem_runs {g : Gh} {cs : List Cmd} {e : Ent} (h : e ∈ (g.runs cs).store.entries) :
    e ∈ g.store.entries ∨ ∃ v es, Cmd.append v es ∈ cs ∧ e ∈ es := by
  induction cs generalizing g with
  | nil => exact Or.inl h
  | cons c cs ih =>
    rcases ih h with h1 | ⟨v, es, h1, h2⟩
    · cases c with
      | append v es =>
        rcases List.mem_append.1 h1 with h1 | h1
        · exact Or.inl h1
        · exact Or.inr ⟨v, es, by simp, h1⟩
      | truncate s => exact Or.inl (List.mem_filter.1 h1).1
      | purge u => exact Or.inl (List.mem_filter.1 h1).1
      | sm c => cases c <;> exact Or.inl h1
      | _ => exact Or.inl h1
    · exact Or.inr ⟨v, es, by simp [h1], h2⟩

end Gh

/-! ## IO ids -/

/-- the IO id of a command that writes a vote or entries -/
def Cmd.hard : Cmd → Option IOId
  | .append v es => es.getLast?.map fun x => IOId.newLog v (some x.id)
  | .saveVote v => some (IOId.new v)
  | _ => none

/-- the IO id of a command that is reported by a `LocalIO` notification and may have a log id -/
def Cmd.reports : Cmd → Option IOId
  | .append v es => es.getLast?.map fun x => IOId.newLog v (some x.id)
  | .updateIO _ io => some io
  | _ => none

theorem lvl_le {g : Gh} {a : IOId} {c : Cmd} (h : COk g a c) : a ≤ lvl a c := by
  cases c with
  | append v es =>
    obtain ⟨x, hx, hlt, _⟩ := h
    show a ≤ (match es.getLast? with | some x => IOId.newLog v (some x.id) | none => a)
    rw [hx]; exact le_of_lt hlt
  | saveVote v => exact le_of_lt (IOId.lt_def.2 (Or.inl h))
  | updateIO w io => exact le_max_left _ _
  | sm c => cases c with
    | install m io => exact le_max_left _ _
    | _ => exact le_refl _
  | _ => exact le_refl _

theorem lvls_le {g : Gh} {a : IOId} {cs : List Cmd} (h : COks g a cs) : a ≤ lvls a cs := by
  induction cs generalizing g a with
  | nil => exact le_refl _
  | cons c cs ih => exact le_trans (lvl_le h.1) (ih h.2)

theorem hard_lvl {g : Gh} {a io : IOId} {c : Cmd} (h : COk g a c) (hc : c.hard = some io) : a < io ∧ lvl a c = io := by
  cases c with
  | append v es =>
    obtain ⟨x, hx, hlt, _⟩ := h
    simp only [Cmd.hard, hx, Option.map_some, Option.some.injEq] at hc
    subst hc
    refine ⟨hlt, ?_⟩
    show (match es.getLast? with | some x => IOId.newLog v (some x.id) | none => a) = _
    rw [hx]
  | saveVote v =>
    simp only [Cmd.hard, Option.some.injEq] at hc
    subst hc
    exact ⟨IOId.lt_def.2 (Or.inl h), rfl⟩
  | _ => cases hc

theorem reports_le {g : Gh} {a io : IOId} {c : Cmd} (h : COk g a c) (hc : c.reports = some io) : io ≤ lvl a c := by
  cases c with
  | append v es => exact le_of_eq (hard_lvl h hc).2.symm
  | updateIO w j =>
    simp only [Cmd.reports, Option.some.injEq] at hc
    subst hc
    exact le_max_right _ _
  | _ => cases hc

/-- the id of a write is not above the level at the end -/
theorem hard_mem_le {g : Gh} {a io : IOId} {cs : List Cmd} {c : Cmd} (h : COks g a cs) (hm : c ∈ cs)
    (hc : c.hard = some io) : io ≤ lvls a cs := by
  obtain ⟨x, y, rfl⟩ := List.append_of_mem hm
  rw [COks_append] at h
  rw [lvls_append]
  have := lvls_le h.2.2
  rw [(hard_lvl h.2.1 hc).2] at this
  show _ ≤ lvls (lvl _ c) y
  rw [(hard_lvl h.2.1 hc).2]; exact this

theorem reports_mem_le {g : Gh} {a io : IOId} {cs : List Cmd} {c : Cmd} (h : COks g a cs) (hm : c ∈ cs)
    (hc : c.reports = some io) : io ≤ lvls a cs := by
  obtain ⟨x, y, rfl⟩ := List.append_of_mem hm
  rw [COks_append] at h
  rw [lvls_append]
  exact le_trans (reports_le h.2.1 hc) (lvls_le h.2.2)

/-- the id of a write is above the level at the start -/
theorem hard_mem_gt {g : Gh} {a io : IOId} {cs : List Cmd} {c : Cmd} (h : COks g a cs) (hm : c ∈ cs)
    (hc : c.hard = some io) : a < io := by
  obtain ⟨x, y, rfl⟩ := List.append_of_mem hm
  rw [COks_append] at h
  exact lt_of_le_of_lt (lvls_le h.1) (hard_lvl h.2.1 hc).1

theorem vote_min {v : Vote} : ¬ v < ⟨⟨0, 0⟩, false⟩ := by
  intro h
  have h1 : v.leaderId ≤ ⟨0, 0⟩ := Vote.leaderId_le_of_le (le_of_lt h)
  obtain ⟨⟨t, n⟩, c⟩ := v
  have h2 : (⟨t, n⟩ : LeaderId) = ⟨0, 0⟩ := by
    rcases LeaderId.le_def.1 h1 with h3 | ⟨h3, h4⟩
    · exact absurd h3 (Nat.not_lt_zero _)
    · have h5 : t = 0 := h3
      have h6 : n ≤ 0 := h4
      rw [h5, Nat.le_zero.1 h6]
  rw [h2] at h
  rcases Vote.lt_def.1 h with h3 | ⟨_, h4⟩
  · exact absurd h3 (lt_irrefl _)
  · revert h4; cases c <;> decide

/-- the vote of the level only changes by `saveVote`, or for the first entry of a cluster -/
theorem lvl_vote {g : Gh} {a : IOId} {c : Cmd} (h : COk g a c) (hv : a.vote ≠ ⟨⟨0, 0⟩, false⟩)
    (hc : ∀ v, c ≠ .saveVote v) : (lvl a c).vote = a.vote := by
  cases c with
  | append v es =>
    obtain ⟨x, hx, _, h1⟩ := h
    show (match es.getLast? with | some x => IOId.newLog v (some x.id) | none => a).vote = _
    rw [hx]
    rcases h1 with h1 | h1
    · rw [h1]; rfl
    · exact absurd h1.1 hv
  | saveVote v => exact absurd rfl (hc v)
  | updateIO w io =>
    show (max a io).vote = _
    rcases le_total a io with h1 | h1
    · rw [max_eq_right h1]; exact h.1
    · rw [max_eq_left h1]
  | sm c => cases c with
    | install m io =>
      show (max a io).vote = _
      rcases le_total a io with h1 | h1
      · rw [max_eq_right h1]; rw [show io = _ from h]
      · rw [max_eq_left h1]
    | _ => rfl
  | _ => rfl

theorem lvls_vote {g : Gh} {a : IOId} {cs : List Cmd} (h : COks g a cs) (hv : a.vote ≠ ⟨⟨0, 0⟩, false⟩)
    (hc : ∀ v, Cmd.saveVote v ∉ cs) : (lvls a cs).vote = a.vote := by
  induction cs generalizing g a with
  | nil => rfl
  | cons c cs ih =>
    have h1 := lvl_vote h.1 hv fun v hx => hc v (by rw [hx]; simp)
    exact (ih h.2 (by rw [h1]; exact hv) fun v hx => hc v (by simp [hx])).trans h1

theorem hard_vote {g : Gh} {a io : IOId} {c : Cmd} (h : COk g a c) (hc : c.hard = some io) : io.vote ≠ ⟨⟨0, 0⟩, false⟩ := by
  intro h1
  cases c with
  | append v es =>
    obtain ⟨x, hx, _, _⟩ := h
    simp only [Cmd.hard, hx, Option.map_some, Option.some.injEq] at hc
    subst hc
    cases congrArg Vote.committed h1
  | saveVote v =>
    simp only [Cmd.hard, Option.some.injEq] at hc
    subst hc
    rw [show v = _ from h1] at h
    exact vote_min h
  | _ => cases hc

/-- a write with no later `saveVote` has the vote of the level -/
theorem hard_mem_vote {g : Gh} {a io : IOId} {cs : List Cmd} {c : Cmd} (h : COks g a cs) (hm : c ∈ cs)
    (hc : c.hard = some io) (hn : ∀ v, Cmd.saveVote v ∉ cs) : (lvls a cs).vote = io.vote := by
  obtain ⟨x, y, rfl⟩ := List.append_of_mem hm
  rw [COks_append] at h
  rw [lvls_append]
  show (lvls (lvl _ c) y).vote = _
  rw [(hard_lvl h.2.1 hc).2]
  have h3 := h.2.2
  rw [(hard_lvl h.2.1 hc).2] at h3
  exact lvls_vote h3 (hard_vote h.2.1 hc) fun v hv => hn v (by simp [hv])

end Openraft.Engine
