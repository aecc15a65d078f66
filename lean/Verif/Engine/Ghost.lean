import Verif.Engine.Basic

/-!
# What the engine's commands mean: a specification of the command stream

`Gh` is an abstract node: the log that results when the commands are executed in order, the position
handed to the state machine, the stored vote, and the membership in force at the purged position.
`Gh.Ok g c` says when executing `c` is legal. It does not use any function of the engine.
-/

set_option autoImplicit false

namespace Openraft.Engine
open LogIdList
open Openraft.Props (expand_getLast? expand_head? expand_eq_nil)

/-- the abstract node -/
structure Gh where
  /-- the log store -/
  store : LogStore
  /-- the last membership at or below the purged position -/
  base : StoredMem
  /-- the membership of the last installed snapshot -/
  snapMem : StoredMem
  /-- the position up to which the state machine was told to go -/
  com : Option LogId
  /-- the vote last handed to the storage -/
  vote : Vote

namespace Gh

/-- ids of the entries of the store -/
def ids (g : Gh) : List LogId := g.store.entries.map (·.id)

/-- the memberships the store can restore: the one at the purged position and those in the log -/
def mems (g : Gh) : List StoredMem := g.base :: g.store.entries.filterMap (·.stored?)

/-- purge: the membership at the new purged position is the installed snapshot's if that position is
beyond the log, else the last one of the purged entries -/
def purge (g : Gh) (upto : LogId) : Gh :=
  { g with
    store := g.store.purge upto
    base := if nextIndex g.store.lastLogId ≤ upto.index then g.snapMem
      else ((g.store.entries.filter fun e => decide (e.id.index ≤ upto.index)).filterMap (·.stored?)).getLast?.getD g.base }

/-- execute a command -/
def run (g : Gh) : Cmd → Gh
  | .append _ es => { g with store := g.store.append es }
  | .truncate since => { g with store := g.store.truncate since }
  | .purge upto => g.purge upto
  | .apply _ upto => { g with com := some upto }
  | .sm (.install m _) => { g with com := m.lastLogId, snapMem := m.mem }
  | .saveVote v => { g with vote := v }
  | _ => g

/-- the position of the state machine is in the log or is the purged position -/
def Anchored (g : Gh) : Prop := ∀ c, g.com = some c → c ∈ g.ids ∨ g.store.purged = some c

/-- a command is legal:
* entries are appended without a gap, in the order of log ids, none from a leader above the vote;
* nothing at or below the position of the state machine is truncated;
* nothing above it is purged, and beyond the log only up to it;
* entries are applied from where the state machine is, and are in the log;
* a snapshot is installed only if it is ahead of the state machine, no entry of the log conflicts with
  its last id, and it is not from a leader above the vote;
* when the state machine moves on or entries are appended, the position it is at is in the log or is the
  purged position;
* a vote is stored only if it is greater than the one before. -/
def Ok (g : Gh) : Cmd → Prop
  | .append v es => es ≠ [] ∧ Cons (g.store.lastLogId.toList ++ es.map (·.id)) ∧
      (∀ x, es.head? = some x → x.id.index = nextIndex g.store.lastLogId) ∧
      (∀ x ∈ es, x.id.leaderId ≤ v.leaderId) ∧ g.Anchored
  | .truncate since => since ∈ g.ids ∧ nextIndex g.com ≤ since.index
  | .purge upto => nextIndex g.store.purged ≤ upto.index ∧ upto.index < nextIndex g.com ∧
      (upto ∈ g.ids ∨ nextIndex g.store.lastLogId ≤ upto.index ∧ g.com = some upto)
  | .apply prev upto => prev = g.com ∧ upto ∈ g.ids ∧ nextIndex g.com ≤ upto.index ∧ g.com < some upto ∧ g.Anchored
  | .saveCommitted c => c ∈ g.ids ∧ nextIndex g.com ≤ c.index
  | .sm (.install m _) => (∃ x, m.lastLogId = some x ∧ nextIndex g.com ≤ x.index ∧ g.com < some x ∧
      (x ∈ g.ids ∨ nextIndex g.store.lastLogId ≤ x.index) ∧ x.leaderId ≤ g.vote.leaderId) ∧ g.Anchored
  | .saveVote v => g.vote < v
  | _ => True

/-- execute a list of commands -/
def runs (g : Gh) (cs : List Cmd) : Gh := cs.foldl run g

/-- all commands of a list are legal, in order -/
def Oks : Gh → List Cmd → Prop
  | _, [] => True
  | g, c :: cs => g.Ok c ∧ Oks (g.run c) cs

theorem runs_append (g : Gh) (a b : List Cmd) : g.runs (a ++ b) = (g.runs a).runs b := by
  simp [runs]

theorem runs_snoc (g : Gh) (a : List Cmd) (c : Cmd) : g.runs (a ++ [c]) = (g.runs a).run c := by
  simp [runs]

theorem oks_append (g : Gh) (a b : List Cmd) : g.Oks (a ++ b) ↔ g.Oks a ∧ (g.runs a).Oks b := by
  induction a generalizing g with
  | nil => simp [Oks, runs]
  | cons c a ih => simp [Oks, runs, ih, and_assoc]

theorem oks_snoc (g : Gh) (a : List Cmd) (c : Cmd) : g.Oks (a ++ [c]) ↔ g.Oks a ∧ (g.runs a).Ok c := by
  rw [oks_append]; simp [Oks]

end Gh

/-- a command without effect on the abstract node -/
def Cmd.inert : Cmd → Bool
  | .append _ _ | .truncate _ | .purge _ | .apply _ _ | .saveCommitted _ | .saveVote _ => false
  | .sm (.install _ _) => false
  | _ => true

theorem Gh.run_inert {g : Gh} {c : Cmd} (h : c.inert = true) : g.run c = g ∧ g.Ok c := by
  cases c with
  | sm c => cases c <;> simp_all [Cmd.inert, Gh.run, Gh.Ok]
  | _ => simp_all [Cmd.inert, Gh.run, Gh.Ok]

theorem Gh.runs_inert {g : Gh} {cs : List Cmd} (h : ∀ c ∈ cs, c.inert = true) : g.runs cs = g ∧ g.Oks cs := by
  induction cs with
  | nil => exact ⟨rfl, trivial⟩
  | cons c cs ih =>
    have h1 := Gh.run_inert (g := g) (h c (by simp))
    have h2 := ih fun x hx => h x (by simp [hx])
    refine ⟨?_, h1.2, ?_⟩
    · show (g.run c).runs cs = g
      rw [h1.1]; exact h2.1
    · rw [h1.1]; exact h2.2

/-! ## The part of the state that describes the log -/

/-- the fields of `RState` that `LogJ` reads -/
structure LogV where
  vote : Vote
  committed : Option LogId
  purgedNext : Nat
  logIds : LogIdList
  snap : Option LogId
  upto : Option LogId

/-- the log part of a state -/
def RState.lv (s : RState) : LogV :=
  ⟨s.vote.data, s.committed, s.purgedNext, s.logIds, s.snap.lastLogId, s.purgeUpto⟩

namespace LogV
/-- all log ids the in-memory list stands for -/
def L (v : LogV) : List LogId := expand v.logIds
/-- last log id -/
def last (v : LogV) : Option LogId := v.logIds.getLast?
/-- last purged log id -/
def lastPurged (v : LogV) : Option LogId := if v.purgedNext = 0 then none else v.logIds.head?
end LogV

/-- The engine's log state agrees with the abstract node and its positions are ordered. -/
structure LogJ (v : LogV) (g : Gh) : Prop where
  sorted : SortedIdx v.logIds
  cons : Cons v.L
  bound : ∀ x ∈ v.L, x.leaderId ≤ v.vote.leaderId
  pn : v.purgedNext = nextIndex v.lastPurged
  start : v.purgedNext = 0 → ∀ x, v.L.head? = some x → x.index = 0
  cpl : v.L = v.lastPurged.toList ++ g.ids
  stp : g.store.purged = v.lastPurged
  com : g.com = v.committed
  comIn : ∀ x, v.committed = some x → x ∈ v.L
  snapIn : ∀ x, v.snap = some x → x ∈ v.L
  uptoIn : ∀ x, v.upto = some x → x ∈ v.L
  ord1 : v.purgedNext ≤ nextIndex v.upto
  ord2 : nextIndex v.upto ≤ nextIndex v.snap
  ord3 : nextIndex v.snap ≤ nextIndex v.committed
  gv : g.vote ≤ v.vote

namespace LogJ
variable {v : LogV} {g : Gh}

theorem last_eq (_h : LogJ v g) : v.last = v.L.getLast? := expand_getLast?.symm

theorem anchored (h : LogJ v g) : g.Anchored := by
  intro c hc
  have := h.comIn c (by rw [← h.com]; exact hc)
  rw [h.cpl] at this
  rcases List.mem_append.1 this with h1 | h1
  · right
    rw [h.stp]
    cases hp : v.lastPurged with
    | none => rw [hp] at h1; cases h1
    | some p => rw [hp] at h1; simp at h1; rw [h1]
  · exact Or.inl h1

theorem store_last (h : LogJ v g) : g.store.lastLogId = v.last := by
  rw [h.last_eq, h.cpl]
  unfold LogStore.lastLogId
  rw [h.stp]
  cases he : g.store.entries.getLast? with
  | none =>
    rw [List.getLast?_eq_none_iff] at he
    simp only [Gh.ids, he, List.map_nil, List.append_nil]
    cases v.lastPurged <;> rfl
  | some e =>
    have : g.ids.getLast? = some e.id := by simp [Gh.ids, he]
    rw [List.getLast?_append, this]; rfl

theorem head_purged (_h : LogJ v g) {p : LogId} (hp : v.lastPurged = some p) :
    v.purgedNext ≠ 0 ∧ v.logIds.head? = some p := by
  unfold LogV.lastPurged at hp
  split at hp
  · cases hp
  · next hn => exact ⟨hn, hp⟩

/-- the ids of the store are the ids above the purged position -/
theorem mem_ids (h : LogJ v g) {x : LogId} : x ∈ g.ids ↔ x ∈ v.L ∧ v.purgedNext ≤ x.index := by
  rw [h.cpl]
  cases hp : v.lastPurged with
  | none =>
    have : v.purgedNext = 0 := by rw [h.pn, hp]; rfl
    simp [this]
  | some p =>
    have hpn : v.purgedNext = p.index + 1 := by rw [h.pn, hp]; rfl
    have hc := h.cons
    rw [h.cpl, hp] at hc
    simp only [Option.toList_some, List.singleton_append] at hc ⊢
    constructor
    · intro hx
      have := (hc.spec x hx).1
      exact ⟨List.mem_cons_of_mem _ hx, by omega⟩
    · rintro ⟨hx, hi⟩
      rcases List.mem_cons.1 hx with rfl | hx
      · omega
      · exact hx

/-- every id has an index not below the purged one -/
theorem ge_purged (h : LogJ v g) {x : LogId} (hx : x ∈ v.L) : v.purgedNext ≤ x.index + 1 := by
  cases hp : v.lastPurged with
  | none =>
    have : v.purgedNext = 0 := by rw [h.pn, hp]; rfl
    omega
  | some p =>
    have hpn : v.purgedNext = p.index + 1 := by rw [h.pn, hp]; rfl
    have := h.cons.head_le (a := p) (by rw [h.cpl, hp]; rfl) hx
    omega

theorem purged_mem (h : LogJ v g) {p : LogId} (hp : v.lastPurged = some p) : p ∈ v.L := by
  rw [h.cpl, hp]; simp

/-- every index between the purged one and the last is in the log -/
theorem exists_index (h : LogJ v g) {i : Nat} (h1 : v.purgedNext ≤ i + 1) (h2 : i < nextIndex v.last) : ∃ x ∈ v.L, x.index = i := by
  rw [h.last_eq] at h2
  cases hl : v.L.getLast? with
  | none => rw [hl] at h2; simp at h2
  | some l =>
    rw [hl] at h2; simp at h2
    cases hh : v.L.head? with
    | none =>
      rw [List.head?_eq_none_iff] at hh; rw [hh] at hl; simp at hl
    | some a =>
      have hlm := List.mem_of_getLast? hl
      have ham := List.mem_of_head? hh
      refine h.cons.exists_index ham hlm ?_ (by omega)
      cases hp : v.lastPurged with
      | none =>
        have : v.purgedNext = 0 := by rw [h.pn, hp]; rfl
        have := h.start this a hh; omega
      | some p =>
        have hpn : v.purgedNext = p.index + 1 := by rw [h.pn, hp]; rfl
        have : a = p := by rw [h.cpl, hp] at hh; simpa using hh.symm
        subst this; omega

theorem le_last (h : LogJ v g) {x : LogId} (hx : x ∈ v.L) : x.index < nextIndex v.last := by
  rw [h.last_eq]
  cases hl : v.L.getLast? with
  | none => rw [List.getLast?_eq_none_iff] at hl; rw [hl] at hx; cases hx
  | some l => have := h.cons.le_last hl hx; simp; omega

theorem last_mem (h : LogJ v g) {x : LogId} (hx : v.last = some x) : x ∈ v.L := by
  rw [h.last_eq] at hx; exact List.mem_of_getLast? hx

theorem com_le_last (h : LogJ v g) : nextIndex v.committed ≤ nextIndex v.last := by
  cases hc : v.committed with
  | none => simp
  | some c => have := h.le_last (h.comIn c hc); simp; omega

/-- append entries -/
theorem append (h : LogJ v g) {es : List Ent} {w : Vote} {ks : LogIdList} (hne : es ≠ [])
    (hidx : ∀ x, es.head? = some x → x.id.index = nextIndex v.last)
    (hc : Cons (es.map (·.id)))
    (hlast : ∀ l x, v.last = some l → es.head? = some x → l.leaderId ≤ x.id.leaderId)
    (hb : ∀ x ∈ es, x.id.leaderId ≤ v.vote.leaderId) (hw : ∀ x ∈ es, x.id.leaderId ≤ w.leaderId)
    (hks : expand ks = v.L ++ es.map (·.id)) (hs : SortedIdx ks) :
    LogJ { v with logIds := ks } (g.run (.append w es)) ∧ g.Ok (.append w es) := by
  have hL : ∀ x, x ∈ v.L → x ∈ v.L ++ es.map (·.id) := fun x hx => List.mem_append_left _ hx
  have hcl : Cons (v.L ++ es.map (·.id)) := by
    rw [cons_append]
    refine ⟨h.cons, hc, ?_⟩
    intro a b ha hb'
    rw [← h.last_eq] at ha
    rw [List.head?_map] at hb'
    cases hx : es.head? with
    | none => rw [hx] at hb'; cases hb'
    | some x =>
      rw [hx] at hb'; simp at hb'; subst hb'
      exact ⟨by rw [hidx x hx, ha]; rfl, hlast a x ha hx⟩
  have hpur : LogV.lastPurged { v with logIds := ks } = v.lastPurged := by
    unfold LogV.lastPurged
    simp only
    split
    · rfl
    · next hn =>
      have h1 : v.L ≠ [] := by
        intro h0
        have := h.pn
        unfold LogV.lastPurged at this
        rw [if_neg hn] at this
        have h2 : v.logIds = [] := expand_eq_nil h0
        rw [h2] at this; simp at this; exact hn this
      have h3 : ks.head? = v.L.head? := by
        rw [← expand_head? hs, hks, List.head?_append]
        cases hh : v.L.head? with
        | none => exact absurd (List.head?_eq_none_iff.1 hh) h1
        | some a => rfl
      rw [h3]; exact expand_head? h.sorted
  constructor
  · refine ⟨hs, ?_, ?_, ?_, ?_, ?_, ?_, h.com, ?_, ?_, ?_, h.ord1, h.ord2, h.ord3, h.gv⟩
    · show Cons (expand ks); rw [hks]; exact hcl
    · intro x hx
      have hx' : x ∈ v.L ++ es.map (·.id) := by rw [← hks]; exact hx
      rcases List.mem_append.1 hx' with h1 | h1
      · exact h.bound x h1
      · obtain ⟨e, he, rfl⟩ := List.mem_map.1 h1; exact hb e he
    · rw [hpur]; exact h.pn
    · intro h0 x hx
      have hx' : (v.L ++ es.map (·.id)).head? = some x := by rw [← hks]; exact hx
      rw [List.head?_append] at hx'
      cases hh : v.L.head? with
      | some a => rw [hh] at hx'; simp at hx'; subst hx'; exact h.start h0 a hh
      | none =>
        rw [hh] at hx'
        simp only [Option.none_or, List.head?_map] at hx'
        cases he : es.head? with
        | none => rw [he] at hx'; cases hx'
        | some y =>
          rw [he] at hx'; simp at hx'; subst hx'
          rw [hidx y he, h.last_eq, List.head?_eq_none_iff.1 hh]; rfl
    · show expand ks = _
      rw [hks, hpur, h.cpl]; simp [Gh.run, Gh.ids, LogStore.append]
    · rw [hpur]; exact h.stp
    · intro x hx; show x ∈ expand ks; rw [hks]; exact hL x (h.comIn x hx)
    · intro x hx; show x ∈ expand ks; rw [hks]; exact hL x (h.snapIn x hx)
    · intro x hx; show x ∈ expand ks; rw [hks]; exact hL x (h.uptoIn x hx)
  · refine ⟨hne, ?_, ?_, hw, h.anchored⟩
    · rw [h.store_last, cons_append]
      refine ⟨by cases v.last <;> simp [Cons], hc, ?_⟩
      intro a b ha hb'
      have ha' : v.last = some a := by cases hv : v.last <;> simp_all
      rw [List.head?_map] at hb'
      cases hx : es.head? with
      | none => rw [hx] at hb'; cases hb'
      | some x =>
        rw [hx] at hb'; simp at hb'; subst hb'
        exact ⟨by rw [hidx x hx, ha']; rfl, hlast a x ha' hx⟩
    · rw [h.store_last]; exact hidx

/-- truncate above the committed position -/
theorem truncate (h : LogJ v g) {since : LogId} (hin : since ∈ v.L) (hc : nextIndex v.committed ≤ since.index) :
    LogJ { v with logIds := LogIdList.truncate v.logIds since.index } (g.run (.truncate since)) ∧
    g.Ok (.truncate since) := by
  obtain ⟨hks, hs⟩ := expand_truncate h.sorted since.index
  have hord := Nat.le_trans (Nat.le_trans (Nat.le_trans h.ord1 h.ord2) h.ord3) hc
  have hpn : v.purgedNext ≤ since.index := by omega
  have hkeep : ∀ x, x ∈ v.L → x.index < since.index → x ∈ expand (LogIdList.truncate v.logIds since.index) := by
    intro x hx hi; rw [hks]; exact List.mem_filter.2 ⟨hx, by simpa using hi⟩
  have hpur : LogV.lastPurged { v with logIds := LogIdList.truncate v.logIds since.index } = v.lastPurged := by
    unfold LogV.lastPurged
    simp only
    split
    · rfl
    · next hn =>
      have h1 := h.pn
      unfold LogV.lastPurged at h1
      rw [if_neg hn] at h1
      cases hh : v.logIds.head? with
      | none => rw [hh] at h1; exact absurd h1 hn
      | some p =>
        rw [hh] at h1
        have hpi : p.index < since.index := by simp at h1; omega
        have h2 : v.L.head? = some p := by rw [← hh]; exact expand_head? h.sorted
        rw [← expand_head? hs, hks]
        cases hL : expand v.logIds with
        | nil => simp [LogV.L, hL] at h2
        | cons a r =>
          simp [LogV.L, hL] at h2
          subst h2
          rw [List.filter_cons_of_pos (by simpa using hpi)]; rfl
  constructor
  · refine ⟨hs, ?_, ?_, ?_, ?_, ?_, ?_, h.com, ?_, ?_, ?_, h.ord1, h.ord2, h.ord3, h.gv⟩
    · show Cons (expand _); rw [hks]; exact h.cons.filterLt _
    · intro x hx
      have hx' : x ∈ v.L.filter (fun x => decide (x.index < since.index)) := by
        unfold LogV.L; rw [← hks]; exact hx
      exact h.bound x (List.mem_filter.1 hx').1
    · rw [hpur]; exact h.pn
    · intro h0 x hx
      have hx' : (v.L.filter (fun x => decide (x.index < since.index))).head? = some x := by
        unfold LogV.L; rw [← hks]; exact hx
      cases hL : v.L with
      | nil => rw [hL] at hx'; simp at hx'
      | cons a r =>
        have ha := h.start h0 a (by rw [hL]; rfl)
        rw [hL] at hx'
        by_cases hz : a.index < since.index
        · rw [List.filter_cons_of_pos (by simpa using hz)] at hx'
          simp at hx'; subst hx'; exact ha
        · have hm := (List.mem_filter.1 (List.mem_of_head? hx')).2
          simp at hm
          have := h.cons.head_le (a := a) (x := x) (by rw [hL]; rfl)
            (by rw [hL]; exact (List.mem_filter.1 (List.mem_of_head? hx')).1)
          omega
    · show expand _ = _
      rw [hks, hpur]
      show v.L.filter _ = _
      rw [h.cpl, List.filter_append]
      congr 1
      · cases hp : v.lastPurged with
        | none => rfl
        | some p =>
          have : v.purgedNext = p.index + 1 := by rw [h.pn, hp]; rfl
          rw [Option.toList_some, List.filter_cons_of_pos (by simp; omega)]; rfl
      · simp only [Gh.run, Gh.ids, LogStore.truncate, List.filter_map]; rfl
    · rw [hpur]; exact h.stp
    · intro x hx; exact hkeep x (h.comIn x hx) (by
        have h1 : nextIndex v.committed = x.index + 1 := by rw [show v.committed = some x from hx]; rfl
        omega)
    · intro x hx; exact hkeep x (h.snapIn x hx) (by
        have h1 : nextIndex v.snap = x.index + 1 := by rw [show v.snap = some x from hx]; rfl
        have := h.ord3; omega)
    · intro x hx; exact hkeep x (h.uptoIn x hx) (by
        have h1 : nextIndex v.upto = x.index + 1 := by rw [show v.upto = some x from hx]; rfl
        have := h.ord3; have := h.ord2; omega)
  · exact ⟨h.mem_ids.2 ⟨hin, hpn⟩, by rw [h.com]; exact hc⟩

/-- commit an id of the log -/
theorem commit (h : LogJ v g) {c : LogId} (hin : c ∈ v.L) (hlt : nextIndex v.committed ≤ c.index) :
    LogJ { v with committed := some c } (g.run (.apply v.committed c)) ∧
    g.Ok (.apply v.committed c) ∧ g.Ok (.saveCommitted c) := by
  have hord := Nat.le_trans (Nat.le_trans (Nat.le_trans h.ord1 h.ord2) h.ord3) hlt
  have hid : c ∈ g.ids := h.mem_ids.2 ⟨hin, by omega⟩
  refine ⟨⟨h.sorted, h.cons, h.bound, h.pn, h.start, h.cpl, h.stp, rfl, ?_, h.snapIn, h.uptoIn, h.ord1,
    h.ord2, ?_, h.gv⟩, ⟨h.com.symm, hid, by rw [h.com]; exact hlt, ?_, h.anchored⟩, hid, by rw [h.com]; exact hlt⟩
  · intro x hx; cases hx; exact hin
  · have := h.ord3; simp; omega
  · rw [h.com]
    cases hc : v.committed with
    | none => exact OptOrd.none_lt_some'
    | some x =>
      rw [hc] at hlt; simp at hlt
      exact OptOrd.some_lt_some'.2 ((h.cons.lt_iff (h.comIn x hc) hin).2 (by omega))

/-- a committed id that is greater in the order of log ids has a greater index -/
theorem index_of_lt (h : LogJ v g) {c : LogId} (hin : c ∈ v.L) (hlt : v.committed < some c) :
    nextIndex v.committed ≤ c.index := by
  cases hc : v.committed with
  | none => simp
  | some x =>
    rw [hc] at hlt
    have := (h.cons.lt_iff (h.comIn x hc) hin).1 hlt
    simp; omega

/-- change of the purge position to an id of the log, at or below the snapshot -/
theorem setUpto (h : LogJ v g) {x : LogId} (hin : x ∈ v.L) (h1 : x.index + 1 ≤ nextIndex v.snap) :
    LogJ { v with upto := some x } g :=
  ⟨h.sorted, h.cons, h.bound, h.pn, h.start, h.cpl, h.stp, h.com, h.comIn, h.snapIn,
    fun y hy => by cases hy; exact hin, h.ge_purged hin, h1, h.ord3, h.gv⟩

/-- change of the snapshot position to a greater id of the log, not above the committed one -/
theorem setSnap (h : LogJ v g) {x : LogId} (hin : x ∈ v.L) (h1 : nextIndex v.snap ≤ x.index + 1)
    (h2 : x.index + 1 ≤ nextIndex v.committed) : LogJ { v with snap := some x } g :=
  ⟨h.sorted, h.cons, h.bound, h.pn, h.start, h.cpl, h.stp, h.com, h.comIn,
    fun y hy => by cases hy; exact hin, h.uptoIn, h.ord1, Nat.le_trans h.ord2 h1, h2, h.gv⟩

/-- store a greater vote -/
theorem setVote (h : LogJ v g) {w : Vote} (hlt : v.vote < w) :
    LogJ { v with vote := w } (g.run (.saveVote w)) ∧ g.Ok (.saveVote w) :=
  ⟨⟨h.sorted, h.cons, fun x hx => le_trans (h.bound x hx) (Vote.leaderId_le_of_le (le_of_lt hlt)), h.pn,
    h.start, h.cpl, h.stp, h.com, h.comIn, h.snapIn, h.uptoIn, h.ord1, h.ord2, h.ord3, le_refl _⟩,
    lt_of_le_of_lt h.gv hlt⟩

/-- change the vote in memory only -/
theorem memVote (h : LogJ v g) {w : Vote} (hlt : v.vote ≤ w) : LogJ { v with vote := w } g :=
  ⟨h.sorted, h.cons, fun x hx => le_trans (h.bound x hx) (Vote.leaderId_le_of_le hlt), h.pn,
    h.start, h.cpl, h.stp, h.com, h.comIn, h.snapIn, h.uptoIn, h.ord1, h.ord2, h.ord3, le_trans h.gv hlt⟩

theorem store_filter_purge (es : List Ent) (u : Nat) :
    (es.filter fun e => decide (u < e.id.index)).map (·.id) = (es.map (·.id)).filter fun x => decide (u < x.index) := by
  rw [List.filter_map]; rfl

/-- purge up to an id of the log -/
theorem purge (h : LogJ v g) {u : LogId} (hu : v.upto = some u) (hlt : v.purgedNext ≤ u.index) :
    LogJ { v with purgedNext := u.index + 1, logIds := LogIdList.purge v.logIds u } (g.run (.purge u)) ∧
    g.Ok (.purge u) := by
  have hin := h.uptoIn u hu
  obtain ⟨hks, hs⟩ := expand_purge h.sorted u
  have hul := h.le_last hin
  rw [if_neg (by show ¬ u.index ≥ nextIndex v.last; omega)] at hks
  have hks' : expand (LogIdList.purge v.logIds u) = v.L.filter fun x => decide (u.index ≤ x.index) := hks
  have hun : nextIndex v.upto = u.index + 1 := by rw [hu]; rfl
  have hkeep : ∀ x, x ∈ v.L → u.index ≤ x.index → x ∈ expand (LogIdList.purge v.logIds u) := by
    intro x hx hi; rw [hks']; exact List.mem_filter.2 ⟨hx, by simpa using hi⟩
  have hhead : (LogIdList.purge v.logIds u).head? = some u := by
    rw [← expand_head? hs]
    cases hh : (expand (LogIdList.purge v.logIds u)).head? with
    | none =>
      rw [List.head?_eq_none_iff] at hh
      have := hkeep u hin (Nat.le_refl _); rw [hh] at this; cases this
    | some a =>
      have ham := List.mem_of_head? hh
      have hcons : Cons (expand (LogIdList.purge v.logIds u)) := by rw [hks']; exact h.cons.filterGe _
      have h1 := hcons.head_le hh (hkeep u hin (Nat.le_refl _))
      rw [hks'] at ham
      have h2 := (List.mem_filter.1 ham).2
      simp at h2
      rw [h.cons.inj (List.mem_filter.1 ham).1 hin (by omega)]
  have hpur : LogV.lastPurged { v with purgedNext := u.index + 1, logIds := LogIdList.purge v.logIds u } = some u := by
    unfold LogV.lastPurged
    simp only [Nat.succ_ne_zero, if_false, hhead]
  have hcons : Cons (expand (LogIdList.purge v.logIds u)) := by rw [hks']; exact h.cons.filterGe _
  constructor
  · refine ⟨hs, hcons, ?_, ?_, ?_, ?_, ?_, h.com, ?_, ?_, ?_, ?_, h.ord2, h.ord3, h.gv⟩
    · intro x hx
      have hx' : x ∈ expand (LogIdList.purge v.logIds u) := hx
      rw [hks'] at hx'
      exact h.bound x (List.mem_filter.1 hx').1
    · rw [hpur]; rfl
    · intro h0; simp at h0
    · show expand _ = _
      rw [hpur]
      have h1 : expand (LogIdList.purge v.logIds u) = u :: (expand (LogIdList.purge v.logIds u)).tail := by
        cases hh : expand (LogIdList.purge v.logIds u) with
        | nil => have := expand_head? hs; rw [hh, hhead] at this; cases this
        | cons a r =>
          have := expand_head? hs; rw [hh, hhead] at this; simp at this; subst this; rfl
      rw [h1]
      show u :: _ = u :: _
      congr 1
      have h2 : (expand (LogIdList.purge v.logIds u)).tail =
          (expand (LogIdList.purge v.logIds u)).filter fun x => decide (u.index < x.index) := by
        have hc1 := hcons
        rw [h1] at hc1 ⊢
        rw [List.filter_cons_of_neg (by simp), List.tail_cons, List.filter_eq_self.2]
        intro x hx
        simpa using (hc1.spec x hx).1
      rw [h2, hks', List.filter_filter]
      simp only [Gh.run, Gh.purge, Gh.ids, LogStore.purge]
      rw [store_filter_purge]
      have h3 : v.L.filter (fun x => decide (u.index < x.index) && decide (u.index ≤ x.index)) =
          v.L.filter fun x => decide (u.index < x.index) := by
        apply List.filter_congr; intro x _; simp; omega
      rw [h3, h.cpl, List.filter_append]
      have h4 : v.lastPurged.toList.filter (fun x => decide (u.index < x.index)) = [] := by
        cases hp : v.lastPurged with
        | none => rfl
        | some p =>
          have : v.purgedNext = p.index + 1 := by rw [h.pn, hp]; rfl
          rw [Option.toList_some, List.filter_cons_of_neg (by simp; omega)]; rfl
      rw [h4]; rfl
    · rw [hpur]; rfl
    · intro x hx; exact hkeep x (h.comIn x hx) (by
        have h1 : nextIndex v.committed = x.index + 1 := by rw [show v.committed = some x from hx]; rfl
        have := h.ord2; have := h.ord3; omega)
    · intro x hx; exact hkeep x (h.snapIn x hx) (by
        have h1 : nextIndex v.snap = x.index + 1 := by rw [show v.snap = some x from hx]; rfl
        have := h.ord2; omega)
    · intro x hx; exact hkeep x (h.uptoIn x hx) (by
        rw [show v.upto = some x from hx] at hu; cases hu; exact Nat.le_refl _)
    · rw [hun]
  · refine ⟨?_, ?_, Or.inl (h.mem_ids.2 ⟨hin, hlt⟩)⟩
    · rw [h.stp, ← h.pn]; exact hlt
    · rw [h.com]; have := h.ord2; have := h.ord3; omega

/-- install a snapshot that ends beyond the log -/
theorem install_beyond (h : LogJ v g) {m : SnapMeta} {io : IOId} {x : LogId} (hm : m.lastLogId = some x)
    (hx : nextIndex v.last ≤ x.index) (hb : x.leaderId ≤ v.vote.leaderId) (hgv : g.vote = v.vote) (hgt : v.committed < some x) :
    LogJ { v with committed := some x, snap := some x, upto := some x, purgedNext := x.index + 1,
                  logIds := LogIdList.purge v.logIds x } ((g.run (.sm (.install m io))).run (.purge x)) ∧
    g.Ok (.sm (.install m io)) ∧ (g.run (.sm (.install m io))).Ok (.purge x) := by
  obtain ⟨hks, hs⟩ := expand_purge h.sorted x
  rw [if_pos (show x.index ≥ nextIndex v.logIds.getLast? from hx)] at hks
  have hpur : (⟨v.vote, some x, x.index + 1, LogIdList.purge v.logIds x, some x, some x⟩ : LogV).lastPurged = some x := by
    unfold LogV.lastPurged
    simp only [Nat.succ_ne_zero, if_false]
    rw [← expand_head? hs, hks]; rfl
  have hcl := h.com_le_last
  refine ⟨⟨hs, ?_, ?_, ?_, ?_, ?_, ?_, hm, ?_, ?_, ?_, Nat.le_refl _, Nat.le_refl _, Nat.le_refl _, h.gv⟩,
    ⟨⟨x, hm, by rw [h.com]; omega, by rw [h.com]; exact hgt, Or.inr (by rw [h.store_last]; exact hx), by rw [hgv]; exact hb⟩, h.anchored⟩, ?_, ?_, ?_⟩
  · show Cons (expand _); rw [hks]; trivial
  · intro y hy
    have hy' : y ∈ expand (LogIdList.purge v.logIds x) := hy
    rw [hks] at hy'; simp at hy'; subst hy'; exact hb
  · rw [hpur]; rfl
  · intro h0; simp at h0
  · show expand _ = _
    rw [hks, hpur]
    have : (g.store.entries.filter fun e => decide (x.index < e.id.index)) = [] := by
      rw [List.filter_eq_nil_iff]
      intro e he
      have := h.le_last (h.mem_ids.1 (show e.id ∈ g.ids from List.mem_map.2 ⟨e, he, rfl⟩)).1
      simp; omega
    simp [Gh.run, Gh.purge, Gh.ids, LogStore.purge, this]
  · rw [hpur]; rfl
  · intro y hy; cases hy; show x ∈ expand _; rw [hks]; simp
  · intro y hy; cases hy; show x ∈ expand _; rw [hks]; simp
  · intro y hy; cases hy; show x ∈ expand _; rw [hks]; simp
  · show nextIndex g.store.purged ≤ _
    rw [h.stp, ← h.pn]
    have := h.ord1; have := h.ord2; have := h.ord3; omega
  · show x.index < nextIndex m.lastLogId; rw [hm]; simp
  · right; refine ⟨?_, hm⟩; show nextIndex g.store.lastLogId ≤ _; rw [h.store_last]; exact hx

/-- install a snapshot whose last id is in the log, above the committed position -/
theorem install_inside (h : LogJ v g) {m : SnapMeta} {io : IOId} {x : LogId} (hm : m.lastLogId = some x)
    (hin : x ∈ v.L) (hx : nextIndex v.committed ≤ x.index) (hgv : g.vote = v.vote) (hgt : v.committed < some x) :
    LogJ { v with committed := some x, snap := some x, upto := some x, purgedNext := x.index + 1,
                  logIds := LogIdList.purge v.logIds x } ((g.run (.sm (.install m io))).run (.purge x)) ∧
    g.Ok (.sm (.install m io)) ∧ (g.run (.sm (.install m io))).Ok (.purge x) := by
  have h1 : LogJ { v with committed := some x, snap := some x, upto := some x } (g.run (.sm (.install m io))) :=
    ⟨h.sorted, h.cons, h.bound, h.pn, h.start, h.cpl, h.stp, hm, fun y hy => (by cases hy; exact hin),
      fun y hy => (by cases hy; exact hin), fun y hy => (by cases hy; exact hin), h.ge_purged hin,
      Nat.le_refl _, Nat.le_refl _, h.gv⟩
  have hp : v.purgedNext ≤ x.index := by
    have := h.ord1; have := h.ord2; have := h.ord3; omega
  have h2 := h1.purge (u := x) rfl hp
  exact ⟨h2.1, ⟨⟨x, hm, by rw [h.com]; exact hx, by rw [h.com]; exact hgt, Or.inl (h.mem_ids.2 ⟨hin, hp⟩), by rw [hgv]; exact h.bound x hin⟩, h.anchored⟩, h2.2⟩

end LogJ
end Openraft.Engine
