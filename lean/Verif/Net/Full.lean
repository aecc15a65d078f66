import Verif.Cluster.LC
import Verif.Engine.Bound
import Verif.Runtime.Worker

/-!
# The whole log of a node that purges

The log store of a node only has the entries after the purged position. With the history of the cluster
(`Verif/Cluster/Ghost.lean`) the entries before it are known: they are the first entries of the leader that
created the purged entry. `logOf` is the log of an abstract node with nothing removed from its front.
-/

set_option autoImplicit false

namespace Openraft.Net
open Openraft.Engine Openraft.Cluster

/-- an entry of the log store without its index -/
def toEntry (e : Ent) : Entry := ⟨e.id.leaderId, e.payload⟩

/-- all entries up to a log id -/
def cont (g : Ghost) : Option LogId → Log
  | none => []
  | some x => (g.ll x.leaderId).take (x.index + 1)

/-- the log id is in the log of the leader that created it -/
def Val (g : Ghost) (x : LogId) : Prop := idAt (g.ll x.leaderId) x.index = some x

/-- the whole log of a store -/
def stLog (g : Ghost) (s : LogStore) : Log := cont g s.purged ++ s.entries.map toEntry

/-- the whole log of an abstract node -/
def logOf (g : Ghost) (G : Gh) : Log := stLog g G.store

variable {m0 : Membership} {g g' : Ghost}

theorem Val.lt {x : LogId} (h : Val g x) : x.index < (g.ll x.leaderId).length := by
  obtain ⟨e, he, _⟩ := idAt_some.1 h; exact lt_of_get he

theorem Val.mono (hle : GhostLe g g') {x : LogId} (h : Val g x) : Val g' x := by
  obtain ⟨e, he, hx⟩ := idAt_some.1 h
  exact idAt_some.2 ⟨e, get_of_pre_some (hle.ll _) he, hx⟩

theorem idAt_pre {a b : Log} (h : a <+: b) {i : Nat} {x : LogId} (hx : idAt a i = some x) : idAt b i = some x := by
  obtain ⟨e, he, hx⟩ := idAt_some.1 hx
  exact idAt_some.2 ⟨e, get_of_pre_some h he, hx⟩

theorem idAt_index {l : Log} {i : Nat} {x : LogId} (h : idAt l i = some x) : x.index = i := by
  obtain ⟨e, _, rfl⟩ := idAt_some.1 h; rfl

theorem idAt_lt {l : Log} {i : Nat} {x : LogId} (h : idAt l i = some x) : i < l.length := by
  obtain ⟨e, he, _⟩ := idAt_some.1 h; exact lt_of_get he

theorem cont_len {x : LogId} (h : Val g x) : (cont g (some x)).length = x.index + 1 := by
  have := h.lt
  simp only [cont, List.length_take]; omega

theorem cont_last {x : LogId} (h : Val g x) : idAt (cont g (some x)) x.index = some x := by
  obtain ⟨e, he, hx⟩ := idAt_some.1 h
  exact idAt_some.2 ⟨e, by rw [cont, get_take (by omega)]; exact he, hx⟩

theorem cont_mono (hle : GhostLe g g') {x : LogId} (h : Val g x) : cont g' (some x) = cont g (some x) := by
  have := h.lt
  exact hle.take (by omega)

theorem cont_monoO (hle : GhostLe g g') {o : Option LogId} (h : ∀ x, o = some x → Val g x) : cont g' o = cont g o := by
  cases o with
  | none => rfl
  | some x => exact cont_mono hle (h x rfl)

theorem cont_good (h : GInv m0 g) (o : Option LogId) : Good g (cont g o) := by
  cases o with
  | none => exact Good.nil
  | some x => exact (h.goodL _).pre (List.take_prefix _ _)

theorem cont_lenO {o : Option LogId} (h : ∀ x, o = some x → Val g x) : (cont g o).length = nextIndex o := by
  cases o with
  | none => rfl
  | some x => simpa using cont_len (h x rfl)

theorem stLog_mono (hle : GhostLe g g') {s : LogStore} (h : ∀ x, s.purged = some x → Val g x) : stLog g' s = stLog g s := by
  unfold stLog; rw [cont_monoO hle h]

/-- an id of a good log determines the log up to it -/
theorem take_of_idAt {l : Log} (hl : Good g l) {x : LogId} (hx : idAt l x.index = some x) :
    Val g x ∧ l.take (x.index + 1) = cont g (some x) := by
  obtain ⟨e, he, hxe⟩ := idAt_some.1 hx
  have hlid : e.lid = x.leaderId := by rw [hxe]
  have hp := hl _ _ he
  rw [hlid] at hp
  have hlt := lt_of_get he
  refine ⟨idAt_some.2 ⟨e, get_of_pre_some hp (by rw [get_take (by omega)]; exact he), hxe⟩, ?_⟩
  have : (l.take (x.index + 1)).length = x.index + 1 := by simp only [List.length_take]; omega
  have h2 := List.prefix_iff_eq_take.1 hp
  rw [this] at h2
  exact h2

/-- log matching by ids -/
theorem match_of_idAt {l l' : Log} (hl : Good g l) (hl' : Good g l') {x : LogId} (hx : idAt l x.index = some x)
    (hx' : idAt l' x.index = some x) : l.take (x.index + 1) = l'.take (x.index + 1) :=
  (take_of_idAt hl hx).2.trans (take_of_idAt hl' hx').2.symm

/-! ## The store -/

/-- the index of an entry is its position in the whole log -/
structure StOk (g : Ghost) (s : LogStore) : Prop where
  val : ∀ x, s.purged = some x → Val g x
  pos : s.Consecutive

theorem StOk.mono (hle : GhostLe g g') {s : LogStore} (h : StOk g s) : StOk g' s :=
  ⟨fun x hx => (h.val x hx).mono hle, h.pos⟩

namespace StOk
variable {s : LogStore}

theorem baseLen (h : StOk g s) : (cont g s.purged).length = nextIndex s.purged := cont_lenO h.val

theorem len (h : StOk g s) : (stLog g s).length = nextIndex s.purged + s.entries.length := by
  unfold stLog; rw [List.length_append, h.baseLen, List.length_map]

theorem last_next (h : StOk g s) : nextIndex s.lastLogId = nextIndex s.purged + s.entries.length := by
  unfold LogStore.lastLogId
  cases hl : s.entries.getLast? with
  | none => rw [List.getLast?_eq_none_iff] at hl; simp [hl]
  | some e =>
    rw [List.getLast?_eq_getElem?] at hl
    have := h.pos _ _ hl
    have hlt := lt_of_get hl
    simp only [nextIndex_some]; omega

theorem len_last (h : StOk g s) : (stLog g s).length = nextIndex s.lastLogId := by rw [h.len, h.last_next]

/-- the entry of the store at a position of the whole log -/
theorem get (h : StOk g s) {i : Nat} (hi : nextIndex s.purged ≤ i) : (stLog g s)[i]? = (s.entries[i - nextIndex s.purged]?).map toEntry := by
  unfold stLog
  rw [List.getElem?_append_right (by rw [h.baseLen]; exact hi), h.baseLen, List.getElem?_map]

theorem get_low (h : StOk g s) {i : Nat} (hi : i < nextIndex s.purged) : (stLog g s)[i]? = (cont g s.purged)[i]? := by
  unfold stLog
  rw [List.getElem?_append_left (by rw [h.baseLen]; exact hi)]

theorem mem_get (h : StOk g s) {e : Ent} (he : e ∈ s.entries) :
    nextIndex s.purged ≤ e.id.index ∧ (stLog g s)[e.id.index]? = some (toEntry e) := by
  obtain ⟨i, hi⟩ := List.mem_iff_getElem?.1 he
  have := h.pos i e hi
  refine ⟨by omega, ?_⟩
  rw [h.get (by omega), this, Nat.add_sub_cancel_left, hi]; rfl

theorem get_mem (h : StOk g s) {i : Nat} {x : Entry} (hx : (stLog g s)[i]? = some x) (hi : nextIndex s.purged ≤ i) :
    ∃ e ∈ s.entries, e.id.index = i ∧ toEntry e = x := by
  rw [h.get hi] at hx
  obtain ⟨e, he, hx⟩ := Option.map_eq_some_iff.1 hx
  have := h.pos _ e he
  exact ⟨e, List.mem_of_getElem? he, by omega, hx⟩

/-- ids of the store are ids of the whole log -/
theorem idAt_mem (h : StOk g s) {x : LogId} (hx : x ∈ s.purged.toList ++ s.entries.map (·.id)) : idAt (stLog g s) x.index = some x := by
  rcases List.mem_append.1 hx with hx | hx
  · have hp : s.purged = some x := by simpa using hx
    have := cont_last (h.val x hp)
    refine idAt_pre ?_ this
    unfold stLog; rw [hp]; exact List.prefix_append _ _
  · obtain ⟨e, he, rfl⟩ := List.mem_map.1 hx
    exact idAt_some.2 ⟨_, (h.mem_get he).2, rfl⟩

theorem mem_idAt (h : StOk g s) {x : LogId} (hx : idAt (stLog g s) x.index = some x) (hi : nextIndex s.purged ≤ x.index + 1) :
    x ∈ s.purged.toList ++ s.entries.map (·.id) := by
  obtain ⟨e, he, hxe⟩ := idAt_some.1 hx
  by_cases hlt : nextIndex s.purged ≤ x.index
  · obtain ⟨y, hy, hyi, hye⟩ := h.get_mem he hlt
    refine List.mem_append_right _ (List.mem_map.2 ⟨y, hy, ?_⟩)
    rw [hxe, ← hye, ← hyi]; rfl
  · cases hp : s.purged with
    | none => rw [hp] at hlt; simp at hlt
    | some p =>
      rw [hp] at hlt hi
      simp only [nextIndex_some] at hlt hi
      have hpi : p.index = x.index := by omega
      have h1 := h.idAt_mem (x := p) (by rw [hp]; simp)
      rw [hpi, hx] at h1
      cases h1; simp

/-- the last id -/
theorem lastId (h : StOk g s) : lastId (stLog g s) = s.lastLogId := by
  unfold Cluster.lastId
  rw [h.len]
  unfold LogStore.lastLogId
  cases hl : s.entries.getLast? with
  | none =>
    rw [List.getLast?_eq_none_iff] at hl
    rw [hl]
    simp only [List.length_nil, Nat.add_zero]
    cases hp : s.purged with
    | none => simp [stLog, cont, hp, hl, idAt]
    | some p =>
      have := h.idAt_mem (x := p) (by rw [hp]; simp)
      simpa using this
  | some e =>
    have he := List.mem_of_getLast? hl
    rw [List.getLast?_eq_getElem?] at hl
    have hi := h.pos _ _ hl
    have hlt := lt_of_get hl
    have := h.idAt_mem (x := e.id) (List.mem_append_right _ (List.mem_map_of_mem he))
    rw [show nextIndex s.purged + s.entries.length - 1 = e.id.index by omega]
    exact this

/-! ### Effects of the writes -/

theorem append {es : List Ent} (h : StOk g s) (hi : ∀ x, es.head? = some x → x.id.index = nextIndex s.lastLogId)
    (hc : Cons (es.map (·.id))) : StOk g (s.append es) ∧ stLog g (s.append es) = stLog g s ++ es.map toEntry := by
  refine ⟨⟨h.val, ?_⟩, by simp [stLog, LogStore.append]⟩
  intro i e he
  show e.id.index = nextIndex s.purged + i
  have he : (s.entries ++ es)[i]? = some e := he
  by_cases hlt : i < s.entries.length
  · rw [List.getElem?_append_left hlt] at he
    exact h.pos i e he
  · rw [List.getElem?_append_right (by omega)] at he
    cases es with
    | nil => simp at he
    | cons a r =>
      have h1 := hi a rfl
      rw [h.last_next] at h1
      rw [List.map_cons] at hc
      have h2 := hc.getElem? (i := i - s.entries.length) (x := e.id) (by
        rw [← List.map_cons (f := fun x : Ent => x.id), List.getElem?_map, he]; rfl)
      omega

theorem filter_lt (h : StOk g s) (n : Nat) : (s.entries.filter fun e => decide (e.id.index < n)) = s.entries.take (n - nextIndex s.purged) := by
  have : ∀ (l : List Ent) (b : Nat), (∀ i e, l[i]? = some e → e.id.index = b + i) →
      (l.filter fun e => decide (e.id.index < n)) = l.take (n - b) := by
    intro l
    induction l with
    | nil => intro b _; simp
    | cons a l ih =>
      intro b hb
      have h0 := hb 0 a rfl
      have h1 := ih (b + 1) (fun i e he => by have := hb (i + 1) e (by simpa using he); omega)
      by_cases hlt : a.id.index < n
      · rw [List.filter_cons_of_pos (by simpa using hlt), h1, show n - b = (n - (b + 1)) + 1 by omega, List.take_succ_cons]
      · rw [List.filter_cons_of_neg (by simpa using hlt), h1, show n - b = 0 by omega, show n - (b + 1) = 0 by omega]
        simp
  exact this _ _ h.pos

theorem filter_gt (h : StOk g s) (n : Nat) : (s.entries.filter fun e => decide (n < e.id.index)) = s.entries.drop (n + 1 - nextIndex s.purged) := by
  have : ∀ (l : List Ent) (b : Nat), (∀ i e, l[i]? = some e → e.id.index = b + i) →
      (l.filter fun e => decide (n < e.id.index)) = l.drop (n + 1 - b) := by
    intro l
    induction l with
    | nil => intro b _; simp
    | cons a l ih =>
      intro b hb
      have h0 := hb 0 a rfl
      have h1 := ih (b + 1) (fun i e he => by have := hb (i + 1) e (by simpa using he); omega)
      by_cases hlt : n < a.id.index
      · rw [List.filter_cons_of_pos (by simpa using hlt), h1, show n + 1 - b = 0 by omega, show n + 1 - (b + 1) = 0 by omega]
        simp
      · rw [List.filter_cons_of_neg (by simpa using hlt), h1, show n + 1 - b = (n + 1 - (b + 1)) + 1 by omega, List.drop_succ_cons]
  exact this _ _ h.pos

theorem truncate {since : LogId} (h : StOk g s) (hi : nextIndex s.purged ≤ since.index) :
    StOk g (s.truncate since) ∧ stLog g (s.truncate since) = (stLog g s).take since.index := by
  have hf := h.filter_lt since.index
  refine ⟨⟨h.val, ?_⟩, ?_⟩
  · intro i e he
    have he : (s.entries.filter fun e => decide (e.id.index < since.index))[i]? = some e := he
    rw [hf] at he
    have hlt := lt_of_get he
    rw [List.length_take] at hlt
    rw [get_take (by omega)] at he
    exact h.pos i e he
  · show cont g s.purged ++ (s.entries.filter fun e => decide (e.id.index < since.index)).map toEntry = _
    rw [hf]
    unfold stLog
    rw [List.take_append, h.baseLen, List.take_of_length_le (l := cont g s.purged) (by rw [h.baseLen]; exact hi), List.map_take]

theorem purge {upto : LogId} (h : StOk g s) (hg : Good g (stLog g s)) (hi : upto ∈ s.purged.toList ++ s.entries.map (·.id)) :
    StOk g (s.purge upto) ∧ stLog g (s.purge upto) = stLog g s := by
  have hx := h.idAt_mem hi
  obtain ⟨hv, ht⟩ := take_of_idAt hg hx
  have hf := h.filter_gt upto.index
  have hlt := idAt_lt hx
  rw [h.len] at hlt
  have hpl : nextIndex s.purged ≤ upto.index + 1 := by
    rcases List.mem_append.1 hi with h1 | h1
    · have hp : s.purged = some upto := by simpa using h1
      rw [hp]; simp
    · obtain ⟨e, he, rfl⟩ := List.mem_map.1 h1
      have := (h.mem_get he).1; omega
  refine ⟨⟨fun x hx => by cases hx; exact hv, ?_⟩, ?_⟩
  · intro i e he
    have he : (s.entries.filter fun e => decide (upto.index < e.id.index))[i]? = some e := he
    rw [hf, List.getElem?_drop] at he
    have := h.pos _ e he
    show e.id.index = nextIndex (some upto) + i
    simp only [nextIndex_some]; omega
  · show cont g (some upto) ++ (s.entries.filter fun e => decide (upto.index < e.id.index)).map toEntry = _
    rw [hf, ← ht]
    conv_rhs => rw [← List.take_append_drop (upto.index + 1) (stLog g s)]
    congr 1
    unfold stLog
    rw [List.drop_append, h.baseLen, List.drop_of_length_le (l := cont g s.purged) (by rw [h.baseLen]; exact hpl), List.nil_append,
      List.map_drop]

end StOk

end Openraft.Net
