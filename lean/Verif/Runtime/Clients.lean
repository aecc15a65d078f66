import Verif.Runtime.Life
import Mathlib.Data.List.Perm.Subperm

/-!
# Waiting clients

`RaftCore::client_resp_channels` is a map from a log index to a caller. The invariant here: at every index
with a waiting caller, the entry that will be applied at that index is the one the caller asked for, or
the caller is taken out of the map before.
-/

set_option autoImplicit false

namespace Openraft.BMap
variable {V : Type}

theorem mem_insert {k : Nat} {v : V} {m : List (Nat × V)} {p : Nat × V} (h : p ∈ insert k v m) : p = (k, v) ∨ p ∈ m := by
  induction m with
  | nil => simpa [insert] using h
  | cons q m ih =>
    obtain ⟨k', v'⟩ := q
    unfold insert at h
    split at h
    · rcases List.mem_cons.1 h with h | h
      · exact Or.inl h
      · exact Or.inr h
    · split at h
      · rcases List.mem_cons.1 h with h | h
        · exact Or.inl h
        · exact Or.inr (List.mem_cons_of_mem _ h)
      · rcases List.mem_cons.1 h with h | h
        · exact Or.inr (h ▸ List.mem_cons_self ..)
        · rcases ih h with h | h
          · exact Or.inl h
          · exact Or.inr (List.mem_cons_of_mem _ h)

theorem mem_insert_ne {k : Nat} {v : V} {m : List (Nat × V)} {p : Nat × V} (h : p ∈ m) (hn : p.1 ≠ k) : p ∈ insert k v m := by
  induction m with
  | nil => cases h
  | cons q m ih =>
    obtain ⟨k', v'⟩ := q
    unfold insert
    split
    · exact List.mem_cons_of_mem _ h
    · split
      · next hk =>
        rcases List.mem_cons.1 h with h | h
        · subst h; exact absurd hk.symm hn
        · exact List.mem_cons_of_mem _ h
      · rcases List.mem_cons.1 h with h | h
        · exact h ▸ List.mem_cons_self ..
        · exact List.mem_cons_of_mem _ (ih h)

theorem get_mem {k : Nat} {v : V} {m : List (Nat × V)} (h : get m k = some v) : (k, v) ∈ m := by
  unfold get at h
  cases hf : m.find? (fun p => p.1 == k) with
  | none => rw [hf] at h; cases h
  | some p =>
    rw [hf] at h
    have h1 := List.mem_of_find?_eq_some hf
    have h2 := List.find?_some hf
    simp only [Option.map_some, Option.some.injEq] at h
    have h3 : p.1 = k := by simpa using h2
    rw [← h, ← h3]; exact h1

theorem values_insert {k : Nat} {v : V} {m : List (Nat × V)} :
    List.Subperm ((insert k v m).map (·.2)) (v :: m.map (·.2)) := by
  induction m with
  | nil => exact (List.Perm.refl _).subperm
  | cons q m ih =>
    obtain ⟨k', v'⟩ := q
    unfold insert
    split
    · exact (List.Perm.refl _).subperm
    · split
      · simp only [List.map_cons]
        exact List.Sublist.subperm ((List.sublist_cons_self _ _).cons_cons _)
      · simp only [List.map_cons]
        exact ((List.subperm_cons v').2 ih).trans (List.Perm.swap _ _ _).subperm

end Openraft.BMap

namespace Openraft.Engine.Eng
open Openraft.Repl (dassert)
open Openraft.Cluster (Payload)
variable {dbg : Bool}

theorem last_rhInitiate {e e' : Eng} {l : Leader} (h : rhInitiate dbg e l = .ok e') :
    ∃ l', e'.leader = some l' ∧ l'.lastLogId = l.lastLogId := by
  unfold rhInitiate at h
  rw [bind_ok] at h
  obtain ⟨⟨a, b⟩, _, h⟩ := h
  rw [pure_ok] at h; subst h
  exact ⟨_, rfl, rfl⟩

theorem last_lhAppend {e e' : Eng} {l : Leader} {p : Payload} (hr : lhAppend dbg e l [p] = .ok e') :
    ∃ l', e'.leader = some l' ∧ l'.lastLogId = some ⟨l.vote.leaderId, nextIndex l.lastLogId⟩ := by
  unfold lhAppend at hr
  rw [if_neg (by simp)] at hr
  simp only [bind_ok, unwrap_ok, assign_single] at hr
  obtain ⟨_, _, ids, hids, _, _, st, hst, e2, he2, l2, hl2, hr⟩ := hr
  obtain ⟨l', h1, h2⟩ := last_rhInitiate hr
  refine ⟨l', h1, h2.trans ?_⟩
  rw [stored?_single] at he2
  cases p with
  | membership m =>
    simp only [List.getLast?_singleton, lhMembership, rhAppendMembership, bind_ok, unwrap_ok] at he2
    obtain ⟨_, _, _, _, ms, hms, l3, hl3, hr3⟩ := he2
    obtain ⟨l4, h3, h4⟩ := last_rhInitiate hr3
    rw [hl2] at h3; cases h3
    rw [h4]
    cases hl3; rfl
  | blank =>
    simp only [List.getLast?_nil, lhMembership, pure_ok] at he2
    subst he2; cases hl2; rfl
  | normal d =>
    simp only [List.getLast?_nil, lhMembership, pure_ok] at he2
    subst he2; cases hl2; rfl

/-- an accepted write: its entry is appended, its index is returned -/
theorem writeEntry_shape {g0 : Gh} {e e' : Eng} {p : Payload} {i : Nat} (h' : EInv g0 e')
    (hr : writeEntry dbg e p = .ok (some i, e')) :
    ∃ v x cs, e'.out = e.out ++ .append v [x] :: cs ∧ x.payload = p ∧ x.id.index = i := by
  unfold writeEntry at hr
  rw [bind_ok] at hr
  obtain ⟨o, ho, hr⟩ := hr
  cases o with
  | none => simp only [pure_ok] at hr; cases hr
  | some l =>
    simp only at hr
    split at hr
    · rw [pure_ok] at hr; cases hr
    · simp only [bind_ok, pure_ok] at hr
      obtain ⟨e1, h1, last, h2, hr⟩ := hr
      cases hr
      obtain ⟨cs, h3, _⟩ := lhAppend_shape h1
      refine ⟨_, _, cs, h3, rfl, ?_⟩
      obtain ⟨l', h4, h5⟩ := last_lhAppend h1
      have h6 := (h'.pj.lead l' h4).last
      rw [unwrap_ok] at h2
      rw [h5, h2] at h6
      cases h6; rfl

/-- a write that is not accepted changes nothing -/
theorem writeEntry_none {e e' : Eng} {p : Payload} (hr : writeEntry dbg e p = .ok (none, e')) : e' = e := by
  unfold writeEntry at hr
  rw [bind_ok] at hr
  obtain ⟨o, ho, hr⟩ := hr
  cases o with
  | none => simp only [pure_ok] at hr; cases hr; rfl
  | some l =>
    simp only at hr
    split at hr
    · rw [pure_ok] at hr; cases hr; rfl
    · simp only [bind_ok, pure_ok] at hr
      obtain ⟨e1, h1, last, h2, hr⟩ := hr
      cases hr

end Openraft.Engine.Eng

namespace Openraft.Engine

/-- What becomes of an entry `x` while the commands are executed: whenever the state machine is told to
go over its index, the entry in the log at that index is `x`, unless the index was truncated before. -/
def Track : Gh → List Cmd → Ent → Prop
  | g, [], x => x.id.index < nextIndex g.com ∨ x ∈ g.store.entries
  | g, .truncate s :: cs, x => s.index ≤ x.id.index ∨ Track (g.run (.truncate s)) cs x
  | g, .apply a u :: cs, x => (nextIndex a ≤ x.id.index → x.id.index ≤ u.index → x ∈ g.store.entries) ∧ Track (g.run (.apply a u)) cs x
  | g, c :: cs, x => Track (g.run c) cs x

namespace Track
variable {g : Gh} {x : Ent} {cs ds : List Cmd} {c : Cmd}

theorem tail (h : Track g (c :: cs) x) (hc : ∀ s, c = .truncate s → x.id.index < s.index) : Track (g.run c) cs x := by
  cases c with
  | truncate s => exact h.resolve_left (by have := hc s rfl; omega)
  | apply a u => exact h.2
  | _ => exact h

theorem cons (h : Track (g.run c) cs x)
    (ha : ∀ a u, c = .apply a u → nextIndex a ≤ x.id.index → x.id.index ≤ u.index → x ∈ g.store.entries) : Track g (c :: cs) x := by
  cases c with
  | truncate s => exact Or.inr h
  | apply a u => exact ⟨ha a u rfl, h⟩
  | _ => exact h

theorem of (h : x.id.index < nextIndex g.com ∨ x ∈ g.store.entries) (ho : g.Oks cs) : Track g cs x := by
  induction cs generalizing g with
  | nil => exact h
  | cons c cs ih =>
    obtain ⟨h1, h2⟩ := ho
    have hn := (Gh.com_run h1).next
    cases c with
    | truncate s =>
      by_cases hs : s.index ≤ x.id.index
      · exact Or.inl hs
      · right
        refine ih ?_ h2
        rcases h with h | h
        · exact Or.inl h
        · exact Or.inr (List.mem_filter.2 ⟨h, by simp; omega⟩)
    | apply a u =>
      refine ⟨fun h3 _ => ?_, ih ?_ h2⟩
      · rcases h with h | h
        · rw [h1.1] at h3; omega
        · exact h
      · rcases h with h | h
        · exact Or.inl (Nat.lt_of_lt_of_le h hn)
        · exact Or.inr h
    | purge u =>
      refine ih ?_ h2
      rcases h with h | h
      · exact Or.inl h
      · by_cases hu : u.index < x.id.index
        · exact Or.inr (List.mem_filter.2 ⟨h, by simpa using hu⟩)
        · left
          have := h1.2.1
          show _ < nextIndex g.com
          omega
    | append v es =>
      refine ih ?_ h2
      rcases h with h | h
      · exact Or.inl h
      · exact Or.inr (List.mem_append_left _ h)
    | sm c =>
      refine ih ?_ h2
      rcases h with h | h
      · exact Or.inl (Nat.lt_of_lt_of_le h hn)
      · cases c <;> exact Or.inr h
    | _ => exact ih h h2

theorem append (h : Track g cs x) (ho : g.Oks (cs ++ ds)) : Track g (cs ++ ds) x := by
  induction cs generalizing g with
  | nil => exact of h ho
  | cons c cs ih =>
    obtain ⟨_, h2⟩ := ho
    cases c with
    | truncate s =>
      rcases h with h | h
      · exact Or.inl h
      · exact Or.inr (ih h h2)
    | apply a u => exact ⟨h.1, ih h.2 h2⟩
    | _ => exact ih h h2

/-- an entry that is beyond everything the state machine is told to apply -/
theorem later (h : Track (g.runs cs) ds x) (ho : g.Oks cs) (hx : nextIndex (g.runs cs).com ≤ x.id.index) : Track g (cs ++ ds) x := by
  induction cs generalizing g with
  | nil => exact h
  | cons c cs ih =>
    refine cons (ih h ho.2 hx) fun a u hc _ h4 => ?_
    subst hc
    have h5 := (Gh.com_runs ho.2).next
    have h6 : nextIndex (g.run (.apply a u)).com = u.index + 1 := rfl
    have h7 : nextIndex (g.runs (.apply a u :: cs)).com = nextIndex ((g.run (.apply a u)).runs cs).com := rfl
    omega

end Track

theorem Cons.pairwise {L : List LogId} (h : Cons L) : L.Pairwise (fun a b => a.index < b.index) := by
  induction L with
  | nil => exact List.Pairwise.nil
  | cons a r ih => exact List.pairwise_cons.2 ⟨fun b hb => (h.spec b hb).1, ih h.tail⟩

/-- the log has one entry at an index, and none at or below the purged position -/
theorem Gh.Row.unique {g : Gh} (w : g.Row) {x y : Ent} (hx : x ∈ g.store.entries) (hy : y ∈ g.store.entries)
    (hi : x.id.index = y.id.index) : x = y := by
  have h1 := (List.pairwise_append.1 (Cons.pairwise w)).2.1
  have h2 : g.store.entries.Pairwise (fun a b => a.id.index < b.id.index) :=
    (List.pairwise_map (f := fun e : Ent => e.id) (R := fun a b : LogId => a.index < b.index)).1 h1
  by_contra hne
  have h3 : g.store.entries.Pairwise (fun a b => a.id.index ≠ b.id.index) := h2.imp fun h => Nat.ne_of_lt h
  have : Std.Symm (fun a b : Ent => a.id.index ≠ b.id.index) := ⟨fun _ _ h => Ne.symm h⟩
  exact h3.forall hx hy hne hi

theorem Gh.Row.beyond {g : Gh} (w : g.Row) {x : Ent} (hx : x ∈ g.store.entries) : nextIndex g.store.purged ≤ x.id.index := by
  cases hp : g.store.purged with
  | none => exact Nat.zero_le _
  | some p =>
    have h1 := (List.pairwise_append.1 (Cons.pairwise w)).2.2 p (by rw [hp]; simp) x.id (List.mem_map.2 ⟨x, hx, rfl⟩)
    exact h1

end Openraft.Engine

namespace Openraft.Runtime
open Openraft.Engine
open Openraft.Repl (Panic dassert)
open Openraft.Cluster (Payload)

/-- the request of a client that an event hands to the node, with the payload asked for; a membership
change that is not valid has none -/
def asked (n : Node) : Ev → List (Nat × Option Payload)
  | .write _ tx p => if n.idle then [(tx, some p)] else []
  | .change _ tx c r => if n.idle then
      match n.eng.st.ms.effective.mem.change c r with
      | .ok m => [(tx, some (.membership m))]
      | .error _ => [(tx, none)]
    else []
  | _ => []

/-- A run of a node with a record of the requests it got, and of the entries the state machine applied. -/
inductive CRun (dbg : Bool) (n0 : Node) : List (Nat × Option Payload) → List Ent → Node → Prop
  | refl : CRun dbg n0 [] [] n0
  | step {q : List (Nat × Option Payload)} {ap : List Ent} {n n' : Node} (ev : Ev) : CRun dbg n0 q ap n → EvOk n ev → n.step dbg ev = .ok n' →
      CRun dbg n0 (q ++ asked n ev) (ap ++ n'.sm.hist.drop n.sm.hist.length) n'

/-- what is known of a waiting caller -/
structure Wait (g0 : Gh) (q : List (Nat × Option Payload)) (n : Node) (i tx : Nat) (x : Ent) : Prop where
  idx : x.id.index = i
  mem : (tx, some x.payload) ∈ q
  track : Track (g0.runs (n.eng.out.take n.done)) (n.eng.out.drop n.done) x
  smq : ∀ f l, SmCmd.apply f l ∈ n.smq → f.index ≤ i → i ≤ l.index → x ∈ n.rd.entries ∨ i < nextIndex n.rd.purged
  rx : ∀ l es, Note.applied l es ∈ n.rx → ∀ y ∈ es, y.id.index = i → y = x

/-- the invariant -/
structure CInv (g0 : Gh) (q : List (Nat × Option Payload)) (ap : List Ent) (n : Node) : Prop where
  wait : ∀ i tx, (i, tx) ∈ n.clients → ∃ x, Wait g0 q n i tx x
  note : ∀ l es, Note.applied l es ∈ n.rx → ∀ y ∈ es, y.id.index ≤ l.index ∧ y ∈ ap
  said : ∀ tx x, (tx, some x) ∈ n.replies → (tx, some x.payload) ∈ q ∧ x ∈ ap
  once : List.Subperm (n.clients.map (·.2) ++ n.replies.map (·.1)) (q.map (·.1))

namespace CInv
variable {g0 : Gh} {a0 : IOId} {s0 c0 : Option LogId} {P S : List Cmd} {n n' : Node} {dbg : Bool}
variable {q q' : List (Nat × Option Payload)} {ap ap' : List Ent}

theorem _root_.Openraft.Runtime.Wait.more {i tx : Nat} {x : Ent} (h : Wait g0 q n i tx x) (hq : ∀ z ∈ q, z ∈ q') : Wait g0 q' n i tx x :=
  ⟨h.idx, hq _ h.mem, h.track, h.smq, h.rx⟩

/-- a step that leaves clients, answers, log and executed commands alone -/
theorem keep (h : CInv g0 q ap n) (hout : n'.eng.out = n.eng.out) (hdone : n'.done = n.done) (hrd : n'.rd = n.rd)
    (hcl : n'.clients = n.clients) (hre : n'.replies = n.replies)
    (hsm : ∀ f l, SmCmd.apply f l ∈ n'.smq → SmCmd.apply f l ∈ n.smq)
    (hrx : ∀ l es, Note.applied l es ∈ n'.rx → Note.applied l es ∈ n.rx) : CInv g0 q ap n' := by
  refine ⟨?_, fun l es hm => h.note l es (hrx l es hm), by rw [hre]; exact h.said, by rw [hcl, hre]; exact h.once⟩
  intro i tx hm
  rw [hcl] at hm
  obtain ⟨x, hx⟩ := h.wait i tx hm
  refine ⟨x, hx.idx, hx.mem, ?_, ?_, fun l es hm => hx.rx l es (hrx l es hm)⟩
  · rw [hout, hdone]; exact hx.track
  · intro f l hm; rw [hrd]; exact hx.smq f l (hsm f l hm)

/-- the engine handles something -/
theorem engine {e : Eng} (h : CInv g0 q ap n) (hd : n.done ≤ n.eng.out.length) (ho : g0.Oks e.out) (hg : n.eng.out <+: e.out) :
    CInv g0 q ap { n with eng := e } := by
  obtain ⟨ds, hds⟩ := hg
  refine ⟨?_, h.note, h.said, h.once⟩
  intro i tx hm
  obtain ⟨x, hx⟩ := h.wait i tx hm
  refine ⟨x, hx.idx, hx.mem, ?_, hx.smq, hx.rx⟩
  show Track (g0.runs (e.out.take n.done)) (e.out.drop n.done) x
  rw [← hds, List.take_append_of_le_length hd, List.drop_append_of_le_length hd]
  refine hx.track.append ?_
  rw [← hds] at ho
  have h1 : n.eng.out ++ ds = n.eng.out.take n.done ++ (n.eng.out.drop n.done ++ ds) := by
    rw [← List.append_assoc, List.take_append_drop]
  rw [h1, Gh.oks_append] at ho
  exact ho.2

/-- a write is accepted -/
theorem accept {e : Eng} {i tx : Nat} {p : Payload} (h : CInv g0 q ap n) (hr : RInv g0 a0 s0 c0 P S n) (he : EInv g0 e)
    (hw : n.eng.writeEntry dbg p = .ok (some i, e)) :
    CInv g0 (q ++ [(tx, some p)]) ap (Node.register { n with eng := e } tx (some i)) := by
  obtain ⟨v, x, cs, h1, h2, h3⟩ := Eng.writeEntry_shape he hw
  have hk := h.engine hr.done he.lm.oks (by rw [h1]; exact List.prefix_append _ _)
  have ho := he.lm.oks
  rw [h1, Gh.oks_append] at ho
  obtain ⟨ho1, ho2, ho3⟩ := ho
  obtain ⟨_, _, hidx, _, hanch⟩ := ho2
  have hidx := hidx x rfl
  have hrow := hr.z.row.runs ho1
  have hcom : nextIndex (g0.runs n.eng.out).com ≤ x.id.index := by
    rw [hidx]
    cases hc : (g0.runs n.eng.out).com with
    | none => exact Nat.zero_le _
    | some c =>
      have : c.index < nextIndex (g0.runs n.eng.out).store.lastLogId := by
        refine hrow.le_last ?_
        rcases hanch c hc with h4 | h4
        · exact List.mem_append_right _ h4
        · exact List.mem_append_left _ (by rw [h4]; simp)
      exact this
  have hcomP : nextIndex (g0.runs (P ++ S)).com ≤ x.id.index := by
    refine Nat.le_trans ?_ hcom
    have h4 := ho1
    rw [hr.rest, Gh.oks_append] at h4
    have h5 := (Gh.com_runs h4.2).next
    rw [hr.rest, Gh.runs_append _ (P ++ S)]
    exact h5
  refine ⟨?_, hk.note, fun tx' y hy => ?_, ?_⟩
  · intro j tx' hm
    rcases BMap.mem_insert hm with hm | hm
    · cases hm
      refine ⟨x, h3, ?_, ?_, ?_, ?_⟩
      · rw [h2]; simp
      · show Track (g0.runs (e.out.take n.done)) (e.out.drop n.done) x
        rw [h1, List.take_append_of_le_length hr.done, List.drop_append_of_le_length hr.done]
        have h4 := ho1
        rw [← List.take_append_drop n.done n.eng.out, Gh.oks_append] at h4
        have h5 : (g0.runs (n.eng.out.take n.done)).runs (n.eng.out.drop n.done) = g0.runs n.eng.out := by
          rw [← Gh.runs_append, List.take_append_drop]
        refine Track.later ?_ h4.2 (by rw [h5]; exact hcom)
        rw [h5]
        refine Track.cons (Track.of (Or.inr ?_) ho3) fun a u hc => by cases hc
        exact List.mem_append_right _ (by simp)
      · intro f l hm _ h7
        exfalso
        have : ComVal g0 (P ++ S) (some l) := by
          have hch := hr.s.chain
          obtain ⟨a, b, hab⟩ := List.append_of_mem (show SmCmd.apply f l ∈ n.smq from hm)
          rw [hab, SmOk.append] at hch
          obtain ⟨q, _, hq⟩ := hch
          exact hq.2.2.2.1
        have h8 := (this.le hr.oks).next
        have h9 : nextIndex (some l) = l.index + 1 := rfl
        omega
      · intro l es hm y hy hyi
        exfalso
        have h8 := ((hr.s.appl l es hm).1.le hr.oks).next
        have h9 : nextIndex (some l) = l.index + 1 := rfl
        have h10 := (h.note l es hm y hy).1
        omega
    · obtain ⟨y, hy⟩ := hk.wait j tx' hm
      exact ⟨y, hy.idx, List.mem_append_left _ hy.mem, hy.track, hy.smq, hy.rx⟩
  · obtain ⟨h4, h5⟩ := hk.said tx' y hy
    exact ⟨List.mem_append_left _ h4, h5⟩
  · show List.Subperm ((BMap.insert i tx n.clients).map (·.2) ++ n.replies.map (·.1)) _
    rw [List.map_append]
    refine List.Subperm.trans ?_ (List.perm_append_comm.subperm)
    exact (List.Subperm.append BMap.values_insert (List.Subperm.refl _)).trans ((List.subperm_cons tx).2 h.once)

/-- a write is refused -/
theorem refuse {tx : Nat} {o : Option Payload} (h : CInv g0 q ap n) : CInv g0 (q ++ [(tx, o)]) ap (n.register tx none) := by
  refine ⟨?_, h.note, fun tx' y hy => ?_, ?_⟩
  · intro j tx' hm
    obtain ⟨y, hy⟩ := h.wait j tx' hm
    exact ⟨y, hy.idx, List.mem_append_left _ hy.mem, hy.track, hy.smq, hy.rx⟩
  · rcases List.mem_append.1 (show (tx', some y) ∈ n.replies ++ [(tx, none)] from hy) with hy | hy
    · obtain ⟨h4, h5⟩ := h.said tx' y hy
      exact ⟨List.mem_append_left _ h4, h5⟩
    · simp at hy
  · show List.Subperm (n.clients.map (·.2) ++ (n.replies ++ [(tx, (none : Option Ent))]).map (·.1)) _
    rw [List.map_append, List.map_append, ← List.append_assoc]
    exact h.once.append (List.Subperm.refl _)

/-- answers to applied entries -/
theorem answer (es : List Ent) (h : CInv g0 q ap n)
    (he : ∀ y ∈ es, y ∈ ap ∧ ∀ i tx, (i, tx) ∈ n.clients → y.id.index = i → (tx, some y.payload) ∈ q) : CInv g0 q ap (n.answer es) := by
  induction es generalizing n with
  | nil => exact h
  | cons x es ih =>
    unfold Node.answer
    cases hg : BMap.get n.clients x.id.index with
    | none => exact ih h fun y hy => he y (List.mem_cons_of_mem _ hy)
    | some tx =>
      have hm := BMap.get_mem hg
      have hx := he x (List.mem_cons_self ..)
      have hsub : ∀ c, c ∈ BMap.remove n.clients x.id.index → c ∈ n.clients := fun c hc => (List.mem_filter.1 hc).1
      refine ih ⟨?_, h.note, ?_, ?_⟩ fun y hy => ⟨(he y (List.mem_cons_of_mem _ hy)).1, fun i tx' hm' =>
        (he y (List.mem_cons_of_mem _ hy)).2 i tx' (hsub _ hm')⟩
      · intro i tx' hm'
        obtain ⟨y, hy⟩ := h.wait i tx' (hsub _ hm')
        exact ⟨y, hy.idx, hy.mem, hy.track, hy.smq, hy.rx⟩
      · intro tx' y hy
        rcases List.mem_append.1 hy with hy | hy
        · exact h.said tx' y hy
        · simp only [List.mem_singleton, Prod.mk.injEq, Option.some.injEq] at hy
          obtain ⟨rfl, rfl⟩ := hy
          exact ⟨hx.2 _ _ hm rfl, hx.1⟩
      · refine List.Subperm.trans ?_ h.once
        show List.Subperm ((BMap.remove n.clients x.id.index).map (·.2) ++ (n.replies ++ [(tx, some x)]).map (·.1)) _
        have h1 : List.Subperm ((x.id.index, tx) :: BMap.remove n.clients x.id.index) n.clients := by
          obtain ⟨a, b, hab⟩ := List.append_of_mem hm
          rw [hab]
          refine List.Subperm.trans ((List.subperm_cons _).2 ?_) List.perm_middle.symm.subperm
          unfold BMap.remove
          rw [List.filter_append, List.filter_cons]
          rw [if_neg (by simp)]
          exact List.Subperm.append (List.filter_sublist).subperm (List.filter_sublist).subperm
        have h2 : List.Subperm (((x.id.index, tx) :: BMap.remove n.clients x.id.index).map (·.2)) (n.clients.map (·.2)) := by
          obtain ⟨l, hp, hs⟩ := h1
          exact ⟨l.map (·.2), hp.map _, hs.map _⟩
        rw [List.map_append, ← List.append_assoc]
        refine (List.perm_append_comm.subperm).trans ?_
        exact h2.append (List.Subperm.refl _)

/-- an executed command leaves clients, answers and notifications of applied entries alone -/
theorem exec_keep {c : Cmd} {n1 : Node} (hr : n.exec dbg c = .ok n1) :
    n1.eng.out = n.eng.out ∧ n1.done = n.done ∧ n1.sm = n.sm ∧
    (∀ l es, Note.applied l es ∈ n1.rx → Note.applied l es ∈ n.rx) ∧
    (∀ f l, SmCmd.apply f l ∈ n1.smq → SmCmd.apply f l ∈ n.smq ∨ ∃ a, c = .apply a l ∧ n.eng.st.getLogId (nextIndex a) = some f ∨ c = .sm (.apply f l)) ∧
    ((∃ s, c = .truncate s ∧ n1.clients = n.clients.filter (fun c => decide (c.1 < s.index)) ∧
      n1.replies = n.replies ++ (n.clients.filter fun c => decide (s.index ≤ c.1)).map fun c => (c.2, none)) ∨
     (∀ s, c ≠ .truncate s) ∧ n1.clients = n.clients ∧ n1.replies = n.replies) := by
  have base : ∀ n1 : Node, n1.eng.out = n.eng.out → n1.done = n.done → n1.sm = n.sm →
      (∀ l es, Note.applied l es ∈ n1.rx → Note.applied l es ∈ n.rx) → n1.smq = n.smq → (∀ s, c ≠ .truncate s) →
      n1.clients = n.clients → n1.replies = n.replies → _ :=
    fun n1 h1 h2 h3 h4 h5 h6 h7 h8 => (⟨h1, h2, h3, h4, fun f l h => Or.inl (by rw [← h5]; exact h), Or.inr ⟨h6, h7, h8⟩⟩ :
      n1.eng.out = n.eng.out ∧ n1.done = n.done ∧ n1.sm = n.sm ∧
      (∀ l es, Note.applied l es ∈ n1.rx → Note.applied l es ∈ n.rx) ∧
      (∀ f l, SmCmd.apply f l ∈ n1.smq → SmCmd.apply f l ∈ n.smq ∨ ∃ a, c = .apply a l ∧ n.eng.st.getLogId (nextIndex a) = some f ∨ c = .sm (.apply f l)) ∧
      ((∃ s, c = .truncate s ∧ n1.clients = n.clients.filter (fun c => decide (c.1 < s.index)) ∧
        n1.replies = n.replies ++ (n.clients.filter fun c => decide (s.index ≤ c.1)).map fun c => (c.2, none)) ∨
       (∀ s, c ≠ .truncate s) ∧ n1.clients = n.clients ∧ n1.replies = n.replies))
  cases c with
  | updateIO w io =>
    simp only [Node.exec, out_bind, out_pure] at hr
    obtain ⟨n2, h1, hr⟩ := hr
    rw [submit_ok h1] at hr; subst hr
    exact base _ rfl rfl rfl (fun l es hm => by simpa using hm) rfl (by simp) rfl rfl
  | append v es =>
    simp only [Node.exec, out_bind, out_pure, lift_ok, unwrap_ok] at hr
    obtain ⟨l, hl, n2, h1, hr⟩ := hr
    rw [submit_ok h1] at hr; subst hr
    exact base _ rfl rfl rfl (fun l es hm => hm) rfl (by simp) rfl rfl
  | saveVote v =>
    simp only [Node.exec, out_bind, out_pure] at hr
    obtain ⟨n2, h1, hr⟩ := hr
    rw [submit_ok h1] at hr; subst hr
    refine base _ rfl rfl rfl (fun l es hm => ?_) rfl (by simp) rfl rfl
    simp only [Node.saveVote, List.mem_append, List.mem_flatMap, List.mem_cons] at hm
    rcases hm with (hm | ⟨op, _, hm⟩) | hm | hm | hm
    · exact hm
    · cases op <;> simp [DiskOp.note] at hm
    · cases hm
    · cases hm
    · cases hm
  | purge u =>
    simp only [Node.exec, out_pure] at hr; subst hr
    exact base _ rfl rfl rfl (fun l es hm => hm) rfl (by simp) rfl rfl
  | truncate s =>
    simp only [Node.exec, out_pure] at hr; subst hr
    exact ⟨rfl, rfl, rfl, fun l es hm => hm, fun f l h => Or.inl h, Or.inl ⟨s, rfl, rfl, rfl⟩⟩
  | saveCommitted s =>
    simp only [Node.exec, out_pure] at hr; subst hr
    exact base _ rfl rfl rfl (fun l es hm => hm) rfl (by simp) rfl rfl
  | sendVote v l =>
    simp only [Node.exec, out_bind, out_pure] at hr
    obtain ⟨_, _, hr⟩ := hr; subst hr
    exact base _ rfl rfl rfl (fun l es hm => hm) rfl (by simp) rfl rfl
  | transfer v t l =>
    simp only [Node.exec, out_bind, out_pure] at hr
    obtain ⟨_, _, hr⟩ := hr; subst hr
    exact base _ rfl rfl rfl (fun l es hm => hm) rfl (by simp) rfl rfl
  | replCommitted s =>
    simp only [Node.exec, out_pure] at hr; subst hr
    exact base _ rfl rfl rfl (fun l es hm => hm) rfl (by simp) rfl rfl
  | heartbeat a b c =>
    simp only [Node.exec, out_pure] at hr; subst hr
    exact base _ rfl rfl rfl (fun l es hm => hm) rfl (by simp) rfl rfl
  | apply a u =>
    simp only [Node.exec, out_bind, out_pure, lift_ok, unwrap_ok] at hr
    obtain ⟨first, hfi, _, _, hr⟩ := hr; subst hr
    refine ⟨rfl, rfl, rfl, fun l es hm => hm, fun f l h => ?_, Or.inr ⟨by simp, rfl, rfl⟩⟩
    rcases List.mem_append.1 h with h | h
    · exact Or.inl h
    · simp only [List.mem_singleton, SmCmd.apply.injEq] at h
      obtain ⟨rfl, rfl⟩ := h
      exact Or.inr ⟨a, Or.inl ⟨rfl, hfi⟩⟩
  | replicate t r =>
    simp only [Node.exec] at hr
    split at hr
    · rw [out_pure] at hr; subst hr
      exact base _ rfl rfl rfl (fun l es hm => hm) rfl (by simp) rfl rfl
    · cases hr
  | rebuild ts =>
    simp only [Node.exec, Node.rebuild, out_bind] at hr
    obtain ⟨_, _, hr⟩ := hr
    split at hr
    · rw [out_pure] at hr; subst hr
      exact base _ rfl rfl rfl (fun l es hm => hm) rfl (by simp) rfl rfl
    · cases hr
  | sm c =>
    cases c with
    | install m io =>
      simp only [Node.exec, out_bind, out_pure] at hr
      obtain ⟨n2, h1, hr⟩ := hr
      rw [submit_ok h1] at hr; subst hr
      exact ⟨rfl, rfl, rfl, fun l es hm => hm, fun f l h => Or.inl (by simpa using h), Or.inr ⟨by simp, rfl, rfl⟩⟩
    | build =>
      simp only [Node.exec, out_pure] at hr; subst hr
      exact ⟨rfl, rfl, rfl, fun l es hm => hm, fun f l h => Or.inl (by simpa using h), Or.inr ⟨by simp, rfl, rfl⟩⟩
    | apply a b =>
      simp only [Node.exec, out_pure] at hr; subst hr
      refine ⟨rfl, rfl, rfl, fun l es hm => hm, fun f l h => ?_, Or.inr ⟨by simp, rfl, rfl⟩⟩
      rcases List.mem_append.1 h with h | h
      · exact Or.inl h
      · simp only [List.mem_singleton, SmCmd.apply.injEq] at h
        obtain ⟨rfl, rfl⟩ := h
        exact Or.inr ⟨none, Or.inr rfl⟩
  | respond w tx r =>
    simp only [Node.exec, out_pure] at hr; subst hr
    exact base _ rfl rfl rfl (fun l es hm => hm) rfl (by simp) rfl rfl

/-- a command is executed -/
theorem exec {c : Cmd} {n1 : Node} (h : CInv g0 q ap n) (hi : RInv g0 a0 s0 c0 P S n) (hc : n.head = some c) (hrd : n.ready c = true)
    (hr : n.exec dbg c = .ok n1) : CInv g0 q ap { n1 with done := n1.done + 1 } := by
  obtain ⟨P', S', hi', hP, _⟩ := hi.exec hc hrd hr
  obtain ⟨k1, k2, _, k4⟩ := hi.head hc
  obtain ⟨h1, h2, h3, h4, h5, h6⟩ := exec_keep hr
  have hdrop : n.eng.out.drop n.done = c :: n.eng.out.drop (n.done + 1) := by
    unfold Node.head at hc
    obtain ⟨hlt, hget⟩ := List.getElem?_eq_some_iff.1 hc
    rw [List.drop_eq_getElem_cons hlt, hget]
  have hG : g0.runs (n.eng.out.take (n.done + 1)) = (g0.runs (n.eng.out.take n.done)).run c := by
    rw [hi.head hc |>.2.2.1, hi.split, Gh.runs_snoc]
  have hrd1 : n1.rd = ((g0.runs (P ++ S)).run c).store := by
    have : n1.rd = (g0.runs (P' ++ S')).store := hi'.d.rd
    rw [this, hP, Gh.runs_snoc]
  have hrd0 := hi.d.rd
  have hsub : ∀ i tx, (i, tx) ∈ n1.clients → (i, tx) ∈ n.clients ∧ ∀ s, c = .truncate s → i < s.index := by
    intro i tx hm
    rcases h6 with ⟨s, hs, h7, _⟩ | ⟨hn, h7, _⟩
    · rw [h7] at hm
      obtain ⟨ha, hb⟩ := List.mem_filter.1 hm
      exact ⟨ha, fun s' hs' => by rw [hs] at hs'; cases hs'; simpa using hb⟩
    · rw [h7] at hm
      exact ⟨hm, fun s hs => absurd hs (hn s)⟩
  refine ⟨?_, fun l es hm => h.note l es (h4 l es hm), ?_, ?_⟩
  · intro i tx hm
    obtain ⟨hm, htr⟩ := hsub i tx hm
    obtain ⟨x, hx⟩ := h.wait i tx hm
    have hx1 := hx.track
    rw [hdrop] at hx1
    refine ⟨x, hx.idx, hx.mem, ?_, ?_, fun l es hm => hx.rx l es (h4 l es hm)⟩
    · show Track (g0.runs (n1.eng.out.take (n1.done + 1))) (n1.eng.out.drop (n1.done + 1)) x
      rw [h1, h2, hG]
      exact hx1.tail fun s hs => by rw [hx.idx]; exact htr s hs
    · intro f l hm hf hl
      have hold : x ∈ n.rd.entries ∨ i < nextIndex n.rd.purged := by
        rcases h5 f l hm with h7 | ⟨a, ⟨h7, h8⟩ | h7⟩
        · exact hx.smq f l h7 hf hl
        · subst h7
          left
          rw [hrd0, ← hi.split]
          refine hx1.1 ?_ (by rw [hx.idx]; exact hl)
          have := ((Eng.getLogId_iff hi.flow.inv.lm).1 h8).2
          rw [hx.idx]; omega
        · subst h7; exact k2.elim
      show x ∈ n1.rd.entries ∨ i < nextIndex n1.rd.purged
      rw [hrd1]
      rw [hrd0] at hold
      cases c with
      | append v es =>
        rcases hold with h7 | h7
        · exact Or.inl (List.mem_append_left _ h7)
        · exact Or.inr h7
      | truncate s =>
        rcases hold with h7 | h7
        · exact Or.inl (List.mem_filter.2 ⟨h7, by rw [hx.idx]; simpa using htr s rfl⟩)
        · exact Or.inr h7
      | purge u =>
        have h8 := k1.1
        rcases hold with h7 | h7
        · by_cases hu : u.index < i
          · exact Or.inl (List.mem_filter.2 ⟨h7, by rw [hx.idx]; simpa using hu⟩)
          · right; show i < u.index + 1; omega
        · right; show i < u.index + 1; omega
      | sm c => cases c <;> exact hold
      | _ => exact hold
  · intro tx x hx
    rcases h6 with ⟨s, hs, _, h7⟩ | ⟨hn, _, h7⟩
    · have hx : (tx, some x) ∈ n1.replies := hx
      rw [h7] at hx
      rcases List.mem_append.1 hx with hx | hx
      · exact h.said tx x hx
      · simp at hx
    · have hx : (tx, some x) ∈ n1.replies := hx
      rw [h7] at hx
      exact h.said tx x hx
  · show List.Subperm (n1.clients.map (·.2) ++ n1.replies.map (·.1)) _
    rcases h6 with ⟨s, hs, h7, h8⟩ | ⟨hn, h7, h8⟩
    · rw [h7, h8]
      refine List.Subperm.trans ?_ h.once
      rw [List.map_append, List.map_map]
      refine List.Subperm.trans (List.Perm.subperm ?_) (List.Subperm.append (l₁ := n.clients.map (·.2)) (List.Subperm.refl _) (List.Subperm.refl _))
      have h9 : List.Perm (n.clients.filter (fun c => decide (c.1 < s.index)) ++ n.clients.filter (fun c => decide (s.index ≤ c.1))) n.clients := by
        have := List.filter_append_perm (fun c : Nat × Nat => decide (c.1 < s.index)) n.clients
        refine List.Perm.trans (List.Perm.of_eq ?_) this
        congr 2
        funext c
        by_cases hcc : c.1 < s.index <;> simp [hcc] <;> omega
      have h10 := h9.map (fun c : Nat × Nat => c.2)
      rw [List.map_append] at h10
      refine List.Perm.trans ?_ (h10.append_right (n.replies.map (·.1)))
      rw [List.append_assoc]
      refine List.Perm.append_left _ ?_
      exact List.perm_append_comm
    · rw [h7, h8]; exact h.once

/-- the state machine worker handles a command -/
theorem smStep (h : CInv g0 q ap n) (hi : RInv g0 a0 s0 c0 P S n) (hr : n.smStep = .ok n') :
    CInv g0 q (ap ++ n'.sm.hist.drop n.sm.hist.length) n' := by
  have hap : ∀ ap', CInv g0 q ap' n' → (∀ z ∈ ap', z ∈ ap ++ n'.sm.hist.drop n.sm.hist.length) →
      CInv g0 q (ap ++ n'.sm.hist.drop n.sm.hist.length) n' := fun ap' k hs =>
    ⟨k.wait, fun l es hm y hy => ⟨(k.note l es hm y hy).1, hs _ (k.note l es hm y hy).2⟩,
      fun tx x hx => ⟨(k.said tx x hx).1, hs _ (k.said tx x hx).2⟩, k.once⟩
  unfold Node.smStep at hr
  cases hq : n.smq with
  | nil =>
    rw [hq] at hr; simp only [out_pure] at hr; subst hr
    exact hap ap h fun z hz => List.mem_append_left _ hz
  | cons c cs =>
    rw [hq] at hr
    cases c with
    | install m io =>
      simp only [out_pure] at hr; subst hr
      refine hap ap (h.keep rfl rfl rfl rfl rfl (fun f l hm => ?_) fun l es hm => by simpa using hm) fun z hz => List.mem_append_left _ hz
      rw [hq]; exact List.mem_cons_of_mem _ hm
    | build =>
      simp only [out_pure] at hr; subst hr
      refine hap ap (h.keep rfl rfl rfl rfl rfl (fun f l hm => ?_) fun l es hm => hm) fun z hz => List.mem_append_left _ hz
      rw [hq]; exact List.mem_cons_of_mem _ hm
    | apply f l =>
      simp only at hr
      split at hr
      swap
      · cases hr
      rw [out_pure] at hr; subst hr
      obtain ⟨es, hes⟩ : ∃ es, es = n.rd.read f.index (l.index + 1) := ⟨_, rfl⟩
      rw [← hes]
      have hdrop : (n.sm.hist ++ es).drop n.sm.hist.length = es := by simp
      show CInv g0 q (ap ++ (n.sm.hist ++ es).drop n.sm.hist.length) _
      rw [hdrop]
      have hread : ∀ y ∈ es, y ∈ n.rd.entries ∧ f.index ≤ y.id.index ∧ y.id.index ≤ l.index := by
        intro y hy
        rw [hes] at hy
        obtain ⟨ha, hb⟩ := List.mem_filter.1 hy
        simp only [Bool.and_eq_true, decide_eq_true_eq] at hb
        exact ⟨ha, hb.1, by omega⟩
      have hrow := hi.z.row.runs hi.oks
      have hrd := hi.d.rd
      refine ⟨?_, ?_, ?_, h.once⟩
      · intro i tx hm
        obtain ⟨x, hx⟩ := h.wait i tx hm
        refine ⟨x, hx.idx, hx.mem, hx.track, fun f' l' hm => hx.smq f' l' (by rw [hq]; exact List.mem_cons_of_mem _ hm), ?_⟩
        intro l' es' hm' y hy hyi
        rcases List.mem_append.1 hm' with hm' | hm'
        · exact hx.rx l' es' hm' y hy hyi
        · simp only [List.mem_singleton, Note.applied.injEq] at hm'
          obtain ⟨rfl, rfl⟩ := hm'
          obtain ⟨h1, h2, h3⟩ := hread y hy
          rw [hrd] at h1
          rcases hx.smq f l' (by rw [hq]; exact List.mem_cons_self ..) (by omega) (by omega) with h4 | h4
          · rw [hrd] at h4
            exact hrow.unique h1 h4 (by rw [hyi, hx.idx])
          · rw [hrd] at h4
            have := hrow.beyond h1
            omega
      · intro l' es' hm' y hy
        rcases List.mem_append.1 hm' with hm' | hm'
        · obtain ⟨h1, h2⟩ := h.note l' es' hm' y hy
          exact ⟨h1, List.mem_append_left _ h2⟩
        · simp only [List.mem_singleton, Note.applied.injEq] at hm'
          obtain ⟨rfl, rfl⟩ := hm'
          exact ⟨(hread y hy).2.2, List.mem_append_right _ hy⟩
      · intro tx x hx
        obtain ⟨h1, h2⟩ := h.said tx x hx
        exact ⟨h1, List.mem_append_left _ h2⟩

theorem answer_eng (es : List Ent) (n : Node) : (n.answer es).eng = n.eng ∧ (n.answer es).sm = n.sm := by
  induction es generalizing n with
  | nil => exact ⟨rfl, rfl⟩
  | cons x es ih =>
    unfold Node.answer
    cases BMap.get n.clients x.id.index with
    | none => exact ih n
    | some tx => exact ih _

/-- one step -/
theorem step {ev : Ev} (h : CInv g0 q ap n) (hi : RInv g0 a0 s0 c0 P S n) (ho : EvOk n ev) (hr : n.step dbg ev = .ok n') :
    CInv g0 (q ++ asked n ev) (ap ++ n'.sm.hist.drop n.sm.hist.length) n' := by
  obtain ⟨P', S', hi', _, _⟩ := hi.step ho hr
  have hoks := hi'.flow.oks
  have stay : n'.sm.hist = n.sm.hist → CInv g0 q ap n' → asked n ev = [] →
      CInv g0 (q ++ asked n ev) (ap ++ n'.sm.hist.drop n.sm.hist.length) n' := by
    intro h1 h2 h3
    rw [h1, h3, List.drop_length, List.append_nil, List.append_nil]; exact h2
  have stay' : n'.sm.hist = n.sm.hist → CInv g0 (q ++ asked n ev) ap n' →
      CInv g0 (q ++ asked n ev) (ap ++ n'.sm.hist.drop n.sm.hist.length) n' := by
    intro h1 h2
    rw [h1, List.drop_length, List.append_nil]; exact h2
  cases ev with
  | msg now i =>
    simp only [Node.step] at hr
    split at hr
    · simp only [out_bind, lift_ok, out_pure] at hr
      obtain ⟨e, he, hr⟩ := hr
      subst hr
      exact stay rfl (h.engine hi.done hoks (Eng.grow_input _ _ _ he).2) rfl
    · rw [out_pure] at hr; subst hr; exact stay rfl h rfl
  | write now tx p =>
    simp only [Node.step] at hr
    split at hr
    · next hid =>
      simp only [out_bind, lift_ok, out_pure] at hr
      obtain ⟨⟨i, e⟩, he, hr⟩ := hr
      subst hr
      have hq : asked n (.write now tx p) = [(tx, some p)] := if_pos hid
      cases i with
      | none =>
        refine stay' rfl ?_
        rw [hq, Eng.writeEntry_none he]
        exact h.refuse
      | some i =>
        refine stay' rfl ?_
        rw [hq]
        exact h.accept hi hi'.flow.inv he
    · next hid =>
      rw [out_pure] at hr; subst hr; exact stay rfl h (if_neg hid)
  | change now tx c r =>
    simp only [Node.step] at hr
    split at hr
    · next hid =>
      simp only [out_bind, lift_ok, out_pure] at hr
      obtain ⟨⟨i, e⟩, he, hr⟩ := hr
      subst hr
      refine stay' (by cases i <;> rfl) ?_
      unfold Eng.changeMembership Eng.changeApply at he
      have hq : asked n (.change now tx c r) = match n.eng.st.ms.effective.mem.change c r with
        | .ok m => [(tx, some (.membership m))]
        | .error _ => [(tx, none)] := if_pos hid
      obtain ⟨o, ho⟩ : ∃ o, asked n (.change now tx c r) = [(tx, o)] := by
        rw [hq]; split
        · exact ⟨_, rfl⟩
        · exact ⟨_, rfl⟩
      have hno : (Pure.pure (none, n.eng) : Res (Option Nat × Eng)) = .ok (i, e) →
          CInv g0 (q ++ asked n (.change now tx c r)) ap (Node.register { n with eng := e } tx i) := by
        intro hx
        rw [pure_ok] at hx; cases hx
        rw [ho]; exact h.refuse
      by_cases hcm : n.eng.st.ms.effective.logId = n.eng.st.ms.committed.logId
      · rw [if_pos hcm] at he
        cases hch : n.eng.st.ms.effective.mem.change c r with
        | error x => rw [hch] at he; exact hno he
        | ok m =>
          rw [hch] at he hq
          simp only at he hq
          rw [hq]
          cases i with
          | none => rw [Eng.writeEntry_none he]; exact h.refuse
          | some i => exact h.accept hi hi'.flow.inv he
      · rw [if_neg hcm] at he; exact hno he
    · next hid =>
      rw [out_pure] at hr; subst hr; exact stay rfl h (if_neg hid)
  | note now =>
    simp only [Node.step] at hr
    split at hr
    swap
    · rw [out_pure] at hr; subst hr; exact stay rfl h rfl
    cases hx : n.rx with
    | nil => rw [hx] at hr; simp only [out_pure] at hr; subst hr; exact stay rfl h rfl
    | cons x xs =>
      rw [hx] at hr
      have hpop : CInv g0 q ap { n with rx := xs } :=
        h.keep rfl rfl rfl rfl rfl (fun f l hm => hm) fun l es hm => by rw [hx]; exact List.mem_cons_of_mem _ hm
      cases x with
      | localIO io =>
        simp only [Node.handle, out_bind, lift_ok, out_pure] at hr
        obtain ⟨e, he, hr⟩ := hr; subst hr
        exact stay rfl (hpop.engine hi.done hoks (Eng.grow_input _ _ _ he).2) rfl
      | selfVote v =>
        simp only [Node.handle, out_bind, lift_ok, out_pure] at hr
        obtain ⟨e, he, hr⟩ := hr; subst hr
        exact stay rfl (hpop.engine hi.done hoks (Eng.grow_input _ _ _ he).2) rfl
      | built m =>
        simp only [Node.handle, out_bind, lift_ok, out_pure] at hr
        obtain ⟨e, he, hr⟩ := hr; subst hr
        exact stay rfl (hpop.engine hi.done hoks (Eng.grow_input _ _ _ he).2) rfl
      | installed io m =>
        simp only [Node.handle, out_bind, lift_ok, out_pure] at hr
        obtain ⟨e, he, hr⟩ := hr; subst hr
        exact stay rfl (hpop.engine hi.done hoks (Eng.grow_input _ _ _ he).2) rfl
      | applied last es =>
        simp only [Node.handle, out_bind, lift_ok, out_pure] at hr
        obtain ⟨e, he, hr⟩ := hr
        have hoks' : g0.Oks e.out := by
          rw [← hr, (answer_eng es _).1] at hoks; exact hoks
        refine stay (by rw [← hr, (answer_eng es _).2]) ?_ rfl
        rw [← hr]
        refine (hpop.engine hi.done hoks' (Eng.grow_input _ _ _ he).2).answer es fun y hy => ?_
        have hm : Note.applied last es ∈ n.rx := by rw [hx]; exact List.mem_cons_self ..
        refine ⟨(h.note last es hm y hy).2, fun i tx hc hyi => ?_⟩
        obtain ⟨z, hz⟩ := h.wait i tx hc
        rw [hz.rx last es hm y hy hyi]
        exact hz.mem
  | run =>
    simp only [Node.step] at hr
    unfold Node.run1 at hr
    cases hc : n.head with
    | none => rw [hc] at hr; simp only [out_pure] at hr; subst hr; exact stay rfl h rfl
    | some c =>
      rw [hc] at hr
      simp only at hr
      split at hr
      · next hrd =>
        simp only [out_bind, out_pure] at hr
        obtain ⟨n1, h1, hr⟩ := hr
        subst hr
        refine stay ?_ (h.exec hi hc hrd h1) rfl
        show n1.sm.hist = _
        rw [(exec_keep h1).2.2.1]
      · rw [out_pure] at hr; subst hr; exact stay rfl h rfl
  | flush =>
    simp only [Node.step, out_pure] at hr
    unfold Node.flush1 at hr
    cases hp : n.pend with
    | nil => rw [hp] at hr; simp only at hr; subst hr; exact stay rfl h rfl
    | cons op ops =>
      rw [hp] at hr; simp only at hr; subst hr
      refine stay rfl (h.keep rfl rfl rfl rfl rfl (fun f l hm => hm) fun l es hm => ?_) rfl
      cases op <;> simpa [DiskOp.note] using hm
  | sm =>
    have := h.smStep hi hr
    show CInv g0 (q ++ []) _ _
    rw [List.append_nil]; exact this
  | build k =>
    simp only [Node.step, out_pure] at hr
    unfold Node.buildDone at hr
    cases hb : n.builds[k]? with
    | none => rw [hb] at hr; simp only at hr; subst hr; exact stay rfl h rfl
    | some m =>
      rw [hb] at hr; simp only at hr; subst hr
      refine stay rfl (h.keep rfl rfl rfl rfl rfl (fun f l hm => hm) fun l es hm => ?_) rfl
      simpa using hm

end CInv

/-- A node that has just started: no client waits, nothing was answered, nothing is to be handled. -/
structure Born (n : Node) : Prop where
  clients : n.clients = []
  replies : n.replies = []
  rx : n.rx = []

theorem CRun.inv {dbg : Bool} {cfg : Cfg} {old : List Resp} {n0 n : Node} {q : List (Nat × Option Payload)} {ap : List Ent}
    (hl : Life dbg cfg old n0) (hs : Born n0) (hr : CRun dbg n0 q ap n) :
    ∃ g0 a0 s0 c0 P S, RInv g0 a0 s0 c0 P S n ∧ CInv g0 q ap n := by
  induction hr with
  | refl =>
    obtain ⟨⟨g0, a0, s0, c0, P, S, hi⟩, _⟩ := hl.inv
    refine ⟨g0, a0, s0, c0, P, S, hi, ?_, ?_, ?_, ?_⟩
    · intro i tx hm; rw [hs.clients] at hm; cases hm
    · intro l es hm; rw [hs.rx] at hm; cases hm
    · intro tx x hm; rw [hs.replies] at hm; cases hm
    · rw [hs.clients, hs.replies]; exact List.Subperm.refl _
  | step ev _ ho hst ih =>
    obtain ⟨g0, a0, s0, c0, P, S, hi, hc⟩ := ih
    obtain ⟨P', S', hi', _⟩ := hi.step ho hst
    exact ⟨g0, a0, s0, c0, P', S', hi', hc.step hi ho hst⟩

theorem Born.fresh (cfg : Cfg) (now : Nat) (persist : Bool) : Born (Node.fresh cfg now persist) := ⟨rfl, rfl, rfl⟩

theorem Born.restart {dbg : Bool} {now : Nat} {cfg : Cfg} {d : Disk} {s : Sm} {n : Node} (hr : restart dbg now cfg d s = .ok n) : Born n := by
  unfold Runtime.restart at hr
  simp only [bind, Except.bind] at hr
  split at hr
  · cases hr
  · split at hr
    · cases hr
    · simp only [pure, Except.pure, Except.ok.injEq] at hr
      rw [← hr]; exact ⟨rfl, rfl, rfl⟩

/-! ## callers that are never answered -/

/-- the state machine is beyond the index of a waiting caller and no answer to it is on the way -/
structure Stuck (i tx : Nat) (n : Node) : Prop where
  mem : (i, tx) ∈ n.clients
  past : i < nextIndex n.sm.applied
  rx : ∀ l es, Note.applied l es ∈ n.rx → ∀ y ∈ es, y.id.index ≠ i

namespace Stuck
variable {g0 : Gh} {a0 : IOId} {s0 c0 : Option LogId} {P S : List Cmd} {n n' : Node} {dbg : Bool} {i tx : Nat}

theorem keep (h : Stuck i tx n) (hc : n'.clients = n.clients) (hs : n'.sm.applied = n.sm.applied)
    (hx : ∀ l es, Note.applied l es ∈ n'.rx → Note.applied l es ∈ n.rx) : Stuck i tx n' :=
  ⟨by rw [hc]; exact h.mem, by rw [hs]; exact h.past, fun l es hm => h.rx l es (hx l es hm)⟩

theorem past_com (h : Stuck i tx n) (hi : RInv g0 a0 s0 c0 P S n) : i < nextIndex (g0.runs (P ++ S)).com :=
  Nat.lt_of_lt_of_le h.past (hi.s.cur.le hi.oks).next

theorem register {e : Eng} {tx' : Nat} {p : Payload} {o : Option Nat} (h : Stuck i tx n) (hi : RInv g0 a0 s0 c0 P S n) (he : EInv g0 e)
    (hw : n.eng.writeEntry dbg p = .ok (o, e)) : Stuck i tx (Node.register { n with eng := e } tx' o) := by
  cases o with
  | none => exact h.keep rfl rfl fun l es hm => hm
  | some j =>
    refine ⟨?_, h.past, h.rx⟩
    refine BMap.mem_insert_ne h.mem ?_
    obtain ⟨v, x, cs, h1, h2, h3⟩ := Eng.writeEntry_shape he hw
    have ho := he.lm.oks
    rw [h1, Gh.oks_append] at ho
    obtain ⟨ho1, ho2, ho3⟩ := ho
    obtain ⟨_, _, hidx, _, hanch⟩ := ho2
    have hidx := hidx x rfl
    have hrow := hi.z.row.runs ho1
    have h4 := ho1
    rw [hi.rest, Gh.oks_append] at h4
    have h5 := (Gh.com_runs h4.2).next
    rw [← Gh.runs_append, ← hi.rest] at h5
    have h6 := h.past_com hi
    show i ≠ j
    cases hc : (g0.runs n.eng.out).com with
    | none =>
      rw [hc] at h5
      have : nextIndex (none : Option LogId) = 0 := rfl
      omega
    | some c =>
      have : c.index < nextIndex (g0.runs n.eng.out).store.lastLogId := by
        refine hrow.le_last ?_
        rcases hanch c hc with h7 | h7
        · exact List.mem_append_right _ h7
        · exact List.mem_append_left _ (by rw [h7]; simp)
      rw [hc] at h5
      have : nextIndex (some c) = c.index + 1 := rfl
      omega

theorem answer (es : List Ent) (h : Stuck i tx n) (he : ∀ y ∈ es, y.id.index ≠ i) : Stuck i tx (n.answer es) := by
  induction es generalizing n with
  | nil => exact h
  | cons x es ih =>
    unfold Node.answer
    cases hg : BMap.get n.clients x.id.index with
    | none => exact ih h fun y hy => he y (List.mem_cons_of_mem _ hy)
    | some tx' =>
      refine ih ⟨List.mem_filter.2 ⟨h.mem, ?_⟩, h.past, h.rx⟩ fun y hy => he y (List.mem_cons_of_mem _ hy)
      have := he x (List.mem_cons_self ..)
      simpa using Ne.symm this

theorem step {ev : Ev} (h : Stuck i tx n) (hi : RInv g0 a0 s0 c0 P S n) (ho : EvOk n ev) (hr : n.step dbg ev = .ok n') : Stuck i tx n' := by
  obtain ⟨P', S', hi', _, _⟩ := hi.step ho hr
  cases ev with
  | msg now m =>
    simp only [Node.step] at hr
    split at hr
    · simp only [out_bind, lift_ok, out_pure] at hr
      obtain ⟨e, he, hr⟩ := hr
      subst hr
      exact h.keep rfl rfl fun l es hm => hm
    · rw [out_pure] at hr; subst hr; exact h
  | write now tx' p =>
    simp only [Node.step] at hr
    split at hr
    · simp only [out_bind, lift_ok, out_pure] at hr
      obtain ⟨⟨o, e⟩, he, hr⟩ := hr
      subst hr
      refine h.register hi ?_ he
      cases o <;> exact hi'.flow.inv
    · rw [out_pure] at hr; subst hr; exact h
  | change now tx' c r =>
    simp only [Node.step] at hr
    split at hr
    · simp only [out_bind, lift_ok, out_pure] at hr
      obtain ⟨⟨o, e⟩, he, hr⟩ := hr
      subst hr
      have hinv : EInv g0 e := by cases o <;> exact hi'.flow.inv
      unfold Eng.changeMembership at he
      split at he
      · rw [pure_ok] at he; cases he
        exact h.keep rfl rfl fun l es hm => hm
      · exact h.register hi hinv he
    · rw [out_pure] at hr; subst hr; exact h
  | note now =>
    simp only [Node.step] at hr
    split at hr
    swap
    · rw [out_pure] at hr; subst hr; exact h
    cases hx : n.rx with
    | nil => rw [hx] at hr; simp only [out_pure] at hr; subst hr; exact h
    | cons x xs =>
      rw [hx] at hr
      have hpop : ∀ e : Eng, Stuck i tx { n with rx := xs, eng := e } := fun e =>
        h.keep rfl rfl fun l es hm => by rw [hx]; exact List.mem_cons_of_mem _ hm
      cases x with
      | applied last es =>
        simp only [Node.handle, out_bind, lift_ok, out_pure] at hr
        obtain ⟨e, he, hr⟩ := hr; subst hr
        exact (hpop e).answer es (h.rx last es (by rw [hx]; exact List.mem_cons_self ..))
      | _ =>
        simp only [Node.handle, out_bind, lift_ok, out_pure] at hr
        obtain ⟨e, he, hr⟩ := hr; subst hr
        exact hpop e
  | run =>
    simp only [Node.step] at hr
    unfold Node.run1 at hr
    cases hc : n.head with
    | none => rw [hc] at hr; simp only [out_pure] at hr; subst hr; exact h
    | some c =>
      rw [hc] at hr
      simp only at hr
      split at hr
      · next hrd =>
        simp only [out_bind, out_pure] at hr
        obtain ⟨n1, h1, hr⟩ := hr
        subst hr
        obtain ⟨k1, k2, k3, k4, k5, k6⟩ := CInv.exec_keep h1
        refine ⟨?_, by show i < nextIndex n1.sm.applied; rw [k3]; exact h.past, fun l es hm => h.rx l es (k4 l es hm)⟩
        show (i, tx) ∈ n1.clients
        rcases k6 with ⟨s, hs, k6, _⟩ | ⟨_, k6, _⟩
        · rw [k6]
          refine List.mem_filter.2 ⟨h.mem, ?_⟩
          subst hs
          have h7 := (hi.head hc).1.2
          have h8 := h.past_com hi
          simp; omega
        · rw [k6]; exact h.mem
      · rw [out_pure] at hr; subst hr; exact h
  | flush =>
    simp only [Node.step, out_pure] at hr
    unfold Node.flush1 at hr
    cases hp : n.pend with
    | nil => rw [hp] at hr; simp only at hr; subst hr; exact h
    | cons op ops =>
      rw [hp] at hr; simp only at hr; subst hr
      refine h.keep rfl rfl fun l es hm => ?_
      cases op <;> simpa [DiskOp.note] using hm
  | sm =>
    simp only [Node.step] at hr
    unfold Node.smStep at hr
    have hch := hi.s.chain
    cases hq : n.smq with
    | nil => rw [hq] at hr; simp only [out_pure] at hr; subst hr; exact h
    | cons c cs =>
      rw [hq] at hr hch
      cases c with
      | install m io =>
        simp only [out_pure] at hr; subst hr
        refine ⟨h.mem, Nat.lt_trans h.past hch.2.1, fun l es hm => h.rx l es (by simpa using hm)⟩
      | build =>
        simp only [out_pure] at hr; subst hr
        exact h.keep rfl rfl fun l es hm => hm
      | apply f l =>
        simp only at hr
        split at hr
        swap
        · cases hr
        rw [out_pure] at hr; subst hr
        have h1 : f.index = nextIndex n.sm.applied := hch.1
        have h2 : nextIndex n.sm.applied ≤ l.index := hch.2.2.1
        have h3 := h.past
        refine ⟨h.mem, ?_, ?_⟩
        · show i < l.index + 1
          omega
        · intro l' es' hm y hy
          rcases List.mem_append.1 hm with hm | hm
          · exact h.rx l' es' hm y hy
          · simp only [List.mem_singleton, Note.applied.injEq] at hm
            obtain ⟨rfl, rfl⟩ := hm
            obtain ⟨_, hb⟩ := List.mem_filter.1 hy
            simp only [Bool.and_eq_true, decide_eq_true_eq] at hb
            omega
  | build k =>
    simp only [Node.step, out_pure] at hr
    unfold Node.buildDone at hr
    cases hb : n.builds[k]? with
    | none => rw [hb] at hr; simp only at hr; subst hr; exact h
    | some m =>
      rw [hb] at hr; simp only at hr; subst hr
      exact h.keep rfl rfl fun l es hm => by simpa using hm

theorem run (h : Stuck i tx n) (hi : RInv g0 a0 s0 c0 P S n) (hr : Node.Run dbg n n') : Stuck i tx n' := by
  have : Stuck i tx n' ∧ ∃ P' S', RInv g0 a0 s0 c0 P' S' n' := by
    induction hr with
    | refl => exact ⟨h, P, S, hi⟩
    | step ev _ ho hs ih =>
      obtain ⟨h1, P', S', h2⟩ := ih
      obtain ⟨P'', S'', h3, _⟩ := h2.step ho hs
      exact ⟨h1.step h2 ho hs, P'', S'', h3⟩
  exact this.1

end Stuck
end Openraft.Runtime
