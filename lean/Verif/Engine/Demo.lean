import Verif.Engine.Shape

/-!
# Concrete executions

Two executions of a node from its first start: as a follower that has to drop entries of a former
leader, and as the leader of a cluster of one node. They serve as examples beside the theorems.
-/

set_option autoImplicit false

namespace Openraft.Engine.Demo
open Openraft.Cluster (Payload)
open Openraft.Repl (Panic)

/-- node 1; a lease of 5, an election timeout of 10; a purge leaves one log before the snapshot -/
def cfg : Cfg := ⟨1, some 100, 1, 1, 300, 10, 10, 5⟩
/-- log id -/
def lid (t n i : Nat) : LogId := ⟨⟨t, n⟩, i⟩
/-- a cluster of three voters -/
def m3 : Membership := ⟨[[1, 2, 3]], [(1, 0), (2, 0), (3, 0)]⟩
/-- a cluster of one voter -/
def m1 : Membership := ⟨[[1]], [(1, 0)]⟩
/-- the vote of leader 2 in term 1 -/
def v2 : Vote := ⟨⟨1, 2⟩, true⟩
/-- the vote of leader 3 in term 2 -/
def v3 : Vote := ⟨⟨2, 3⟩, true⟩

/-- the state after an input, the old one if the node aborts -/
def after (now : Nat) (e : Eng) (i : Input) : Eng :=
  match e.input true now i with
  | .ok e' => e'
  | .error _ => e

/-- the input does not abort the node -/
def fine (now : Nat) (e : Eng) (i : Input) : Bool :=
  match e.input true now i with
  | .ok _ => true
  | .error _ => false

theorem after_ok {now : Nat} {e : Eng} {i : Input} (h : fine now e i = true) : e.input true now i = .ok (after now e i) := by
  unfold fine at h
  unfold after
  split at h
  · next h1 => rw [h1]
  · cases h

/-- `Cons` can be decided -/
instance decCons : (l : List LogId) → Decidable (Cons l)
  | [] => isTrue trivial
  | [_] => isTrue trivial
  | a :: b :: r =>
    match (inferInstance : Decidable (b.index = a.index + 1 ∧ a.leaderId ≤ b.leaderId)), decCons (b :: r) with
    | isTrue h, isTrue k => isTrue ⟨h.1, h.2, k⟩
    | isFalse h, _ => isFalse fun x => h ⟨x.1, x.2.1⟩
    | _, isFalse k => isFalse fun x => k x.2.2

/-- at start-up -/
def f0 : Eng := Eng.fresh cfg 0
/-- leader 2 sends a membership and a blank entry -/
def i1 : Input := .appendReq 7 v2 none [⟨lid 1 2 0, .membership m3⟩, ⟨lid 1 2 1, .blank⟩] none
/-- state after `i1` -/
def f1 : Eng := after 1 f0 i1
/-- leader 2 sends two more and commits the first two -/
def i2 : Input := .appendReq 8 v2 (some (lid 1 2 1)) [⟨lid 1 2 2, .normal 5⟩, ⟨lid 1 2 3, .normal 6⟩] (some (lid 1 2 1))
/-- state after `i2` -/
def f2 : Eng := after 2 f1 i2
/-- leader 3 has another entry at index 2 and commits it -/
def i3 : Input := .appendReq 9 v3 (some (lid 1 2 1)) [⟨lid 2 3 2, .normal 7⟩] (some (lid 2 3 2))
/-- state after `i3` -/
def f3 : Eng := after 3 f2 i3

theorem f1_in : InputOk f0 i1 := fun _ =>
  ⟨by decide, rfl, [lid 1 2 0, lid 1 2 1], ⟨by decide +kernel, by decide +kernel, by decide +kernel, by decide +kernel⟩,
    by decide +kernel, by decide +kernel, by decide +kernel, fun x hx => by cases hx; rfl, fun x hx => by cases hx⟩

theorem f2_in : InputOk f1 i2 := fun _ =>
  ⟨by decide +kernel, rfl, [lid 1 2 0, lid 1 2 1, lid 1 2 2, lid 1 2 3],
    ⟨by decide +kernel, by decide +kernel, by decide +kernel, by decide +kernel⟩,
    fun p hp => by cases hp; decide, by decide +kernel, by decide +kernel, fun x hx => by cases hx; rfl,
    fun x hx => by cases hx; decide⟩

theorem f3_in : InputOk f2 i3 := fun _ =>
  ⟨by decide +kernel, rfl, [lid 1 2 0, lid 1 2 1, lid 2 3 2],
    ⟨by decide +kernel, by decide +kernel, by decide +kernel, by decide +kernel⟩,
    fun p hp => by cases hp; decide, by decide +kernel, by decide +kernel, fun x hx => by cases hx; rfl,
    fun x hx => by cases hx; decide⟩

theorem f1_run : f0.input true 1 i1 = .ok f1 := after_ok (by decide +kernel)
theorem f2_run : f1.input true 2 i2 = .ok f2 := after_ok (by decide +kernel)
theorem f3_run : f2.input true 3 i3 = .ok f3 := after_ok (by decide +kernel)

theorem f0_inv : EInv Gh.empty f0 := Eng.fresh_inv _ _
theorem f1_inv : EInv Gh.empty f1 := Eng.inv_input f0_inv f1_in f1_run
theorem f2_inv : EInv Gh.empty f2 := Eng.inv_input f1_inv f2_in f2_run
theorem f3_inv : EInv Gh.empty f3 := Eng.inv_input f2_inv f3_in f3_run

/-- the follower's execution -/
theorem f3_reach : Eng.Run true f0 f3 :=
  .step 3 i3 (.step 2 i2 (.step 1 i1 .refl f1_in f1_run) f2_in f2_run) f3_in f3_run

/-- initialize a cluster of one node -/
def j1 : Input := .init 7 m1
/-- state after `j1` -/
def g1 : Eng := after 1 f0 j1
/-- the vote of the candidate -/
def vc : Vote := ⟨⟨1, 1⟩, false⟩
/-- the vote of the leader -/
def vl : Vote := ⟨⟨1, 1⟩, true⟩
/-- its own answer elects it -/
def j2 : Input := .voteResp 1 vc none true vc
/-- state after `j2` -/
def g2 : Eng := after 2 g1 j2
/-- its blank entry is on disk -/
def j3 : Input := .localIO ⟨vl, some (lid 1 1 1)⟩
/-- state after `j3` -/
def g3 : Eng := after 3 g2 j3
/-- a client write -/
def j4 : Input := .write (.normal 5)
/-- state after `j4` -/
def g4 : Eng := after 4 g3 j4
/-- it is on disk -/
def j5 : Input := .localIO ⟨vl, some (lid 1 1 2)⟩
/-- state after `j5` -/
def g5 : Eng := after 5 g4 j5
/-- a snapshot up to it was built -/
def j6 : Input := .built ⟨some (lid 1 1 2), ⟨some (lid 0 0 0), m1⟩, 3⟩
/-- state after `j6` -/
def g6 : Eng := after 6 g5 j6

theorem g1_run : f0.input true 1 j1 = .ok g1 := after_ok (by decide +kernel)
theorem g2_run : g1.input true 2 j2 = .ok g2 := after_ok (by decide +kernel)
theorem g3_run : g2.input true 3 j3 = .ok g3 := after_ok (by decide +kernel)
theorem g4_run : g3.input true 4 j4 = .ok g4 := after_ok (by decide +kernel)
theorem g5_run : g4.input true 5 j5 = .ok g5 := after_ok (by decide +kernel)
theorem g6_run : g5.input true 6 j6 = .ok g6 := after_ok (by decide +kernel)

theorem g2_in : InputOk g1 j2 := fun _ => by decide +kernel
theorem g3_in : InputOk g2 j3 := fun _ _ x hx => by cases hx; exact Or.inl (by decide +kernel)
theorem g5_in : InputOk g4 j5 := fun _ _ x hx => by cases hx; exact Or.inl (by decide +kernel)
theorem g6_in : InputOk g5 j6 := by
  intro _ x hx
  cases hx
  decide +kernel

theorem g1_inv : EInv Gh.empty g1 := Eng.inv_input f0_inv (i := j1) trivial g1_run
theorem g2_inv : EInv Gh.empty g2 := Eng.inv_input g1_inv g2_in g2_run
theorem g3_inv : EInv Gh.empty g3 := Eng.inv_input g2_inv g3_in g3_run
theorem g4_inv : EInv Gh.empty g4 := Eng.inv_input g3_inv (i := j4) trivial g4_run
theorem g5_inv : EInv Gh.empty g5 := Eng.inv_input g4_inv g5_in g5_run
theorem g6_inv : EInv Gh.empty g6 := Eng.inv_input g5_inv g6_in g6_run

/-- the leader's execution -/
theorem g6_reach : Eng.Run true f0 g6 :=
  .step 6 j6 (.step 5 j5 (.step 4 j4 (.step 3 j3 (.step 2 j2 (.step 1 j1 .refl trivial g1_run) g2_in g2_run) g3_in g3_run)
    trivial g4_run) g5_in g5_run) g6_in g6_run

/-! ## Longer executions by a list of inputs -/

instance (lead : List LogId) (v : Vote) (L : List LogId) (fl : Nat) : Decidable (LeadLog lead v L fl) :=
  decidable_of_iff (Cons lead ∧ (∀ x ∈ lead, x.leaderId ≤ v.leaderId) ∧ (∀ x ∈ L, x.index < fl → x ∈ lead) ∧
      ∀ x ∈ L, x ∈ lead → ∀ y ∈ L, y.index ≤ x.index → y ∈ lead)
    ⟨fun h => ⟨h.1, h.2.1, h.2.2.1, h.2.2.2⟩, fun h => ⟨h.cons, h.bound, h.agree, h.mat⟩⟩

instance (e : Eng) (v : Vote) : Decidable (VoteOk e v) := inferInstanceAs (Decidable (_ → _))

/-- decide `KnownO` -/
def knownB (v : LogV) : Option LogId → Bool
  | none => true
  | some x => decide (x ∈ v.L ∨ some x ≤ v.committed)

theorem knownB_ok {v : LogV} {o : Option LogId} (h : knownB v o = true) : KnownO v o := by
  intro x hx; subst hx
  have : x ∈ v.L ∨ some x ≤ v.committed := of_decide_eq_true h
  exact this

/-- `AppendOk` for a given log of the leader -/
def appendB (e : Eng) (v : Vote) (prev : Option LogId) (es : List Ent) (lc : Option LogId) (lead : List LogId) : Bool :=
  decide (v.leaderId.node ≠ e.cfg.id) && v.committed && decide (LeadLog lead v e.st.lv.L (e.floor v)) &&
  decide (∀ p ∈ prev, p ∈ lead) && decide (∀ x ∈ es, x.id ∈ lead) && decide (Cons (es.map (·.id))) &&
  decide (∀ x ∈ es.head?, x.id.index = nextIndex prev) && decide (∀ x ∈ lc, x ∈ lead)

theorem appendB_ok {e : Eng} {v : Vote} {prev : Option LogId} {es : List Ent} {lc : Option LogId} {lead : List LogId}
    (h : appendB e v prev es lc lead = true) : AppendOk e v prev es lc := by
  simp only [appendB, Bool.and_eq_true, decide_eq_true_eq] at h
  obtain ⟨⟨⟨⟨⟨⟨⟨h1, h2⟩, h3⟩, h4⟩, h5⟩, h6⟩, h7⟩, h8⟩ := h
  exact ⟨h1, h2, lead, h3, fun p hp => h4 p hp, h5, h6, fun x hx => h7 x hx, fun x hx => h8 x hx⟩

/-- decide `SnapMemInside` -/
instance (ms : MemState) (x : LogId) (c : StoredMem) : Decidable (MemJ.SnapMemInside ms x c) := by
  unfold MemJ.SnapMemInside; infer_instance

instance (e : Eng) (v : Vote) (m : SnapMeta) (x : LogId) : Decidable (Eng.SnapOk e v m x) :=
  decidable_of_iff (x.leaderId ≤ v.leaderId ∧ nextIndex e.st.committed ≤ x.index ∧
      (∀ y ∈ e.st.lv.L, y.index = x.index → x.index < e.floor v → y = x) ∧
      (∀ a ∈ e.st.accLast, e.st.vote.data = v → a.index ≤ x.index → a ≤ x) ∧
      ((∃ y ∈ e.st.lv.L, y.index = x.index ∧ y ≠ x) → nextIndex e.st.ms.committed.logId ≤ nextIndex e.st.committed) ∧
      (x ∈ e.st.lv.L → MemJ.SnapMemInside e.st.ms x m.mem) ∧
      (x ∉ e.st.lv.L → m.mem.logId ≤ some x ∧ nextIndex m.mem.logId ≤ x.index + 1 ∧
        (e.st.ms.committed.logId < m.mem.logId ∨ e.st.ms.committed = m.mem) ∧
        nextIndex e.st.ms.committed.logId ≤ nextIndex m.mem.logId ∧
        ((∃ y ∈ e.st.lv.L, y.index = x.index) ∧ nextIndex e.st.committed < nextIndex e.st.ms.effective.logId ∨
          nextIndex e.st.ms.effective.logId ≤ nextIndex m.mem.logId)))
    ⟨fun h => ⟨h.1, h.2.1, h.2.2.1, fun a h1 h2 h3 => h.2.2.2.1 a h2 h1 h3, h.2.2.2.2.1, h.2.2.2.2.2.1, h.2.2.2.2.2.2⟩,
      fun h => ⟨h.leader, h.ahead, h.agree, fun a h1 h2 h3 => h.acc a h2 h1 h3, h.conflict, h.inside, h.beyond⟩⟩

/-- decide `InputOk`; `lead` is the log of the leader that sends the input -/
def okB (lead : List LogId) (e : Eng) : Input → Bool
  | .appendReq _ v prev es lc => decide (e.st.vote.data ≤ v → appendB e v prev es lc lead = true)
  | .voteReq _ v _ => decide (VoteOk e v)
  | .snapReq _ v m => decide (e.st.vote.data ≤ v → v.leaderId.node ≠ e.cfg.id ∧ v.committed = true ∧
      ∀ x ∈ m.lastLogId, e.st.committed < some x → Eng.SnapOk e v m x)
  | .handleTransfer v target => decide (e.st.vote.data = v → e.cfg.id = target → e.leader.isNone = true)
  | .electCmd => e.leader.isNone
  | .voteResp _ v _ _ _ => decide (VoteOk e v)
  | .higherVote v _ => decide (VoteOk e v)
  | .localIO io => knownB e.st.lv io.last
  | .replProgress _ _ (.matching m) => knownB e.st.lv m
  | .built m => decide (∀ x ∈ m.lastLogId, x ∈ LogIdList.expand e.st.logIds ∧ x.index < nextIndex e.st.committed)
  | _ => true

theorem okB_ok {lead : List LogId} {e : Eng} {i : Input} (h : okB lead e i = true) : InputOk e i := by
  cases i with
  | appendReq tx v prev es lc => exact fun hv => appendB_ok ((of_decide_eq_true h) hv)
  | voteReq tx v last =>
    have : VoteOk e v := of_decide_eq_true h
    exact this
  | snapReq tx v m =>
    intro hv
    obtain ⟨h1, h2, h3⟩ := (of_decide_eq_true h) hv
    exact ⟨h1, h2, fun x hx => h3 x hx⟩
  | handleTransfer v target => exact fun h1 h2 => by simpa using (of_decide_eq_true h) h1 h2
  | electCmd =>
    have : e.leader = none := by simpa [okB] using h
    exact this
  | voteResp target v last granted sender =>
    have : VoteOk e v := of_decide_eq_true h
    exact this
  | higherVote v sender =>
    have : VoteOk e v := of_decide_eq_true h
    exact this
  | localIO io => exact fun _ _ => knownB_ok h
  | replProgress s target r =>
    intro _ m hm
    subst hm
    exact knownB_ok h
  | built m => exact fun _ x hx => (of_decide_eq_true h) x hx
  | _ => trivial

/-- the state after a list of inputs, each with its time and the log of the leader that sends it -/
def runTo (e : Eng) : List (Nat × List LogId × Input) → Eng
  | [] => e
  | (t, _, i) :: is => runTo (after t e i) is

/-- every input is allowed and does not abort the node -/
def allOk (e : Eng) : List (Nat × List LogId × Input) → Bool
  | [] => true
  | (t, lead, i) :: is => okB lead e i && fine t e i && allOk (after t e i) is

theorem run_of_allOk {e0 e : Eng} {is : List (Nat × List LogId × Input)} (h0 : Eng.Run true e0 e) (h : allOk e is = true) :
    Eng.Run true e0 (runTo e is) := by
  induction is generalizing e with
  | nil => exact h0
  | cons x is ih =>
    obtain ⟨t, lead, i⟩ := x
    simp only [allOk, Bool.and_eq_true] at h
    exact ih (.step t i h0 (okB_ok h.1.1) (after_ok h.1.2)) h.2

/-! ## Outcomes in debug and in release builds -/

/-- how an input aborts the node, if it does -/
def stops {α : Type} : Res α → Option Panic
  | .ok _ => none
  | .error x => some x

/-- the state after an input, the old one if the node aborts -/
def afterR (dbg : Bool) (now : Nat) (e : Eng) (i : Input) : Eng :=
  match e.input dbg now i with
  | .ok e' => e'
  | .error _ => e

theorem afterR_ok {dbg : Bool} {now : Nat} {e : Eng} {i : Input} (h : stops (e.input dbg now i) = none) :
    e.input dbg now i = .ok (afterR dbg now e i) := by
  unfold afterR
  cases h1 : e.input dbg now i with
  | ok x => rfl
  | error x => rw [h1] at h; cases h

theorem stops_some {α : Type} {r : Res α} {x : Panic} (h : stops r = some x) : r = .error x := by
  cases r with
  | ok y => cases h
  | error y => cases h; rfl

end Openraft.Engine.Demo
