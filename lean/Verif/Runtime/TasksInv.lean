import Verif.Engine.Line
import Verif.Runtime.Tasks

/-!
# What a leader has in flight and what its tasks hold

The invariant of a node with its replication tasks: the task of a session in force holds exactly what the leader has in
flight for its target, up to the reports that the leader has not yet taken.
-/

set_option autoImplicit false

namespace Openraft.Runtime
open Openraft.Engine
open Openraft.Repl (Panic dassert Inflight)
open Openraft.Engine.Eng (ReplResult Report.handle)

/-! ## What a task holds -/

/-- the result of a snapshot -/
def Data.isCb : Data → Bool
  | .callback _ => true
  | _ => false

/-- the requests with payload that a task has, or is given by commands that wait -/
def Task.hold (k : Task) (rs : List Inflight) : List Data :=
  k.action.toList.filter Data.payload ++ k.sending.toList.map (fun x => Data.callback (.installed x)) ++ k.inbox.filter Data.payload ++ rs.flatMap Data.of

/-- what is held for what is in flight -/
def FitsIn (N : Nat) : Inflight → List Data → Prop
  | .none, H => H = []
  | .logs p q, H => H = [.logs p q]
  | .snapshot _, H => (∃ o, H = [.snapshot o]) ∨ ∃ r, H = [.callback r] ∧ ∀ x, r = .installed x → nextIndex x ≤ N

theorem FitsIn.len {N : Nat} {i : Inflight} {H : List Data} (h : FitsIn N i H) : H.length ≤ 1 := by
  cases i with
  | none => rw [h]; simp
  | logs p q => rw [h]; simp
  | snapshot x => rcases h with ⟨o, h⟩ | ⟨r, h, _⟩ <;> rw [h] <;> simp

theorem FitsIn.mono {N M : Nat} {i : Inflight} {H : List Data} (h : FitsIn N i H) (hm : N ≤ M) : FitsIn M i H := by
  cases i with
  | none => exact h
  | logs p q => exact h
  | snapshot x =>
    rcases h with h | ⟨r, h, hr⟩
    · exact Or.inl h
    · exact Or.inr ⟨r, h, fun x hx => (hr x hx).trans hm⟩

/-- a task holds what is in flight for its target -/
structure Bears (N : Nat) (k : Task) (rs : List Inflight) (F : Repl.Entry) : Prop where
  mat : F.matching = k.matching
  fit : FitsIn N F.inflight (k.hold rs)
  snap : k.snapState = (k.hold rs).any Data.isCb

theorem Bears.mono {N M : Nat} {k : Task} {rs : List Inflight} {F : Repl.Entry} (h : Bears N k rs F) (hm : N ≤ M) : Bears M k rs F :=
  ⟨h.mat, h.fit.mono hm, h.snap⟩

theorem one_of_four {α : Type} {a b c d : List α} {x : α} (h : (a ++ b ++ (x :: c) ++ d).length ≤ 1) : a = [] ∧ b = [] ∧ c = [] ∧ d = [] := by
  simp only [List.length_append, List.length_cons] at h
  exact ⟨List.length_eq_zero_iff.1 (by omega), List.length_eq_zero_iff.1 (by omega), List.length_eq_zero_iff.1 (by omega), List.length_eq_zero_iff.1 (by omega)⟩

/-- taking an event from the channel -/
theorem Bears.recv {N : Nat} {dbg : Bool} {k k' : Task} {rs : List Inflight} {F : Repl.Entry} (h : Bears N k rs F) (hr : k.recv dbg = .ok k') :
    Bears N k' rs F ∧ k'.reports = k.reports := by
  unfold Task.recv at hr
  split at hr
  · rw [out_pure] at hr; subst hr; exact ⟨h, rfl⟩
  · split at hr
    · rw [out_pure] at hr; subst hr; exact ⟨h, rfl⟩
    · next q hq =>
      have hi : k.inbox.filter Data.payload = q.filter Data.payload := by rw [hq]; rfl
      split at hr
      · next ha =>
        rw [out_pure] at hr; subst hr
        have hh : Task.hold { k with inbox := q, action := some .committed } rs = k.hold rs := by
          unfold Task.hold; rw [hi, ha]; rfl
        exact ⟨⟨h.mat, by rw [hh]; exact h.fit, by rw [hh]; exact h.snap⟩, rfl⟩
      · rw [out_pure] at hr; subst hr
        have hh : Task.hold { k with inbox := q } rs = k.hold rs := by
          unfold Task.hold; rw [hi]
        exact ⟨⟨h.mat, by rw [hh]; exact h.fit, by rw [hh]; exact h.snap⟩, rfl⟩
    · next d q hd hq =>
      have hpay : d.payload = true := by
        cases d with
        | committed => exact absurd rfl hd
        | _ => rfl
      have hh : k.hold rs = k.action.toList.filter Data.payload ++ k.sending.toList.map (fun x => Data.callback (.installed x)) ++ (d :: q.filter Data.payload) ++ rs.flatMap Data.of := by
        unfold Task.hold; rw [hq, List.filter_cons_of_pos hpay]
      have hl := h.fit.len
      rw [hh] at hl
      obtain ⟨h1, h2, h3, h4⟩ := one_of_four hl
      have hk : k' = { k with inbox := q, action := some d } := by
        cases d with
        | committed => exact absurd rfl hd
        | _ =>
          simp only [out_bind, out_pure] at hr
          obtain ⟨_, _, _, _, hr⟩ := hr
          exact hr.symm
      subst hk
      have hh' : Task.hold { k with inbox := q, action := some d } rs = k.hold rs := by
        rw [hh]
        unfold Task.hold
        rw [h2, h3, h4]
        simp only [Option.toList_some]
        rw [List.filter_cons_of_pos hpay, h1]; rfl
      exact ⟨⟨h.mat, by rw [hh']; exact h.fit, by rw [hh']; exact h.snap⟩, rfl⟩

/-- the debug assertions of `process_event` hold -/
theorem Bears.recv_ok {N : Nat} {dbg : Bool} {k : Task} {rs : List Inflight} {F : Repl.Entry} (h : Bears N k rs F) : ∃ k', k.recv dbg = .ok k' := by
  unfold Task.recv
  split
  · exact ⟨_, rfl⟩
  · split
    · exact ⟨_, rfl⟩
    · split <;> exact ⟨_, rfl⟩
    · next d q hd hq =>
      have hpay : d.payload = true := by
        cases d with
        | committed => exact absurd rfl hd
        | _ => rfl
      have hh : k.hold rs = k.action.toList.filter Data.payload ++ k.sending.toList.map (fun x => Data.callback (.installed x)) ++ (d :: q.filter Data.payload) ++ rs.flatMap Data.of := by
        unfold Task.hold; rw [hq, List.filter_cons_of_pos hpay]
      have hl := h.fit.len
      rw [hh] at hl
      obtain ⟨h1, h2, h3, h4⟩ := one_of_four hl
      have hs : k.snapState = d.isCb := by
        rw [h.snap, hh, h1, h2, h3, h4]; simp
      have ha : (!(k.action.any Data.payload)) = true := by
        cases hx : k.action with
        | none => rfl
        | some x =>
          rw [hx] at h1
          cases hp : x.payload with
          | false => simp [hp]
          | true => simp [hp] at h1
      cases d with
      | committed => exact absurd rfl hd
      | callback r =>
        have hs' : k.snapState = true := hs
        simp only [out_bind, out_pure, lift_ok, dassert_ok]
        exact ⟨_, (), fun _ => ha, (), fun _ => hs', rfl⟩
      | logs p q =>
        have hs' : (!k.snapState) = true := by rw [hs]; rfl
        simp only [out_bind, out_pure, lift_ok, dassert_ok]
        exact ⟨_, (), fun _ => ha, (), fun _ => hs', rfl⟩
      | snapshot o =>
        have hs' : (!k.snapState) = true := by rw [hs]; rfl
        simp only [out_bind, out_pure, lift_ok, dassert_ok]
        exact ⟨_, (), fun _ => ha, (), fun _ => hs', rfl⟩

theorem recv_same {dbg : Bool} {k k' : Task} (hr : k.recv dbg = .ok k') : k'.sess = k.sess ∧ k'.reports = k.reports ∧ k'.ended = k.ended := by
  unfold Task.recv at hr
  split at hr
  · rw [out_pure] at hr; subst hr; exact ⟨rfl, rfl, rfl⟩
  · split at hr
    · rw [out_pure] at hr; subst hr; exact ⟨rfl, rfl, rfl⟩
    · split at hr <;> (rw [out_pure] at hr; subst hr; exact ⟨rfl, rfl, rfl⟩)
    · next d q hd hq =>
      cases d <;>
      · simp only [out_bind, out_pure] at hr
        obtain ⟨_, _, _, _, rfl⟩ := hr
        exact ⟨rfl, rfl, rfl⟩

/-- an answer that a target may give to what a task sends: it matches no less than the log before it and no more than was sent; it conflicts only with a log
that it has not acknowledged; a request without entries is not too large -/
def AnsOk (k : Task) (a : Ans) : Prop :=
  match k.action, a with
  | some (.logs p q), .matched m => nextIndex p ≤ nextIndex m ∧ nextIndex m ≤ nextIndex q
  | some (.logs p _), .conflict => ∃ c, p = some c ∧ nextIndex k.matching ≤ c.index
  | some .committed, .conflict => k.matching ≠ none
  | some .committed, .tooLarge => False
  | _, _ => True

theorem hold_act {k : Task} {rs : List Inflight} {d : Data} (ha : k.action = some d) (hp : d.payload = true) (hl : (k.hold rs).length ≤ 1) :
    k.sending = none ∧ k.inbox.filter Data.payload = [] ∧ rs.flatMap Data.of = [] ∧ k.hold rs = [d] := by
  have hh : k.hold rs = ([] ++ [] ++ (d :: (k.sending.toList.map (fun x => Data.callback (.installed x)) ++ k.inbox.filter Data.payload)) ++ rs.flatMap Data.of) := by
    unfold Task.hold
    rw [ha]
    simp only [Option.toList_some]
    rw [List.filter_cons_of_pos hp]
    simp
  rw [hh] at hl
  obtain ⟨_, _, h3, h4⟩ := one_of_four hl
  rw [List.append_eq_nil_iff] at h3
  refine ⟨?_, h3.2, h4, ?_⟩
  · cases hs : k.sending with
    | none => rfl
    | some x => rw [hs] at h3; simp at h3
  · rw [hh, h3.1, h3.2, h4]; rfl

/-- one round of a task -/
theorem Bears.act {N : Nat} {k k' : Task} {rs : List Inflight} {E F : Repl.Entry} {snap : Option LogId} {a : Ans} (h : Bears N k rs F)
    (hl : Line N E k.reports F) (hf : FOk N F) (hs : nextIndex snap ≤ N) (ha : AnsOk k a) (hr : k.act snap a = .ok k') (hen : k.ended = false) :
    ∃ F', Line N E k'.reports F' ∧ (k'.ended = false → Bears N k' rs F') := by
  unfold Task.act at hr
  rw [if_neg (by rw [hen]; simp)] at hr
  have hold_none : ∀ {d : Data}, k.action = some d → d.payload = true → ∀ k1 : Task, k1.action = none → k1.sending = k.sending → k1.inbox = k.inbox → k1.hold rs = [] := by
    intro d h1 h2 k1 h3 h4 h5
    obtain ⟨e1, e2, e3, _⟩ := hold_act h1 h2 h.fit.len
    unfold Task.hold
    rw [h3, h4, h5, e1, e2, e3]; rfl
  split at hr
  · rw [out_pure] at hr; subst hr; exact ⟨F, hl, fun _ => h⟩
  · next hact =>
    have hz : ∀ k1 : Task, k1.action = none → k1.sending = k.sending → k1.inbox = k.inbox → k1.hold rs = k.hold rs := by
      intro k1 h3 h4 h5
      unfold Task.hold
      rw [h3, h4, h5, hact]; rfl
    have fin : ∀ k1 : Task, k1.action = none → k1.sending = k.sending → k1.inbox = k.inbox → k1.snapState = k.snapState → k1.matching = k.matching → k1.reports = k.reports →
        ∃ F', Line N E k1.reports F' ∧ (k1.ended = false → Bears N k1 rs F') := by
      intro k1 h3 h4 h5 h6 h7 h8
      have hh := hz k1 h3 h4 h5
      exact ⟨F, by rw [h8]; exact hl, fun _ => ⟨by rw [h7]; exact h.mat, by rw [hh]; exact h.fit, by rw [hh, h6]; exact h.snap⟩⟩
    cases a with
    | tooLarge => unfold AnsOk at ha; rw [hact] at ha; exact absurd ha (fun hh => hh)
    | conflict =>
      simp only [out_bind, out_pure] at hr
      obtain ⟨_, _, rfl⟩ := hr
      exact fin _ rfl rfl rfl rfl rfl rfl
    | higher => simp only [out_pure] at hr; subst hr; exact fin _ rfl rfl rfl rfl rfl rfl
    | matched m => simp only [out_pure] at hr; subst hr; exact fin _ rfl rfl rfl rfl rfl rfl
    | error => simp only [out_pure] at hr; subst hr; exact fin _ rfl rfl rfl rfl rfl rfl
  · next p q hact =>
    obtain ⟨e1, e2, e3, e4⟩ := hold_act hact rfl h.fit.len
    have hif : F.inflight = .logs p q := by
      have := h.fit
      rw [e4] at this
      cases hi : F.inflight with
      | none => rw [hi] at this; cases this
      | logs p' q' => rw [hi] at this; cases this; rfl
      | snapshot x => rw [hi] at this; rcases this with ⟨o, ho⟩ | ⟨r, ho, _⟩ <;> cases ho
    have hsn : k.snapState = false := by rw [h.snap, e4]; rfl
    obtain ⟨f1, f2, f3, _⟩ := hf p q hif
    cases a with
    | matched m =>
      obtain ⟨hpm, hm⟩ : nextIndex p ≤ nextIndex m ∧ nextIndex m ≤ nextIndex q := by unfold AnsOk at ha; rw [hact] at ha; exact ha
      simp only [out_pure] at hr
      have hg : Guard N F (.matching m) := ⟨by rw [hif]; simp, hm.trans f3, fun p' q' hx => by rw [hif] at hx; cases hx; exact ⟨hpm, hm⟩⟩
      obtain ⟨F', hF'⟩ := hg.ok
      have hF2 : F' = ⟨m, Inflight.mkLogs m q, max F.searchingEnd (nextIndex m)⟩ := by
        simp only [Report.handle, Repl.Entry.updateMatching, Inflight.ack, hif, bind_ok, pure_ok] at hF'
        obtain ⟨i, ⟨_, _, _, _, rfl⟩, _, _, rfl⟩ := hF'
        rfl
      have hkr : k'.reports = k.reports ++ [.matching m] := by rw [← hr]
      refine ⟨F', by rw [hkr]; exact hl.snoc hg hF', fun _ => ?_⟩
      have hh : k'.hold rs = if m < q then [.logs m q] else [] := by
        rw [← hr]
        unfold Task.hold
        simp only
        rw [e1, e2, e3]
        split <;> rfl
      have hks : k'.snapState = false := by rw [← hr]; exact hsn
      have hkm : k'.matching = m := by rw [← hr]
      refine ⟨by rw [hF2, hkm], ?_, ?_⟩
      · rw [hh, hF2]
        unfold Inflight.mkLogs
        simp only
        split <;> exact rfl
      · rw [hks, hh]; split <;> rfl
    | conflict =>
      obtain ⟨c, hc, hcm⟩ : ∃ c, p = some c ∧ nextIndex k.matching ≤ c.index := by unfold AnsOk at ha; rw [hact] at ha; exact ha
      subst hc
      simp only [out_bind, out_pure, lift_ok, unwrap_ok] at hr
      obtain ⟨c', hc', rfl⟩ := hr
      cases hc'
      have hg : Guard N F (.conflict c) := ⟨⟨_, _, hif⟩, by rw [h.mat]; exact hcm, f2⟩
      obtain ⟨F', hF'⟩ := hg.ok
      have hF2 : F'.matching = F.matching ∧ F'.inflight = .none := by
        rcases handle_cases hF' with ⟨m, hm, _⟩ | ⟨_, h2, h3⟩
        · cases hm
        · exact ⟨h2, h3⟩
      refine ⟨F', hl.snoc hg hF', fun _ => ?_⟩
      have hh := hold_none hact rfl { k with action := none, reports := k.reports ++ [.conflict c] } rfl rfl rfl
      refine ⟨hF2.1.trans h.mat, ?_, ?_⟩
      · rw [hF2.2, hh]; exact rfl
      · rw [hh]; exact hsn
    | error =>
      simp only [out_pure] at hr
      subst hr
      have hg : Guard N F .failed := by show F.inflight ≠ _; rw [hif]; simp
      refine ⟨_, hl.snoc hg rfl, fun _ => ?_⟩
      have hh := hold_none hact rfl { k with action := none, reports := k.reports ++ [.failed] } rfl rfl rfl
      exact ⟨h.mat, by rw [hh]; exact rfl, by rw [hh]; exact hsn⟩
    | tooLarge =>
      simp only [out_pure] at hr
      subst hr
      have hk : ({ k with action := some (.logs p q) } : Task) = k := by rw [← hact]
      rw [hk]
      exact ⟨F, hl, fun _ => h⟩
    | higher =>
      simp only [out_pure] at hr
      subst hr
      exact ⟨F, hl, fun hx => by cases hx⟩
  · next o hact =>
    obtain ⟨e1, e2, e3, e4⟩ := hold_act hact rfl h.fit.len
    have hif : ∃ x, F.inflight = .snapshot x := by
      have := h.fit
      rw [e4] at this
      cases hi : F.inflight with
      | none => rw [hi] at this; cases this
      | logs p' q' => rw [hi] at this; cases this
      | snapshot x => exact ⟨x, rfl⟩
    obtain ⟨x, hif⟩ := hif
    split at hr
    · rw [out_pure] at hr; subst hr; exact ⟨F, hl, fun hx => by cases hx⟩
    · next y =>
      rw [out_pure] at hr; subst hr
      refine ⟨F, hl, fun _ => ?_⟩
      have hh : Task.hold { k with action := none, sending := some (some y), snapState := true } rs = [.callback (.installed (some y))] := by
        unfold Task.hold
        simp only
        rw [e2, e3]; rfl
      refine ⟨h.mat, ?_, ?_⟩
      · rw [hh, hif]; exact Or.inr ⟨_, rfl, fun z hz => by cases hz; exact hs⟩
      · rw [hh]; rfl
  · next r hact =>
    obtain ⟨e1, e2, e3, e4⟩ := hold_act hact rfl h.fit.len
    have hif : ∃ x, F.inflight = .snapshot x ∧ ∀ z, r = .installed z → nextIndex z ≤ N := by
      have := h.fit
      rw [e4] at this
      cases hi : F.inflight with
      | none => rw [hi] at this; cases this
      | logs p' q' => rw [hi] at this; cases this
      | snapshot x =>
        rw [hi] at this
        rcases this with ⟨o, ho⟩ | ⟨r', ho, hr'⟩
        · cases ho
        · cases ho; exact ⟨x, rfl, hr'⟩
    obtain ⟨x, hif, hz⟩ := hif
    cases r with
    | installed z =>
      simp only [out_pure] at hr
      subst hr
      have hg : Guard N F (.matching z) := ⟨by rw [hif]; simp, hz z rfl, fun p' q' hx => by rw [hif] at hx; cases hx⟩
      obtain ⟨F', hF'⟩ := hg.ok
      have hF2 : F'.matching = z ∧ F'.inflight = .none := by
        rcases handle_cases hF' with ⟨m, hm, h1, _, ⟨p, q, h2, _⟩ | ⟨_, h2⟩⟩ | ⟨h1, _⟩
        · rw [hif] at h2; cases h2
        · cases hm; exact ⟨h1, h2⟩
        · exact absurd rfl (h1 z)
      have hh := hold_none hact rfl { k with action := none, snapState := false, matching := z, reports := k.reports ++ [.matching z] } rfl rfl rfl
      exact ⟨F', hl.snoc hg hF', fun _ => ⟨hF2.1, by rw [hh, hF2.2]; exact rfl, by rw [hh]; rfl⟩⟩
    | failed =>
      simp only [out_pure] at hr
      subst hr
      have hg : Guard N F .failed := by show F.inflight ≠ _; rw [hif]; simp
      have hh := hold_none hact rfl { k with action := none, snapState := false, reports := k.reports ++ [.failed] } rfl rfl rfl
      exact ⟨_, hl.snoc hg rfl, fun _ => ⟨h.mat, by rw [hh]; exact rfl, by rw [hh]; rfl⟩⟩
    | higher =>
      simp only [out_pure] at hr
      subst hr
      exact ⟨F, hl, fun hx => by cases hx⟩

theorem act_ended {k k' : Task} {snap : Option LogId} {a : Ans} (hr : k.act snap a = .ok k') (he : k.ended = true) : k' = k := by
  unfold Task.act at hr
  rw [if_pos he, out_pure] at hr
  exact hr.symm

theorem act_sess {k k' : Task} {snap : Option LogId} {a : Ans} (hr : k.act snap a = .ok k') : k'.sess = k.sess := by
  unfold Task.act at hr
  split at hr
  · rw [out_pure] at hr; subst hr; rfl
  · split at hr
    · rw [out_pure] at hr; subst hr; rfl
    · cases a <;> simp only [out_bind, out_pure] at hr
      all_goals first | (subst hr; rfl) | (obtain ⟨_, _, rfl⟩ := hr; rfl)
    · cases a <;> simp only [out_bind, out_pure] at hr
      all_goals first | (subst hr; rfl) | (obtain ⟨_, _, rfl⟩ := hr; rfl)
    · split at hr <;> (rw [out_pure] at hr; subst hr; rfl)
    · split at hr <;> (rw [out_pure] at hr; subst hr; rfl)

/-- a round does not abort the task -/
theorem act_total {k : Task} {snap : Option LogId} {a : Ans} (ha : AnsOk k a) : ∃ k', k.act snap a = .ok k' := by
  unfold Task.act
  split
  · exact ⟨_, rfl⟩
  · split
    · exact ⟨_, rfl⟩
    · next hact =>
      cases a with
      | conflict =>
        have hm : k.matching ≠ none := by unfold AnsOk at ha; rw [hact] at ha; exact ha
        obtain ⟨x, hx⟩ := Option.ne_none_iff_exists'.1 hm
        simp only [hx, out_bind, out_pure, lift_ok, unwrap_ok]
        exact ⟨_, x, rfl, rfl⟩
      | _ => exact ⟨_, rfl⟩
    · next p q hact =>
      cases a with
      | conflict =>
        obtain ⟨c, hc, _⟩ : ∃ c, p = some c ∧ nextIndex k.matching ≤ c.index := by unfold AnsOk at ha; rw [hact] at ha; exact ha
        simp only [hc, out_bind, out_pure, lift_ok, unwrap_ok]
        exact ⟨_, c, rfl, rfl⟩
      | _ => exact ⟨_, rfl⟩
    · split <;> exact ⟨_, rfl⟩
    · split <;> exact ⟨_, rfl⟩

/-- the snapshot was sent -/
theorem Bears.sentSnap {N : Nat} {k : Task} {rs : List Inflight} {F : Repl.Entry} (h : Bears N k rs F) (hen : k.ended = false) (r : SnapRes) :
    Bears N (k.sentSnap r) rs F := by
  unfold Task.sentSnap
  split
  · exact h
  · next x hx =>
    unfold Task.give
    simp only
    rw [if_neg (by rw [hen]; simp)]
    have hh : k.hold rs = (k.action.toList.filter Data.payload ++ [] ++ (Data.callback (.installed x) :: k.inbox.filter Data.payload) ++ rs.flatMap Data.of) := by
      unfold Task.hold; rw [hx]; simp
    have hl := h.fit.len
    rw [hh] at hl
    obtain ⟨h1, _, h3, h4⟩ := one_of_four hl
    have e4 : k.hold rs = [.callback (.installed x)] := by rw [hh, h1, h3, h4]; rfl
    have hif : ∃ y, F.inflight = .snapshot y ∧ nextIndex x ≤ N := by
      have := h.fit
      rw [e4] at this
      cases hi : F.inflight with
      | none => rw [hi] at this; cases this
      | logs p' q' => rw [hi] at this; cases this
      | snapshot y =>
        rw [hi] at this
        rcases this with ⟨o, ho⟩ | ⟨r', ho, hr'⟩
        · cases ho
        · cases ho; exact ⟨y, rfl, hr' x rfl⟩
    obtain ⟨y, hif, hb⟩ := hif
    have hnew : ∀ d : SnapRes, Task.hold { k with sending := none, inbox := k.inbox ++ [.callback d] } rs = [.callback d] := by
      intro d
      unfold Task.hold
      simp only [List.filter_append]
      rw [h1, h3, h4]; rfl
    refine ⟨h.mat, ?_, ?_⟩
    · rw [hif, hnew]
      refine Or.inr ⟨_, rfl, fun z hz => ?_⟩
      cases r with
      | installed w => cases hz; exact hb
      | failed => cases hz
      | higher => cases hz
    · rw [hnew]
      show k.snapState = _
      rw [h.snap, e4]; rfl

/-- a request arrives that was in a command -/
theorem Bears.give {N : Nat} {k : Task} {rs : List Inflight} {F : Repl.Entry} {q : Inflight} (h : Bears N k (q :: rs) F) (hen : k.ended = false) :
    Bears N ((Data.of q).foldl Task.give k) rs F := by
  have key : ∀ d : Data, Data.of q = [d] → Bears N (k.give d) rs F := by
    intro d hd
    have hpay : d.payload = true := by cases q <;> cases hd <;> rfl
    unfold Task.give
    rw [if_neg (by rw [hen]; simp)]
    have hh : Task.hold { k with inbox := k.inbox ++ [d] } rs = k.hold (q :: rs) := by
      unfold Task.hold
      simp only [List.filter_append, List.flatMap_cons, hd]
      rw [List.filter_cons_of_pos hpay]
      simp
    exact ⟨h.mat, by rw [hh]; exact h.fit, by rw [hh]; exact h.snap⟩
  cases q with
  | none =>
    have hh : k.hold (.none :: rs) = k.hold rs := by unfold Task.hold; rfl
    show Bears N k rs F
    exact ⟨h.mat, by rw [← hh]; exact h.fit, by rw [← hh]; exact h.snap⟩
  | logs p x => exact key _ rfl
  | snapshot x => exact key _ rfl

theorem Bears.giveCommitted {N : Nat} {k : Task} {rs : List Inflight} {F : Repl.Entry} (h : Bears N k rs F) (hen : k.ended = false) :
    Bears N (k.give .committed) rs F := by
  unfold Task.give
  rw [if_neg (by rw [hen]; simp)]
  have hh : Task.hold { k with inbox := k.inbox ++ [.committed] } rs = k.hold rs := by
    unfold Task.hold
    simp only [List.filter_append]
    have : List.filter Data.payload [Data.committed] = [] := rfl
    rw [this, List.append_nil]
  exact ⟨h.mat, by rw [hh]; exact h.fit, by rw [hh]; exact h.snap⟩

theorem give_same (k : Task) (d : Data) : (k.give d).sess = k.sess ∧ (k.give d).reports = k.reports ∧ (k.give d).ended = k.ended := by
  unfold Task.give
  split <;> exact ⟨rfl, rfl, rfl⟩

theorem gives_same (k : Task) (ds : List Data) : (ds.foldl Task.give k).sess = k.sess ∧ (ds.foldl Task.give k).reports = k.reports ∧ (ds.foldl Task.give k).ended = k.ended := by
  induction ds generalizing k with
  | nil => exact ⟨rfl, rfl, rfl⟩
  | cons d ds ih =>
    obtain ⟨a, b, c⟩ := ih (k.give d)
    obtain ⟨a', b', c'⟩ := give_same k d
    exact ⟨a.trans a', b.trans b', c.trans c'⟩

theorem sentSnap_same (k : Task) (r : SnapRes) : (k.sentSnap r).sess = k.sess ∧ (k.sentSnap r).reports = k.reports ∧ (k.sentSnap r).ended = k.ended := by
  unfold Task.sentSnap
  split
  · exact ⟨rfl, rfl, rfl⟩
  · exact give_same _ _

/-! ## The invariant -/

/-- what is in flight for the target of a task of the session in force, and what the task holds -/
def Suits (e : Eng) (pd : List Cmd) (l : Leader) (t : NodeId) (k : Task) : Prop :=
  e.st.ms.effective.mem.Has t ∧ ∃ F, Line (nextIndex l.lastLogId) (l.progress.ent t) k.reports F ∧
    (k.ended = false → Bears (nextIndex l.lastLogId) k (reqs t pd) F)

/-- the streams are those of the session in force -/
def Running (e : Eng) (pd : List Cmd) (task : NodeId → Option Task) (l : Leader) : Prop :=
  (∀ c ∈ pd, c.noRb) ∧ ∀ t k, task t = some k → e.sessionMatch k.sess = true → Suits e pd l t k

/-- the streams are to be rebuilt -/
def ToBuild (e : Eng) (pd : List Cmd) (task : NodeId → Option Task) (l : Leader) : Prop :=
  ∃ (as : List Cmd) (ts : List (NodeId × Repl.Entry)) (bs : List Cmd) (f : NodeId → Repl.Entry), pd = as ++ Cmd.rebuild ts :: bs ∧
    (∀ c ∈ as, c.noRb) ∧ (∀ c ∈ bs, c.noRb) ∧ (∀ t en, (t, en) ∈ ts → en = f t ∧ t ≠ e.cfg.id) ∧
    (∀ t, t ≠ e.cfg.id → (f t).inflight = .none ∧ Starts (f t) (l.progress.ent t) (reqs t bs)) ∧
    ∀ t k, task t = some k → Before e k.sess

structure TInv (e : Eng) (pd : List Cmd) (task : NodeId → Option Task) (past : NodeId → List Session) : Prop where
  inf : Inf e
  tk : ∀ t k, task t = some k → t ≠ e.cfg.id ∧ Upto e k.sess
  past : ∀ t s, s ∈ past t → Before e s
  lead : ∀ l, e.leader = some l → Running e pd task l ∨ ToBuild e pd task l

variable {e e' : Eng} {pd : List Cmd} {task : NodeId → Option Task} {past : NodeId → List Session}

theorem Suits.same {l : Leader} {t : NodeId} {k : Task} (h : Suits e pd l t k) (h2 : e'.st.ms.effective = e.st.ms.effective) : Suits e' pd l t k := by
  unfold Suits; rw [h2]; exact h

theorem TInv.same (h : TInv e pd task past) (h1 : e'.leader = e.leader) (h2 : e'.st.ms.effective = e.st.ms.effective) (h3 : e'.cfg = e.cfg)
    (h4 : e'.st.vote.data = e.st.vote.data) : TInv e' pd task past := by
  have hm : ∀ s, s.vote.committed = true → e'.sessionMatch s = true → e.sessionMatch s = true := by
    intro s hs hx; rw [sessionMatch_iff hs] at hx ⊢; rw [h1, h2] at hx; exact hx
  have hb : ∀ s, Before e s → Before e' s := by
    intro s hs; unfold Before; rw [h1, h2, h4]; exact hs
  refine ⟨?_, ?_, ?_, ?_⟩
  · unfold Inf; rw [h1, h3]; exact h.inf
  · intro t k hk; unfold Upto; rw [h1, h2, h3, h4]; exact h.tk t k hk
  · intro t s hs; exact hb s (h.past t s hs)
  · intro l hl
    rw [h1] at hl
    rcases h.lead l hl with ⟨a1, a2⟩ | ⟨as, ts, bs, f, b1, b2, b3, b4, b5, b6⟩
    · exact Or.inl ⟨a1, fun t k hk hx => (a2 t k hk (hm _ (h.tk t k hk).2.1 hx)).same h2⟩
    · exact Or.inr ⟨as, ts, bs, f, b1, b2, b3, by rw [h3]; exact b4, by rw [h3]; exact b5, fun t k hk => hb _ (b6 t k hk)⟩

/-- one task changes -/
theorem TInv.put (h : TInv e pd task past) {t : NodeId} {k k' : Task} (hk : task t = some k) (hs : k'.sess = k.sess)
    (hg : ∀ l, e.leader = some l → e.sessionMatch k.sess = true → Suits e pd l t k → Suits e pd l t k') :
    TInv e pd (fun i => if i = t then some k' else task i) past := by
  have key : ∀ i x, (if i = t then some k' else task i) = some x → ∃ y, task i = some y ∧ x.sess = y.sess := by
    intro i x hx
    split at hx
    · next hi => cases hx; subst hi; exact ⟨k, hk, hs⟩
    · exact ⟨x, hx, rfl⟩
  refine ⟨h.inf, ?_, h.past, ?_⟩
  · intro i x hx
    obtain ⟨y, h1, h2⟩ := key i x hx
    rw [h2]; exact h.tk i y h1
  · intro l hl
    rcases h.lead l hl with ⟨a1, a2⟩ | ⟨as, ts, bs, f, b1, b2, b3, b4, b5, b6⟩
    · refine Or.inl ⟨a1, fun i x hx hm => ?_⟩
      dsimp only at hx
      split at hx
      · next hi => cases hx; subst hi; rw [hs] at hm; exact hg l hl hm (a2 i k hk hm)
      · exact a2 i x hx hm
    · refine Or.inr ⟨as, ts, bs, f, b1, b2, b3, b4, b5, fun i x hx => ?_⟩
      obtain ⟨y, h1, h2⟩ := key i x hx
      rw [h2]; exact b6 i y h1

theorem hold_snoc (k : Task) (rs : List Inflight) (q : Inflight) : k.hold (rs ++ [q]) = k.hold rs ++ Data.of q := by
  unfold Task.hold; simp

/-- commands are added; a leader starts requests -/
theorem Suits.starts {l0 l : Leader} {t : NodeId} {k : Task} {cs : List Cmd} (h : Suits e pd l0 t k) (he : e'.st.ms.effective = e.st.ms.effective)
    (hn : nextIndex l0.lastLogId ≤ nextIndex l.lastLogId) (hs : Starts (l0.progress.ent t) (l.progress.ent t) (reqs t cs)) : Suits e' (pd ++ cs) l t k := by
  obtain ⟨h1, F, h2, h3⟩ := h
  refine ⟨by rw [he]; exact h1, ?_⟩
  rw [reqs_append]
  rcases hs with ⟨s1, s2⟩ | ⟨s1, q, _, s3, s4⟩
  · rw [s1, s2, List.append_nil]
    exact ⟨F, h2.mono hn, fun x => (h3 x).mono hn⟩
  · obtain ⟨r1, r2⟩ := h2.none s1
    rw [r1, s3]
    refine ⟨_, .nil _, fun x => ?_⟩
    have hh := h3 x
    subst r2
    have hf := hh.fit
    rw [s1] at hf
    have hf : k.hold (reqs t pd) = [] := hf
    have hd : k.hold (reqs t pd ++ [q]) = Data.of q := by rw [hold_snoc, hf]; rfl
    have hsn := hh.snap
    rw [hf] at hsn
    rw [s4]
    refine ⟨hh.mat, ?_, ?_⟩
    · rw [hd]
      cases q with
      | none => exact rfl
      | logs a b => exact rfl
      | snapshot a => exact Or.inl ⟨a, rfl⟩
    · rw [hd, hsn]; cases q <;> rfl

theorem kept_vote {g g' : Gh} {l0 l : Leader} (hI : EInv g e) (hI' : EInv g' e') (h0 : e.leader = some l0) (hl : e'.leader = some l)
    (h : l.vote.leaderId = l0.vote.leaderId) : l.vote = l0.vote := by
  have a : l0.vote.committed = true := by rw [(hI.pj.lead l0 h0).vote]; exact (hI.pj.lead l0 h0).com
  have b : l.vote.committed = true := by rw [(hI'.pj.lead l hl).vote]; exact (hI'.pj.lead l hl).com
  cases hx : l.vote
  cases hy : l0.vote
  rw [hx] at b h; rw [hy] at a h
  simp only at a b h
  rw [a, b, h]

/-- an input other than a report of the session in force -/
theorem TInv.pv {g g' : Gh} {cs : List Cmd} (h : TInv e pd task past) (hI : EInv g e) (hI' : EInv g' e') (hn : Ln e') (hs : Sent false e e') (hc : e'.cfg = e.cfg)
    (hv : e.st.vote.data ≤ e'.st.vote.data) (hp : PV e e') (ho : OneRb e e') (hf : FreshRb e e') (hcs : e'.out = e.out ++ cs)
    (hap : (∀ c ∈ pd, c.noRb) ∨ ∀ c ∈ cs, c.noRb) : TInv e' (pd ++ cs) task past := by
  have hcut : ∀ ds, e'.out = e.out ++ ds → ds = cs := fun ds hd => List.append_cancel_left (hd.symm.trans hcs)
  have hinf := inf_pv hI' hn hs hc hp h.inf
  by_cases hmade : ∃ l ds, e'.leader = some l ∧ e'.out = e.out ++ ds ∧ Made e' l ds
  · obtain ⟨l, ds, hl, hds, as, ts, bs, f, m1, m2, m3, m4⟩ := hmade
    have hds2 := hcut ds hds
    subst hds2
    have hrb : Cmd.rebuild ts ∈ ds := by rw [m1]; simp
    have hpd : ∀ c ∈ pd, c.noRb := by
      rcases hap with h1 | h1
      · exact h1
      · exact absurd (h1 _ hrb) (fun hh => hh)
    have hnew : NewSt e e' := by
      rcases hf with ⟨xs, h1, h2⟩ | h1 | h1
      · cases hcut xs h1
        exact absurd (h2 _ hrb) (fun hh => hh)
      · exact Or.inl (Option.isSome_iff_exists.1 (by rw [Option.isSome_iff_exists]; exact h1))
      · exact Or.inr h1
    have has : ∀ c ∈ as, c.noRb := by
      rcases ho with ⟨xs, h1, h2⟩ | ⟨pre, us, post, h1, h2, h3, _⟩
      · cases hcut xs h1
        exact absurd (h2 _ hrb) (fun hh => hh)
      · have := hcut _ h1
        rw [m1] at this
        exact rb_unique this.symm h2 h3
    have hbef : ∀ t k, task t = some k → Before e' k.sess := fun t k hk => (h.tk t k hk).2.new hI hv hnew
    refine ⟨hinf, fun t k hk => ⟨by rw [hc]; exact (h.tk t k hk).1, (hbef t k hk).upto⟩, fun t s hs => (h.past t s hs).upto.new hI hv hnew, ?_⟩
    intro l' hl'
    rw [hl] at hl'; cases hl'
    refine Or.inr ⟨pd ++ as, ts, bs, f, by rw [m1, List.append_assoc], ?_, m2, m3, m4, hbef⟩
    intro c hx
    rcases List.mem_append.1 hx with hx | hx
    · exact hpd c hx
    · exact has c hx
  · have hkept : ∀ l, e'.leader = some l → Kept e e' l cs := by
      intro l hl
      obtain ⟨ds, h1, h2 | h2⟩ := hp.lead l hl
      · cases hcut ds h1; exact h2
      · exact absurd ⟨l, ds, hl, h1, h2⟩ hmade
    have hold : (∃ l, e'.leader = some l) → OldSt e e' := by
      rintro ⟨l, hl⟩
      obtain ⟨l0, k1, _, k3, _⟩ := hkept l hl
      exact ⟨l0, k1, k3⟩
    refine ⟨hinf, fun t k hk => ⟨by rw [hc]; exact (h.tk t k hk).1, (h.tk t k hk).2.old hv hold⟩, fun t s hs => (h.past t s hs).old hv hold, ?_⟩
    intro l hl
    obtain ⟨l0, k1, k2, k3, k4, k5, k6⟩ := hkept l hl
    rcases h.lead l0 k1 with ⟨a1, a2⟩ | ⟨as, ts, bs, f, b1, b2, b3, b4, b5, b6⟩
    · refine Or.inl ⟨?_, fun t k hk hm => ?_⟩
      · intro c hx
        rcases List.mem_append.1 hx with hx | hx
        · exact a1 c hx
        · exact k5 c hx
      · have hcm := (h.tk t k hk).2.1
        obtain ⟨l', m1, m2, m3⟩ := (sessionMatch_iff hcm).1 hm
        rw [hl] at m1; cases m1
        have hm0 : e.sessionMatch k.sess = true :=
          (sessionMatch_iff hcm).2 ⟨l0, k1, by rw [← kept_vote hI hI' k1 hl k2]; exact m2, by rw [← k3]; exact m3⟩
        exact (a2 t k hk hm0).starts k3 k4 (k6 t (by rw [hc]; exact (h.tk t k hk).1))
    · refine Or.inr ⟨as, ts, bs ++ cs, f, by rw [b1]; simp, b2, ?_, by rw [hc]; exact b4, fun t ht => ?_, fun t k hk => (b6 t k hk).old hv hold⟩
      · intro c hx
        rcases List.mem_append.1 hx with hx | hx
        · exact b3 c hx
        · exact k5 c hx
      · obtain ⟨c1, c2⟩ := b5 t (by rw [← hc]; exact ht)
        refine ⟨c1, ?_⟩
        rw [reqs_append]
        exact c2.trans (k6 t ht)

/-- a report of the session in force -/
theorem TInv.reported {cs : List Cmd} {l l' : Leader} {t : NodeId} {k : Task} {r : ReplResult} {rs : List ReplResult} {g : Gh} (hI : EInv g e) (h : TInv e pd task past)
    (hms : e.sessionMatch k.sess = true) (hr : Eng.Reported false t r e e' l l') (hcs : e'.out = e.out ++ cs) (hv : e'.st.vote.data = e.st.vote.data) (hk : task t = some k) (hrs : k.reports = r :: rs) :
    TInv e' (pd ++ cs) (fun i => if i = t then some { k with reports := rs } else task i) past := by
  have hgd : Guard (nextIndex l.lastLogId) (l.progress.ent t) r := by
    rcases h.lead l hr.1 with ⟨_, a2⟩ | ⟨_, _, _, _, _, _, _, _, _, b6⟩
    · obtain ⟨_, F, s2, _⟩ := a2 t k hk hms
      rw [hrs] at s2
      cases s2 with
      | cons g1 _ _ => exact g1
    · have := (b6 t k hk).noMatch hI
      rw [hms] at this; cases this
  have hinf := inf_reported hr hgd h.inf
  obtain ⟨h1, h2, h3, h4, h5, h6, ⟨ds, d1, d2⟩, h7, h8⟩ := hr
  have : ds = cs := List.append_cancel_left (d1.symm.trans hcs)
  subst this
  have hrq : ∀ i, reqs i (pd ++ ds) = reqs i pd := by
    intro i; rw [reqs_append, reqs_noStream d2, List.append_nil]
  have hb : ∀ s, Before e s → Before e' s := fun s hs => hs.old (by rw [hv]) fun _ => ⟨l, h1, h5⟩
  have hu : ∀ s, Upto e s → Upto e' s := fun s hs => hs.old (by rw [hv]) fun _ => ⟨l, h1, h5⟩
  have hm : ∀ s, s.vote.committed = true → e'.sessionMatch s = true → e.sessionMatch s = true := by
    intro s hs hx
    rw [sessionMatch_iff hs] at hx ⊢
    obtain ⟨l2, x1, x2, x3⟩ := hx
    rw [h2] at x1; cases x1
    exact ⟨l, h1, by rw [← h3]; exact x2, by rw [← h5]; exact x3⟩
  have key : ∀ i x, (if i = t then some { k with reports := rs } else task i) = some x → ∃ y, task i = some y ∧ x.sess = y.sess := by
    intro i x hx
    split at hx
    · next hi => cases hx; subst hi; exact ⟨k, hk, rfl⟩
    · exact ⟨x, hx, rfl⟩
  have hrb : ∀ (xs : List Cmd), (∀ c ∈ xs, c.noRb) → ∀ c ∈ xs ++ ds, c.noRb := by
    intro xs hx c hc
    rcases List.mem_append.1 hc with hc | hc
    · exact hx c hc
    · exact (d2 c hc).rb
  refine ⟨hinf, ?_, fun i s hs => hb s (h.past i s hs), ?_⟩
  · intro i x hx
    obtain ⟨y, y1, y2⟩ := key i x hx
    rw [y2, h6]; exact ⟨(h.tk i y y1).1, hu _ (h.tk i y y1).2⟩
  · intro l2 hl2
    rw [h2] at hl2; cases hl2
    rcases h.lead l h1 with ⟨a1, a2⟩ | ⟨as, ts, bs, f, b1, b2, b3, b4, b5, b6⟩
    · refine Or.inl ⟨hrb _ a1, fun i x hx hmx => ?_⟩
      dsimp only at hx
      obtain ⟨y, y1, y2⟩ := key i x hx
      rw [y2] at hmx
      have hmx := hm _ (h.tk i y y1).2.1 hmx
      obtain ⟨s1, F, s2, s3⟩ := a2 i y y1 hmx
      refine ⟨by rw [h5]; exact s1, F, ?_, ?_⟩
      · rw [h4]
        by_cases hi : i = t
        · subst hi
          rw [if_pos rfl] at hx
          cases hx
          rw [hk] at y1; cases y1
          rw [hrs] at s2
          cases s2 with
          | cons g1 g2 g3 => rw [h8] at g2; cases g2; exact g3
        · rw [if_neg hi, y1] at hx
          cases hx
          rw [h7 i hi]; exact s2
      · intro hx2
        rw [hrq, h4]
        by_cases hi : i = t
        · subst hi
          rw [if_pos rfl] at hx
          cases hx
          rw [hk] at y1; cases y1
          have := s3 hx2
          exact ⟨this.mat, this.fit, this.snap⟩
        · rw [if_neg hi, y1] at hx
          cases hx
          exact s3 hx2
    · have := (b6 t k hk).noMatch hI
      rw [hms] at this; cases this

/-! ## Commands -/

theorem exec_same {dbg : Bool} {n n1 : Node} {c : Cmd} (h : n.exec dbg c = .ok n1) :
    n1.eng.leader = n.eng.leader ∧ n1.eng.st.ms.effective = n.eng.st.ms.effective ∧ n1.eng.cfg = n.eng.cfg ∧ n1.eng.st.vote.data = n.eng.st.vote.data := by
  obtain ⟨p, x, h3, _⟩ := (exec_frame h).eng
  rw [h3]; exact ⟨rfl, rfl, rfl, rfl⟩

/-- a command that changes each task by itself is executed -/
theorem TInv.map {c : Cmd} {task' : NodeId → Option Task} (h : TInv e (c :: pd) task past) (hc : c.noRb)
    (hk : ∀ t k', task' t = some k' → ∃ k, task t = some k ∧ k'.sess = k.sess ∧ k'.reports = k.reports ∧ k'.ended = k.ended ∧
      ∀ N F, k.ended = false → Bears N k (reqs t (c :: pd)) F → Bears N k' (reqs t pd) F) : TInv e pd task' past := by
  refine ⟨h.inf, ?_, h.past, ?_⟩
  · intro t k' hx
    obtain ⟨k, h1, h2, _⟩ := hk t k' hx
    rw [h2]; exact h.tk t k h1
  · intro l hl
    rcases h.lead l hl with ⟨a1, a2⟩ | ⟨as, ts, bs, f, b1, b2, b3, b4, b5, b6⟩
    · refine Or.inl ⟨fun x hx => a1 x (List.mem_cons_of_mem _ hx), fun t k' hx hm => ?_⟩
      obtain ⟨k, h1, h2, h3, h4, h5⟩ := hk t k' hx
      rw [h2] at hm
      obtain ⟨s1, F, s2, s3⟩ := a2 t k h1 hm
      refine ⟨s1, F, by rw [h3]; exact s2, fun he => ?_⟩
      rw [h4] at he
      exact h5 _ _ he (s3 he)
    · refine Or.inr ?_
      cases as with
      | nil => cases b1; exact absurd hc (fun hh => hh)
      | cons a as =>
        simp only [List.cons_append, List.cons.injEq] at b1
        refine ⟨as, ts, bs, f, b1.2, fun x hx => b2 x (List.mem_cons_of_mem _ hx), b3, b4, b5, fun t k' hx => ?_⟩
        obtain ⟨k, h1, h2, _⟩ := hk t k' hx
        rw [h2]; exact b6 t k h1

/-- the streams are rebuilt -/
theorem TInv.rebuild {g : Gh} {n : Node} {ts : List (NodeId × Repl.Entry)} (h : TInv n.eng (.rebuild ts :: pd) task past) (hI : EInv g n.eng)
    (ht : ∀ l, n.eng.leader = some l → (∀ c ∈ pd, c.noRb) → ∀ t ∈ ts.map (·.1), n.eng.st.ms.effective.mem.Has t) :
    TInv n.eng pd (Team.spawn n ts) (fun i => past i ++ (task i).toList.map (·.sess)) := by
  have hsp : ∀ t k, Team.spawn n ts t = some k → ∃ l en, n.eng.leader = some l ∧ (t, en) ∈ ts ∧ k = .new ⟨l.vote, n.eng.st.ms.effective.logId⟩ en.matching := by
    intro t k hk
    unfold Team.spawn Team.session at hk
    split at hk
    · next x s h1 h2 =>
      cases hk
      obtain ⟨l, hl, rfl⟩ := Option.map_eq_some_iff.1 h2
      have h3 := List.find?_some h1
      have h4 := List.mem_of_find?_eq_some h1
      simp only [beq_iff_eq] at h3
      exact ⟨l, x.2, hl, by rw [← h3]; exact h4, rfl⟩
    · cases hk
  have hin : ∀ l, n.eng.leader = some l → ∃ f : NodeId → Repl.Entry, (∀ c ∈ pd, c.noRb) ∧ (∀ t en, (t, en) ∈ ts → en = f t ∧ t ≠ n.eng.cfg.id) ∧
      (∀ t, t ≠ n.eng.cfg.id → (f t).inflight = .none ∧ Starts (f t) (l.progress.ent t) (reqs t pd)) ∧ ∀ t k, task t = some k → Before n.eng k.sess := by
    intro l hl
    rcases h.lead l hl with ⟨a1, _⟩ | ⟨as, us, bs, f, b1, b2, b3, b4, b5, b6⟩
    · exact absurd (a1 (.rebuild ts) (by simp)) (fun hh => hh)
    · cases as with
      | nil => cases b1; exact ⟨f, b3, b4, b5, b6⟩
      | cons a as =>
        simp only [List.cons_append, List.cons.injEq] at b1
        have := b2 a (by simp)
        rw [← b1.1] at this
        exact absurd this (fun hh => hh)
  refine ⟨h.inf, ?_, ?_, ?_⟩
  · intro t k hk
    obtain ⟨l, en, hl, hm, rfl⟩ := hsp t k hk
    obtain ⟨f, _, f2, _⟩ := hin l hl
    have hv := (hI.pj.lead l hl).vote
    refine ⟨(f2 t en hm).2, ?_, ?_, fun _ _ _ => le_refl _⟩
    · show l.vote.committed = true
      rw [hv]; exact (hI.pj.lead l hl).com
    · show l.vote ≤ _
      rw [hv]
  · intro t s hs
    rcases List.mem_append.1 hs with hs | hs
    · exact h.past t s hs
    · obtain ⟨k, hk, rfl⟩ := List.mem_map.1 hs
      rw [Option.mem_toList] at hk
      have hu := (h.tk t k hk).2
      refine ⟨hu.1, hu.2.1, fun hx l hl => ?_⟩
      obtain ⟨f, _, _, _, f4⟩ := hin l hl
      exact (f4 t k hk).2.2 hx l hl
  · intro l hl
    obtain ⟨f, f1, f2, f3, _⟩ := hin l hl
    refine Or.inl ⟨f1, fun t k hk _ => ?_⟩
    obtain ⟨l', en, _, hm, rfl⟩ := hsp t k hk
    obtain ⟨g1, g2⟩ := f2 t en hm
    obtain ⟨g3, g4⟩ := f3 t g2
    refine ⟨ht l hl f1 t (List.mem_map.2 ⟨_, hm, rfl⟩), _, .nil _, fun _ => ?_⟩
    have hh : Task.hold (.new ⟨l'.vote, n.eng.st.ms.effective.logId⟩ en.matching) (reqs t pd) = (reqs t pd).flatMap Data.of := rfl
    rcases g4 with ⟨s1, s2⟩ | ⟨_, q, _, s1, s2⟩
    · rw [s1] at hh ⊢
      rw [s2]
      refine ⟨by rw [← g1]; rfl, ?_, ?_⟩
      · rw [hh, g3]; exact rfl
      · rw [hh]; rfl
    · rw [s1] at hh ⊢
      rw [s2]
      have hd : ([q] : List Inflight).flatMap Data.of = Data.of q := by simp
      rw [hd] at hh
      refine ⟨by rw [← g1]; rfl, ?_, ?_⟩
      · rw [hh]
        cases q with
        | none => exact rfl
        | logs a b => exact rfl
        | snapshot a => exact Or.inl ⟨a, rfl⟩
      · rw [hh]; cases q <;> rfl

theorem reqs_cons_ne {t : NodeId} {c : Cmd} {cs : List Cmd} (h : c.req t = none) : reqs t (c :: cs) = reqs t cs := by
  unfold reqs; rw [List.filterMap_cons, h]

/-- what the execution of the next command does -/
theorem TInv.exec {g : Gh} {c : Team} {cmd : Cmd} {n1 : Node} (h : TInv c.n.eng (cmd :: pd) c.task c.past) (hI : EInv g c.n.eng)
    (ht : ∀ ts, cmd = .rebuild ts → ∀ l, c.n.eng.leader = some l → (∀ c ∈ pd, c.noRb) → ∀ t ∈ ts.map (·.1), c.n.eng.st.ms.effective.mem.Has t)
    (hx : c.n.exec false cmd = .ok n1) (n' : Node) : TInv n1.eng pd (c.exec n' cmd).task (c.exec n' cmd).past := by
  obtain ⟨s1, s2, s3, s4⟩ := exec_same hx
  refine TInv.same ?_ s1 s2 s3 s4
  have other : cmd.noStream → (c.exec n' cmd).task = c.task → (c.exec n' cmd).past = c.past → TInv c.n.eng pd (c.exec n' cmd).task (c.exec n' cmd).past := by
    intro h1 h2 h3
    rw [h2, h3]
    refine h.map h1.rb fun t k hk => ⟨k, hk, rfl, rfl, rfl, fun N F _ hb => ?_⟩
    rw [reqs_cons_ne (h1.req t)] at hb; exact hb
  cases cmd with
  | rebuild ts => exact h.rebuild hI (ht ts rfl)
  | replicate t q =>
    refine h.map trivial fun i k' hk => ?_
    replace hk : (if i = t then (c.task i).map fun k => (Data.of q).foldl Task.give k else c.task i) = some k' := hk
    split at hk
    · next hi =>
      subst hi
      obtain ⟨k, hk1, rfl⟩ := Option.map_eq_some_iff.1 hk
      obtain ⟨g1, g2, g3⟩ := gives_same k (Data.of q)
      refine ⟨k, hk1, g1, g2, g3, fun N F he hb => ?_⟩
      have : reqs i (.replicate i q :: pd) = q :: reqs i pd := by unfold reqs; simp [Cmd.req]
      rw [this] at hb
      exact hb.give he
    · next hi =>
      refine ⟨k', hk, rfl, rfl, rfl, fun N F _ hb => ?_⟩
      rw [reqs_cons_ne (t := i) (c := .replicate t q) (if_neg (Ne.symm hi))] at hb
      exact hb
  | replCommitted x =>
    refine h.map trivial fun i k' hk => ?_
    have hk : (c.task i).map (·.give .committed) = some k' := hk
    obtain ⟨k, hk1, rfl⟩ := Option.map_eq_some_iff.1 hk
    obtain ⟨g1, g2, g3⟩ := give_same k .committed
    refine ⟨k, hk1, g1, g2, g3, fun N F he hb => ?_⟩
    rw [reqs_cons_ne rfl] at hb
    exact hb.giveCommitted he
  | _ => exact other trivial rfl rfl

end Openraft.Runtime
