import Verif.Pure.ChangeApi
import Verif.Props.QuorumProps

/-!
# C50: what a call of `change_membership` has done when it returns `Ok`
-/

set_option autoImplicit false

namespace Openraft.Props
open Openraft Openraft.Membership Openraft.ChangeApi

/-! ## One request after the other -/

theorem union_of_subset {a b : List Nat} (ha : BSet.Sorted a) (h : ∀ x ∈ b, x ∈ a) : BSet.union a b = a :=
  BSet.sorted_ext (BSet.sorted_union ha) ha fun x => by rw [BSet.mem_union]; exact ⟨fun hx => hx.elim id (h x), Or.inl⟩

theorem diff_diff_self (a b : List Nat) : BSet.diff (BSet.diff a b) b = BSet.diff a b := by
  unfold BSet.diff
  rw [List.filter_filter]
  congr 1; funext x; simp

/-- the set that a request about voters makes the last config -/
def goalOf (last : List NodeId) : ChangeMembers → List NodeId
  | .addVoterIds ids => BSet.union last ids
  | .addVoters ns => BSet.union last (BMap.keys ns)
  | .removeVoters ids => BSet.diff last ids
  | .replaceAllVoters ids => ids
  | _ => last

theorem goalOf_sorted {last : List NodeId} {ch : ChangeMembers} (h : BSet.Sorted last) (hs : SortedReq ch) :
    BSet.Sorted (goalOf last ch) := by
  cases ch with
  | addVoterIds ids => exact BSet.sorted_union h
  | addVoters ns => exact BSet.sorted_union h
  | removeVoters ids => exact BSet.sorted_diff h
  | replaceAllVoters ids => exact hs
  | _ => exact h

/-- asking again for the same change asks for the same voters -/
theorem goalOf_again {last : List NodeId} {ch : ChangeMembers} (h : BSet.Sorted last) : goalOf (goalOf last ch) ch = goalOf last ch := by
  cases ch with
  | addVoterIds ids => exact union_of_subset (BSet.sorted_union h) fun x hx => BSet.mem_union.2 (Or.inr hx)
  | addVoters ns => exact union_of_subset (BSet.sorted_union h) fun x hx => BSet.mem_union.2 (Or.inr hx)
  | removeVoters ids => exact diff_diff_self _ _
  | replaceAllVoters ids => rfl
  | _ => rfl

theorem changeRaw_configs {m : Membership} {ch : ChangeMembers} (retain : Bool) (hv : AboutVoters ch) :
    (changeRaw m ch retain).configs = findCoherent m.configs (goalOf (m.configs.getLast?.getD []) ch) := by
  cases ch with
  | addVoterIds ids => rfl
  | addVoters ns => rfl
  | removeVoters ids => rfl
  | replaceAllVoters ids => rfl
  | _ => cases hv

theorem changeRaw_configs_nodes {m : Membership} {ch : ChangeMembers} (retain : Bool) (hv : ¬ AboutVoters ch) :
    (changeRaw m ch retain).configs = m.configs := by
  cases ch with
  | addNodes _ => rfl
  | setNodes _ => rfl
  | removeNodes _ => rfl
  | replaceAllNodes _ => rfl
  | _ => exact absurd trivial hv

theorem findCoherent_cases (configs : List (List NodeId)) (goal : List NodeId) :
    findCoherent configs goal = [goal] ∨ ∃ c, configs.getLast? = some c ∧ findCoherent configs goal = [c, goal] := by
  unfold findCoherent
  split
  · exact Or.inl rfl
  · split
    · next c hc => exact Or.inr ⟨c, hc, rfl⟩
    · exact Or.inl rfl

theorem shaped_last {m : Membership} (h : Shaped m) : ∃ c, m.configs.getLast? = some c ∧ BSet.Sorted c := by
  cases hg : m.configs.getLast? with
  | none => exact absurd (List.getLast?_eq_none_iff.1 hg) h.1
  | some c => exact ⟨c, rfl, h.2 c (List.mem_of_getLast? hg)⟩

theorem shaped_change {m m' : Membership} {ch : ChangeMembers} {retain : Bool} (h : Shaped m) (hs : SortedReq ch)
    (hc : m.change ch retain = .ok m') : Shaped m' := by
  refine ⟨(C10_change_valid h.1 hc).1, ?_⟩
  obtain ⟨rfl, _⟩ := change_ok hc
  by_cases hv : AboutVoters ch
  · rw [changeRaw_configs retain hv]
    obtain ⟨c, hl, hsc⟩ := shaped_last h
    have hg : BSet.Sorted (goalOf (m.configs.getLast?.getD []) ch) := by rw [hl]; exact goalOf_sorted hsc hs
    intro d hd
    rcases findCoherent_cases m.configs (goalOf (m.configs.getLast?.getD []) ch) with he | ⟨c', hc', he⟩
    · rw [he] at hd; cases List.mem_singleton.1 hd; exact hg
    · rw [he] at hd
      rcases List.mem_cons.1 hd with rfl | hd
      · exact h.2 _ (List.mem_of_getLast? hc')
      · cases List.mem_singleton.1 hd; exact hg
  · rw [changeRaw_configs_nodes retain hv]; exact h.2

/-- A request about voters, made twice in a row, ends in one config. -/
theorem twice_uniform {b m r : Membership} {ch : ChangeMembers} {retain : Bool} (h : Shaped b) (hv : AboutVoters ch)
    (h1 : b.change ch retain = .ok m) (h2 : m.change ch retain = .ok r) :
    r.configs = [goalOf (b.configs.getLast?.getD []) ch] := by
  obtain ⟨c, hl, hsc⟩ := shaped_last h
  obtain ⟨rfl, _⟩ := change_ok h1
  obtain ⟨rfl, _⟩ := change_ok h2
  rw [changeRaw_configs retain hv, changeRaw_configs retain hv, hl]
  show findCoherent (findCoherent b.configs (goalOf c ch)) (goalOf ((findCoherent b.configs (goalOf c ch)).getLast?.getD []) ch) = [goalOf c ch]
  have hlast : (findCoherent b.configs (goalOf c ch)).getLast?.getD [] = goalOf c ch := by
    rcases findCoherent_cases b.configs (goalOf c ch) with he | ⟨c', _, he⟩ <;> rw [he] <;> rfl
  rw [hlast, goalOf_again hsc]
  have hco : isCoherentWith (findCoherent b.configs (goalOf c ch)) (goalOf c ch) = true := by
    unfold isCoherentWith
    rcases findCoherent_cases b.configs (goalOf c ch) with he | ⟨c', _, he⟩ <;> rw [he] <;> simp
  generalize findCoherent b.configs (goalOf c ch) = cs at hco ⊢
  unfold findCoherent
  rw [if_pos hco]

theorem once_uniform {b m : Membership} {ch : ChangeMembers} {retain : Bool} (hv : AboutVoters ch)
    (h1 : b.change ch retain = .ok m) (hm : m.configs.length = 1) :
    m.configs = [goalOf (b.configs.getLast?.getD []) ch] := by
  obtain ⟨rfl, _⟩ := change_ok h1
  rw [changeRaw_configs retain hv] at hm ⊢
  rcases findCoherent_cases b.configs (goalOf (b.configs.getLast?.getD []) ch) with he | ⟨c', _, he⟩
  · exact he
  · rw [he] at hm; simp at hm

theorem mem_goalOf {last : List NodeId} {x : NodeId} {ch : ChangeMembers} : x ∈ goalOf last ch ↔ AsksVoter last x ch := by
  have hk : ∀ (ns : List (NodeId × Nat)), x ∈ BMap.keys ns ↔ ∃ n, (x, n) ∈ ns := by intro ns; simp [BMap.keys]
  cases ch with
  | addVoterIds ids => exact BSet.mem_union
  | addVoters ns => show x ∈ BSet.union _ _ ↔ _; rw [BSet.mem_union, hk]; exact Iff.rfl
  | removeVoters ids => exact BSet.mem_diff
  | _ => exact Iff.rfl

/-! ## Runs -/

/-- what is recorded of a call is what happened -/
def Good (c : Call) : Prop :=
  SortedReq c.changes ∧ match c.phase with
  | .wait1 b m | .got1 b m => Shaped b ∧ b.change c.changes c.retain = .ok m
  | .ask2 b m => Shaped b ∧ b.change c.changes c.retain = .ok m ∧ m.configs.length ≠ 1
  | .wait2 b m b2 m2 | .got2 b m b2 m2 | .ok2 b m b2 m2 =>
    Shaped b ∧ b.change c.changes c.retain = .ok m ∧ m.configs.length ≠ 1 ∧ Shaped b2 ∧ b2.change c.changes c.retain = .ok m2
  | .ok1 b m => Shaped b ∧ b.change c.changes c.retain = .ok m ∧ m.configs.length = 1
  | .ask1 | .failed => True

/-- what a call was told is committed was committed, and what it waits for is pending -/
def Past (s : Sys) (c : Call) : Prop :=
  match c.phase with
  | .wait1 _ m => s.pend = some m
  | .got1 _ m | .ask2 _ m | .ok1 _ m => m ∈ s.past
  | .wait2 _ m _ m2 => m ∈ s.past ∧ s.pend = some m2
  | .got2 _ m _ m2 | .ok2 _ m _ m2 => m ∈ s.past ∧ m2 ∈ s.past
  | .ask1 | .failed => True

/-- What is true in every run. -/
structure CInv (s : Sys) : Prop where
  com : Shaped s.com
  pend : ∀ m ∈ s.pend, Shaped m
  good : ∀ c ∈ s.calls, Good c
  past : ∀ c ∈ s.calls, Past s c

/-- Calls are made one after the other, and there is no other leader: a call is only made when every earlier one has
returned. -/
def OneByOne (s : Sys) : ChangeApi.Ev → Prop
  | .call _ _ => ∀ c ∈ s.calls, c.phase.over = true
  | .foreign _ _ => False
  | _ => True

/-- Everything that can happen to a leader that has the membership `m0`; with `seq`, one call at a time. -/
inductive Calls (seq : Prop) (m0 : Membership) : Sys → Prop
  | init : Calls seq m0 ⟨m0, none, [], [m0]⟩
  | step {s s' : Sys} (ev : ChangeApi.Ev) : Calls seq m0 s → EvOk ev → (seq → OneByOne s ev) → ChangeApi.step s ev = some s' → Calls seq m0 s'

theorem mem_set_cases {α : Type} {l : List α} {i : Nat} {a x : α} (h : x ∈ l.set i a) : x = a ∨ x ∈ l :=
  (List.mem_or_eq_of_mem_set h).symm

theorem good_committed {c : Call} (h : Good c) : Good { c with phase := committed c.phase } := by
  obtain ⟨h0, h⟩ := h
  refine ⟨h0, ?_⟩
  cases hp : c.phase <;> rw [hp] at h <;> exact h

theorem past_committed {s s' : Sys} {c : Call} (h : Past s c) (hp : ∀ m ∈ s.past, m ∈ s'.past) (hq : ∀ m ∈ s.pend, m ∈ s'.past) :
    Past s' { c with phase := committed c.phase } := by
  unfold Past at h ⊢
  cases hc : c.phase <;> rw [hc] at h <;> simp only [committed] <;> simp only at h ⊢
  · exact hq _ h
  · exact hp _ h
  · exact hp _ h
  · exact ⟨hp _ h.1, hq _ h.2⟩
  · exact ⟨hp _ h.1, hp _ h.2⟩
  · exact hp _ h
  · exact ⟨hp _ h.1, hp _ h.2⟩

theorem past_keep {s s' : Sys} {c : Call} (h : Past s c) (hp : ∀ m ∈ s.past, m ∈ s'.past) (hq : s'.pend = s.pend ∨ s.pend = none) : Past s' c := by
  unfold Past at h ⊢
  cases hc : c.phase <;> rw [hc] at h <;> simp only at h ⊢
  · rcases hq with hq | hq
    · rw [hq]; exact h
    · rw [hq] at h; cases h
  · exact hp _ h
  · exact hp _ h
  · rcases hq with hq | hq
    · rw [hq]; exact ⟨hp _ h.1, h.2⟩
    · rw [hq] at h; cases h.2
  · exact ⟨hp _ h.1, hp _ h.2⟩
  · exact hp _ h
  · exact ⟨hp _ h.1, hp _ h.2⟩

theorem past_drop {s s' : Sys} {c d : Call} (h : Past s c) (hg : Good c) (hp : ∀ m ∈ s.past, m ∈ s'.past)
    (hd : d ∈ dropAll [c]) : Good d ∧ Past s' d := by
  cases List.mem_singleton.1 hd
  obtain ⟨h0, hg⟩ := hg
  obtain ⟨ch, rt, ph⟩ := c
  unfold Past at h ⊢
  unfold Good
  cases ph <;> simp only at h hg ⊢
  · exact ⟨⟨h0, trivial⟩, trivial⟩
  · exact ⟨⟨h0, trivial⟩, trivial⟩
  · exact ⟨⟨h0, hg⟩, hp _ h⟩
  · exact ⟨⟨h0, hg⟩, hp _ h⟩
  · exact ⟨⟨h0, trivial⟩, trivial⟩
  · exact ⟨⟨h0, hg⟩, hp _ h.1, hp _ h.2⟩
  · exact ⟨⟨h0, hg⟩, hp _ h⟩
  · exact ⟨⟨h0, hg⟩, hp _ h.1, hp _ h.2⟩
  · exact ⟨⟨h0, trivial⟩, trivial⟩

theorem good_failed {c : Call} (h : Good c) : Good { c with phase := .failed } := ⟨h.1, trivial⟩

theorem CInv.step {s s' : Sys} {ev : ChangeApi.Ev} (h : CInv s) (hok : EvOk ev) (hs : ChangeApi.step s ev = some s') : CInv s' := by
  cases ev with
  | call c r =>
    cases hs
    refine ⟨h.com, h.pend, fun d hd => ?_, fun d hd => ?_⟩
    · rcases List.mem_append.1 hd with hd | hd
      · exact h.good d hd
      · cases List.mem_singleton.1 hd; exact ⟨hok, trivial⟩
    · rcases List.mem_append.1 hd with hd | hd
      · exact past_keep (h.past d hd) (fun m hm => hm) (Or.inl rfl)
      · cases List.mem_singleton.1 hd; trivial
  | take i =>
    simp only [ChangeApi.step] at hs
    split at hs
    · cases hs
    · next c hc =>
      have hcm := List.mem_of_getElem? hc
      split at hs
      · split at hs
        · next m p htk =>
          cases hs
          unfold ChangeApi.take at htk
          split at htk
          · cases htk
          · next hpn =>
            split at htk
            · cases htk
            · next m' hch =>
              have hgc := h.good c hcm
              have hpc := h.past c hcm
              unfold Past at hpc
              split at htk
              · next hph =>
                cases htk
                refine ⟨h.com, fun x hx => (by cases hx; exact shaped_change h.com hgc.1 hch), fun d hd => ?_, fun d hd => ?_⟩
                · rcases mem_set_cases hd with rfl | hd
                  · exact ⟨hgc.1, h.com, hch⟩
                  · exact h.good d hd
                · rcases mem_set_cases hd with rfl | hd
                  · rfl
                  · exact past_keep (h.past d hd) (fun m hm => hm) (Or.inr hpn)
              · next b1 m1 hph =>
                cases htk
                rw [hph] at hpc
                refine ⟨h.com, fun x hx => (by cases hx; exact shaped_change h.com hgc.1 hch), fun d hd => ?_, fun d hd => ?_⟩
                · rcases mem_set_cases hd with rfl | hd
                  · have := hgc.2; rw [hph] at this
                    exact ⟨hgc.1, this.1, this.2.1, this.2.2, h.com, hch⟩
                  · exact h.good d hd
                · rcases mem_set_cases hd with rfl | hd
                  · exact ⟨hpc, rfl⟩
                  · exact past_keep (h.past d hd) (fun m hm => hm) (Or.inr hpn)
              · cases htk
        · cases hs
          refine ⟨h.com, h.pend, fun d hd => ?_, fun d hd => ?_⟩
          · rcases mem_set_cases hd with rfl | hd
            · exact good_failed (h.good c hcm)
            · exact h.good d hd
          · rcases mem_set_cases hd with rfl | hd
            · trivial
            · exact past_keep (h.past d hd) (fun m hm => hm) (Or.inl rfl)
      · cases hs
  | commit =>
    simp only [ChangeApi.step] at hs
    split at hs
    · cases hs
    · next m hm =>
      cases hs
      refine ⟨h.pend m hm, fun x hx => (by cases hx), fun d hd => ?_, fun d hd => ?_⟩
      · obtain ⟨c, hc, rfl⟩ := List.mem_map.1 hd
        exact good_committed (h.good c hc)
      · obtain ⟨c, hc, rfl⟩ := List.mem_map.1 hd
        refine past_committed (h.past c hc) (fun x hx => List.mem_append_left _ hx) (fun x hx => ?_)
        rw [hm] at hx; cases hx; exact List.mem_append_right _ (List.mem_singleton.2 rfl)
  | reply i =>
    simp only [ChangeApi.step] at hs
    split at hs
    · cases hs
    · next c hc =>
      have hgc := h.good c (List.mem_of_getElem? hc)
      have hpc := h.past c (List.mem_of_getElem? hc)
      split at hs
      · cases hs
      · next p hp =>
        cases hs
        suffices hx : Good { c with phase := p } ∧ Past ⟨s.com, s.pend, s.calls.set i { c with phase := p }, s.past⟩ { c with phase := p } by
          refine ⟨h.com, h.pend, fun d hd => ?_, fun d hd => ?_⟩
          · rcases mem_set_cases hd with rfl | hd
            · exact hx.1
            · exact h.good d hd
          · rcases mem_set_cases hd with rfl | hd
            · exact hx.2
            · exact past_keep (h.past d hd) (fun m hm => hm) (Or.inl rfl)
        obtain ⟨h0, hg⟩ := hgc
        unfold Past at hpc
        cases hph : c.phase <;> rw [hph] at hg hp hpc <;> simp only [answer] at hp <;> try cases hp
        · next b m =>
          by_cases hl : m.configs.length = 1
          · rw [if_pos hl]; exact ⟨⟨h0, hg.1, hg.2, hl⟩, hpc⟩
          · rw [if_neg hl]; exact ⟨⟨h0, hg.1, hg.2, hl⟩, hpc⟩
        · exact ⟨⟨h0, hg⟩, hpc⟩
  | fail i =>
    simp only [ChangeApi.step] at hs
    split at hs
    · cases hs
    · next c hc =>
      split at hs
      · cases hs
      · cases hs
        refine ⟨h.com, h.pend, fun d hd => ?_, fun d hd => ?_⟩
        · rcases mem_set_cases hd with rfl | hd
          · exact good_failed (h.good c (List.mem_of_getElem? hc))
          · exact h.good d hd
        · rcases mem_set_cases hd with rfl | hd
          · trivial
          · exact past_keep (h.past d hd) (fun m hm => hm) (Or.inl rfl)
  | foreign m kept =>
    cases hs
    cases kept with
    | false =>
      suffices hx : ∀ d ∈ dropAll s.calls, Good d ∧ Past ⟨m, none, dropAll s.calls, s.past ++ [] ++ [m]⟩ d from
        ⟨hok, fun x hx => (by cases hx), fun d hd => (hx d hd).1, fun d hd => (hx d hd).2⟩
      intro d hd
      obtain ⟨c, hc, rfl⟩ := List.mem_map.1 hd
      refine past_drop (h.past c hc) (h.good c hc) (fun x hx => ?_) (List.mem_singleton.2 rfl)
      simp [hx]
    | true =>
      refine ⟨hok, fun x hx => (by cases hx), fun d hd => ?_, fun d hd => ?_⟩
      · obtain ⟨c, hc, rfl⟩ := List.mem_map.1 hd
        exact good_committed (h.good c hc)
      · obtain ⟨c, hc, rfl⟩ := List.mem_map.1 hd
        refine past_committed (h.past c hc) (fun x hx => ?_) (fun x hx => ?_)
        · simp [hx]
        · simp only [Option.mem_def] at hx; simp [hx]

theorem Calls.inv {seq : Prop} {m0 : Membership} {s : Sys} (h0 : Shaped m0) (h : Calls seq m0 s) : CInv s := by
  induction h with
  | init => exact ⟨h0, fun m hm => (by cases hm), fun c hc => (by cases hc), fun c hc => (by cases hc)⟩
  | step ev _ hok _ hs ih => exact ih.step hok hs

/-- what two requests in a row do to the records -/
theorem nodes_twice {R M B rv mv bv t Q : Prop} (h1 : rv → mv) (h2 : mv → bv ∨ rv) (hq : Q → rv)
    (n1 : M ↔ (B ∨ Q) ∧ (t ∨ ¬ (bv ∧ ¬ mv))) (n2 : R ↔ (M ∨ Q) ∧ (t ∨ ¬ (mv ∧ ¬ rv))) :
    R ↔ (B ∨ Q) ∧ (t ∨ ¬ (bv ∧ ¬ rv)) := by
  rw [n2, n1]
  by_cases ht : t <;> by_cases hrv : rv <;> by_cases hm : mv <;> by_cases hb : bv <;> by_cases hQ : Q <;> simp_all

/-! ## C50 -/

/-- The full claim: a call that returns `Ok` has left one config, and it has the voters asked for. False: `C50_false`,
`C50_nodes_false`. -/
def C50_statement : Prop :=
  ∀ (m0 : Membership) (s : Sys), Shaped m0 → Calls False m0 s → ∀ c ∈ s.calls, ∀ r, c.phase.result = some r → r.configs.length = 1

/-- What a call about voters returns when the membership was not changed between its two requests: one config, which has
exactly the voters asked for, given the config that the first request found; and records of exactly the nodes asked for. -/
theorem C50_result_partial {m0 : Membership} {s : Sys} (h0 : Shaped m0) (h : Calls False m0 s) {c : Call} (hc : c ∈ s.calls)
    (hv : AboutVoters c.changes) {r : Membership} (hr : c.phase.result = some r)
    (hsame : ∀ b m b2 m2, c.phase = .ok2 b m b2 m2 → b2 = m) :
    ∃ b cur goal, (c.phase = .ok1 b r ∨ ∃ m, c.phase = .ok2 b m m r) ∧ b.configs.getLast? = some cur ∧
      r.configs = [goal] ∧ (∀ x, x ∈ goal ↔ AsksVoter cur x c.changes) ∧
      ∀ x, (BMap.get r.nodes x).isSome = true ↔ AsksNode (c.retain = true) ((BMap.get b.nodes x).isSome = true)
        (b.isVoter x = true ∧ r.isVoter x = false) x c.changes := by
  obtain ⟨_, hg⟩ := (h.inv h0).good c hc
  cases hp : c.phase <;> rw [hp] at hr hg <;> simp only [Phase.result] at hr <;> try cases hr
  · next b =>
    obtain ⟨hb, h1, hl⟩ := hg
    obtain ⟨cur, hcur, _⟩ := shaped_last hb
    have := once_uniform hv h1 hl
    rw [hcur] at this
    exact ⟨b, cur, _, Or.inl rfl, hcur, this, fun x => mem_goalOf, fun x => C10_change_nodes h1 x⟩
  · next b m b2 =>
    obtain ⟨hb, h1, _, _, h2⟩ := hg
    cases hsame _ _ _ _ hp
    obtain ⟨cur, hcur, _⟩ := shaped_last hb
    have hu := twice_uniform hb hv h1 h2
    rw [hcur] at hu
    refine ⟨b, cur, _, Or.inr ⟨m, rfl⟩, hcur, hu, fun x => mem_goalOf, fun x => ?_⟩
    -- the voters of the three memberships
    have hrv : r.isVoter x = true ↔ x ∈ goalOf cur c.changes := by rw [isVoter_iff, hu]; simp
    have hmc : m.configs = findCoherent b.configs (goalOf cur c.changes) := by
      obtain ⟨rfl, _⟩ := change_ok h1
      rw [changeRaw_configs _ hv, hcur]; rfl
    have hmv : (r.isVoter x = true → m.isVoter x = true) ∧
        (m.isVoter x = true → b.isVoter x = true ∨ r.isVoter x = true) := by
      rw [hrv, isVoter_iff, isVoter_iff, hmc]
      rcases findCoherent_cases b.configs (goalOf cur c.changes) with he | ⟨c', hc', he⟩ <;> rw [he]
      · exact ⟨fun hx => ⟨_, List.mem_singleton.2 rfl, hx⟩, fun ⟨d, hd, hx⟩ => Or.inr (by cases List.mem_singleton.1 hd; exact hx)⟩
      · refine ⟨fun hx => ⟨_, by simp, hx⟩, fun ⟨d, hd, hx⟩ => ?_⟩
        rcases List.mem_cons.1 hd with rfl | hd
        · exact Or.inl ⟨_, List.mem_of_getLast? hc', hx⟩
        · cases List.mem_singleton.1 hd; exact Or.inr hx
    have n1 := C10_change_nodes h1 x
    have n2 := C10_change_nodes h2 x
    simp only [← Bool.not_eq_true] at n1 n2 ⊢
    cases hch : c.changes with
    | addVoters ns =>
      rw [hch] at n1 n2
      exact nodes_twice hmv.1 hmv.2 (fun hx => by rw [hrv, mem_goalOf, hch]; exact Or.inr hx) n1 n2
    | addVoterIds ids =>
      rw [hch] at n1 n2; simp only [AsksNode] at n1 n2 ⊢
      simpa using nodes_twice (Q := False) hmv.1 hmv.2 False.elim (by simpa using n1) (by simpa using n2)
    | removeVoters ids =>
      rw [hch] at n1 n2; simp only [AsksNode] at n1 n2 ⊢
      simpa using nodes_twice (Q := False) hmv.1 hmv.2 False.elim (by simpa using n1) (by simpa using n2)
    | replaceAllVoters ids =>
      rw [hch] at n1 n2; simp only [AsksNode] at n1 n2 ⊢
      simpa using nodes_twice (Q := False) hmv.1 hmv.2 False.elim (by simpa using n1) (by simpa using n2)
    | _ => rw [hch] at hv; cases hv

/-- Whatever else happens: what a call that returns `Ok` returns was committed, its last config has exactly the voters asked for,
given the config that the answered request found, and every voter has a record. -/
theorem C50_last_config {m0 : Membership} {s : Sys} (h0 : Shaped m0) (h : Calls False m0 s) {c : Call} (hc : c ∈ s.calls)
    {r : Membership} (hr : c.phase.result = some r) :
    r ∈ s.past ∧ ∃ b cur new, (c.phase = .ok1 b r ∨ ∃ b1 m1, c.phase = .ok2 b1 m1 b r) ∧
      b.configs.getLast? = some cur ∧ r.configs.getLast? = some new ∧ (∀ x, x ∈ new ↔ AsksVoter cur x c.changes) ∧
      ∀ d ∈ r.configs, ∀ x ∈ d, (BMap.get r.nodes x).isSome = true := by
  obtain ⟨_, hg⟩ := (h.inv h0).good c hc
  have hp := (h.inv h0).past c hc
  unfold Past at hp
  cases hph : c.phase <;> rw [hph] at hr hg hp <;> simp only [Phase.result] at hr <;> try cases hr
  · next b =>
    obtain ⟨hb, h1, _⟩ := hg
    obtain ⟨cur, new, a1, a2, a3⟩ := C10_change_voters hb.1 h1
    exact ⟨hp, b, cur, new, Or.inl rfl, a1, a2, a3, (C10_change_valid hb.1 h1).2.2⟩
  · next b1 m1 b =>
    obtain ⟨_, _, _, hb, h1⟩ := hg
    obtain ⟨cur, new, a1, a2, a3⟩ := C10_change_voters hb.1 h1
    exact ⟨hp.2, b, cur, new, Or.inr ⟨b1, m1, rfl⟩, a1, a2, a3, (C10_change_valid hb.1 h1).2.2⟩

/-- In that case the second request is not refused for what it asks. -/
theorem C50_second_taken {b m : Membership} {ch : ChangeMembers} {retain : Bool} (hb : Shaped b) (hv : AboutVoters ch)
    (h1 : b.change ch retain = .ok m) : ∃ r, m.change ch retain = .ok r := by
  obtain ⟨cur, hcur, hsc⟩ := shaped_last hb
  have hmc : m.configs = findCoherent b.configs (goalOf cur ch) := by
    obtain ⟨rfl, _⟩ := change_ok h1
    rw [changeRaw_configs _ hv, hcur]; rfl
  have hlast : m.configs.getLast?.getD [] = goalOf cur ch := by
    rw [hmc]
    rcases findCoherent_cases b.configs (goalOf cur ch) with he | ⟨c', _, he⟩ <;> rw [he] <;> rfl
  have hgm : goalOf cur ch ∈ m.configs := by
    rw [hmc]
    rcases findCoherent_cases b.configs (goalOf cur ch) with he | ⟨c', _, he⟩ <;> rw [he] <;> simp
  obtain ⟨hv1, hv2⟩ := ensureValid_ok.1 (change_ok h1).2
  -- the configs of the result
  have hrc : (changeRaw m ch retain).configs = [goalOf cur ch] := by
    rw [changeRaw_configs _ hv, hlast, goalOf_again hsc]
    have hco : isCoherentWith m.configs (goalOf cur ch) = true := List.any_eq_true.2 ⟨_, hgm, by simp⟩
    unfold findCoherent
    rw [if_pos hco]
  have hnc : ∀ m0 : Membership, m0.configs = m.configs → (∀ x ∈ goalOf cur ch, x ∈ BMap.keys m0.nodes) →
      ∀ goal, goal = goalOf cur ch → ∀ x ∈ goalOf cur ch, x ∈ BMap.keys (m0.nextCoherent goal retain).nodes := by
    intro m0 hm0 hk goal hgoal x hx
    subst hgoal
    unfold nextCoherent
    simp only
    split
    · exact hk x hx
    · rw [foldl_remove_keys]
      refine ⟨hk x hx, ?_⟩
      rw [BSet.mem_diff]
      rintro ⟨_, hn⟩
      refine hn (mem_jointIds.2 ⟨goalOf cur ch, ?_, hx⟩)
      rcases findCoherent_cases m0.configs (goalOf cur ch) with he | ⟨c', _, he⟩ <;> rw [he] <;> simp
  have hag : goalOf (m.configs.getLast?.getD []) ch = goalOf cur ch := by rw [hlast, goalOf_again hsc]
  have hkeys : ∀ x ∈ goalOf cur ch, x ∈ BMap.keys (changeRaw m ch retain).nodes := by
    have hk := hv2 _ hgm
    cases ch with
    | addVoterIds ids => exact hnc m rfl hk _ hag
    | addVoters ns => exact hnc { m with nodes := extendNodes m.nodes ns } rfl (fun x hx => extendNodes_keys.2 (Or.inl (hk x hx))) _ hag
    | removeVoters ids => exact hnc m rfl hk _ hag
    | replaceAllVoters ids => exact hnc m rfl hk _ hag
    | _ => cases hv
  have hval : ensureValid (changeRaw m ch retain) = .ok () := by
    rw [ensureValid_ok, hrc]
    refine ⟨fun c hc => ?_, fun c hc x hx => ?_⟩
    · cases List.mem_singleton.1 hc; exact hv1 _ hgm
    · cases List.mem_singleton.1 hc; exact hkeys x hx
  exact ⟨changeRaw m ch retain, by unfold Membership.change; simp only [hval]⟩

/-! ### One call at a time -/

/-- where the open call stands -/
def OpenOk (s : Sys) (c : Call) : Prop :=
  match c.phase with
  | .wait1 _ m => s.pend = some m
  | .got1 _ m | .ask2 _ m => s.pend = none ∧ s.com = m
  | .wait2 _ m b2 _ | .got2 _ m b2 _ | .ok2 _ m b2 _ => b2 = m
  | _ => True

/-- Calls one by one: only the last one can be open. -/
structure SInv (s : Sys) : Prop where
  ok : ∀ c ∈ s.calls, OpenOk s c
  last : ∀ i c, s.calls[i]? = some c → i + 1 < s.calls.length → c.phase.over = true

/-- a call that is over stays as it is -/
theorem openOk_over {s s' : Sys} {c : Call} (h : c.phase.over = true) (hc : OpenOk s c) : OpenOk s' c := by
  unfold OpenOk at hc ⊢
  cases hp : c.phase <;> rw [hp] at h hc <;> first | exact hc | cases h

theorem SInv.set {s : Sys} {i : Nat} {c d : Call} (h : SInv s) (hi : s.calls[i]? = some c) (hno : c.phase.over = false) (pend : Option Membership)
    (hd : OpenOk ⟨s.com, pend, s.calls.set i d, s.past⟩ d) : SInv ⟨s.com, pend, s.calls.set i d, s.past⟩ := by
  have hlt : i < s.calls.length := by
    by_contra hge
    rw [List.getElem?_eq_none (by omega)] at hi; cases hi
  have hlast : i + 1 = s.calls.length := by
    by_contra hne
    have := h.last i c hi (by omega)
    rw [hno] at this; cases this
  refine ⟨fun x hx => ?_, fun j x hj hjl => ?_⟩
  · obtain ⟨j, hj⟩ := List.mem_iff_getElem?.1 hx
    by_cases hij : i = j
    · subst hij
      rw [List.getElem?_set_self hlt] at hj; cases hj; exact hd
    · rw [List.getElem?_set_ne hij] at hj
      have hjl : j < s.calls.length := by
        by_contra hge
        rw [List.getElem?_eq_none (by omega)] at hj; cases hj
      exact openOk_over (h.last j x hj (by omega)) (h.ok x (List.mem_of_getElem? hj))
  · simp only [List.length_set] at hjl
    rw [List.getElem?_set_ne (by omega)] at hj
    exact h.last j x hj hjl

theorem committed_over {p : Phase} (h : p.over = true) : committed p = p := by
  cases p <;> first | rfl | cases h

theorem Call.eta (c : Call) : ({ c with phase := c.phase } : Call) = c := rfl

theorem SInv.step {s s' : Sys} {ev : ChangeApi.Ev} (h : SInv s) (ho : OneByOne s ev) (hs : ChangeApi.step s ev = some s') : SInv s' := by
  cases ev with
  | call c r =>
    cases hs
    refine ⟨fun d hd => ?_, fun j x hj hjl => ?_⟩
    · rcases List.mem_append.1 hd with hd | hd
      · exact openOk_over (ho d hd) (h.ok d hd)
      · cases List.mem_singleton.1 hd; trivial
    · simp only [List.length_append, List.length_singleton] at hjl
      rw [List.getElem?_append_left (by omega)] at hj
      exact ho x (List.mem_of_getElem? hj)
  | take i =>
    simp only [ChangeApi.step] at hs
    split at hs
    · cases hs
    · next c hc =>
      split at hs
      · next hask =>
        have hno : c.phase.over = false := by
          cases hp : c.phase <;> rw [hp] at hask <;> first | rfl | cases hask
        split at hs
        · next m p htk =>
          cases hs
          refine h.set hc hno _ ?_
          unfold ChangeApi.take at htk
          split at htk
          · cases htk
          · split at htk
            · cases htk
            · split at htk
              · cases htk; rfl
              · next b1 m1 hph =>
                cases htk
                have := h.ok c (List.mem_of_getElem? hc)
                unfold OpenOk at this
                rw [hph] at this
                exact this.2
              · cases htk
        · cases hs
          exact h.set hc hno _ trivial
      · cases hs
  | commit =>
    simp only [ChangeApi.step] at hs
    split at hs
    · cases hs
    · next m hm =>
      cases hs
      refine ⟨fun d hd => ?_, fun j x hj hjl => ?_⟩
      · obtain ⟨c, hc, rfl⟩ := List.mem_map.1 hd
        have := h.ok c hc
        unfold OpenOk at this ⊢
        cases hp : c.phase <;> rw [hp] at this <;> simp only [committed] <;> simp only at this ⊢ <;> try exact this
        · rw [hm] at this; cases this; exact ⟨trivial, rfl⟩
        · rw [hm] at this; cases this.1
        · rw [hm] at this; cases this.1
      · simp only [commitAll, List.length_map] at hjl
        simp only [commitAll, List.getElem?_map, Option.map_eq_some_iff] at hj
        obtain ⟨c, hc, rfl⟩ := hj
        have := h.last j c hc hjl
        simp only [committed_over this, this]
  | reply i =>
    simp only [ChangeApi.step] at hs
    split at hs
    · cases hs
    · next c hc =>
      split at hs
      · cases hs
      · next p hp =>
        cases hs
        have hok := h.ok c (List.mem_of_getElem? hc)
        unfold OpenOk at hok
        cases hph : c.phase <;> rw [hph] at hok hp <;> simp only [answer] at hp <;> try cases hp
        · refine h.set hc (by rw [hph]; rfl) _ ?_
          unfold OpenOk
          split
          all_goals (rename_i heq; try (split at heq <;> cases heq))
          · exact hok
          · trivial
        · exact h.set hc (by rw [hph]; rfl) _ hok
  | fail i =>
    simp only [ChangeApi.step] at hs
    split at hs
    · cases hs
    · next c hc =>
      split at hs
      · cases hs
      · next hno =>
        cases hs
        exact h.set hc (by simpa using hno) _ trivial
  | foreign m kept => cases ho

theorem Calls.alone {m0 : Membership} {s : Sys} (h : Calls True m0 s) : SInv s := by
  induction h with
  | init => exact ⟨fun c hc => (by cases hc), fun i c hc => (by cases hc)⟩
  | step ev _ _ ho hs ih => exact ih.step (ho trivial) hs

theorem Calls.weaken {seq : Prop} {m0 : Membership} {s : Sys} (h : Calls seq m0 s) : Calls False m0 s := by
  induction h with
  | init => exact .init
  | step ev _ hok _ hs ih => exact .step ev ih hok False.elim hs

/-- With one call at a time and one leader, a call about voters that returns `Ok` leaves one config, which has exactly the voters asked for
and records of exactly the nodes asked for. Earlier calls may have failed at any point. -/
theorem C50_alone_partial {m0 : Membership} {s : Sys} (h0 : Shaped m0) (h : Calls True m0 s) {c : Call} (hc : c ∈ s.calls)
    (hv : AboutVoters c.changes) {r : Membership} (hr : c.phase.result = some r) :
    ∃ b cur goal, (c.phase = .ok1 b r ∨ ∃ m, c.phase = .ok2 b m m r) ∧ b.configs.getLast? = some cur ∧
      r.configs = [goal] ∧ (∀ x, x ∈ goal ↔ AsksVoter cur x c.changes) ∧
      ∀ x, (BMap.get r.nodes x).isSome = true ↔ AsksNode (c.retain = true) ((BMap.get b.nodes x).isSome = true)
        (b.isVoter x = true ∧ r.isVoter x = false) x c.changes := by
  refine C50_result_partial h0 h.weaken hc hv hr fun b m b2 m2 hp => ?_
  have := h.alone.ok c hc
  unfold OpenOk at this
  rw [hp] at this
  exact this

/-! ### Where the full claim fails -/

/-- a run as a list of events -/
def evOkB : ChangeApi.Ev → Bool
  | .call c _ => match c with
    | .replaceAllVoters ids => decide (ids.Pairwise (· < ·))
    | _ => true
  | .foreign _ _ => false
  | _ => true

theorem evOkB_ok {ev : ChangeApi.Ev} (h : evOkB ev = true) : EvOk ev := by
  cases ev with
  | call c r =>
    cases c with
    | replaceAllVoters ids =>
      have h1 : decide (ids.Pairwise (· < ·)) = true := h
      have h2 := of_decide_eq_true h1
      exact h2
    | _ => trivial
  | foreign m k => cases h
  | _ => trivial

theorem calls_run {m0 : Membership} {s s' : Sys} (h : Calls False m0 s) {evs : List ChangeApi.Ev} (hok : evs.all evOkB = true)
    (hr : ChangeApi.run s evs = some s') : Calls False m0 s' := by
  induction evs generalizing s with
  | nil => cases hr; exact h
  | cons ev evs ih =>
    rw [List.all_cons, Bool.and_eq_true] at hok
    simp only [ChangeApi.run] at hr
    split at hr
    · next s1 hs => exact ih (h.step ev (evOkB_ok hok.1) False.elim hs) hok.2 hr
    · cases hr

/-- voters 1, 2, 3, learners 4, 5 -/
def five : Membership := ⟨[[1,2,3]], [(1,0),(2,0),(3,0),(4,0),(5,0)]⟩

/-- Two callers: the second asks for {1,2,5} when the first has got its joint config, and gets in between the two requests of the first.
The first then goes back to {1,2,4}, and the second request of the second caller makes a joint config again. -/
def twoCallers : List ChangeApi.Ev :=
  [.call (.replaceAllVoters [1,2,4]) true, .take 0, .commit, .reply 0, .call (.replaceAllVoters [1,2,5]) true, .take 1, .commit, .reply 1,
   .take 0, .commit, .reply 0, .take 1, .commit, .reply 1]

/-- A caller goes away between its two requests; a learner is added then. -/
def leftJoint : List ChangeApi.Ev :=
  [.call (.replaceAllVoters [1,2,4]) true, .take 0, .commit, .reply 0, .fail 0, .call (.addNodes [(6,0)]) true, .take 1, .commit, .reply 1,
   .take 1, .commit, .reply 1]

theorem five_shaped : Shaped five := ⟨by decide, fun c hc => by cases List.mem_singleton.1 hc; show List.Pairwise _ _; decide⟩

/-- F29: both calls return `Ok`, and the cluster is left in a joint config that nobody is going to leave. -/
theorem C50_false : ¬ C50_statement ∧ ∃ s, Calls False five s ∧ s.com.configs = [[1,2,4],[1,2,5]] ∧ s.pend = none ∧
    s.calls.map (fun c => (c.changes, c.phase.result.map (·.configs))) =
      [(.replaceAllVoters [1,2,4], some [[1,2,4]]), (.replaceAllVoters [1,2,5], some [[1,2,4],[1,2,5]])] := by
  obtain ⟨s, hs⟩ : ∃ s, ChangeApi.run ⟨five, none, [], [five]⟩ twoCallers = some s := Option.isSome_iff_exists.1 (by decide)
  have hc : Calls False five s := calls_run .init (by decide) hs
  have h1 : s.com.configs = [[1,2,4],[1,2,5]] ∧ s.pend = none ∧
    s.calls.map (fun c => (c.changes, c.phase.result.map (·.configs))) =
      [(.replaceAllVoters [1,2,4], some [[1,2,4]]), (.replaceAllVoters [1,2,5], some [[1,2,4],[1,2,5]])] := by
    have hd : (ChangeApi.run ⟨five, none, [], [five]⟩ twoCallers).any (fun s => decide (s.com.configs = [[1,2,4],[1,2,5]]) && decide (s.pend = none) &&
      decide (s.calls.map (fun c => (c.changes, c.phase.result.map (·.configs))) =
      [(.replaceAllVoters [1,2,4], some [[1,2,4]]), (.replaceAllVoters [1,2,5], some [[1,2,4],[1,2,5]])])) = true := by decide
    rw [hs] at hd
    simp only [Option.any_some, Bool.and_eq_true, decide_eq_true_eq] at hd
    exact ⟨hd.1.1, hd.1.2, hd.2⟩
  refine ⟨fun hall => ?_, s, hc, h1⟩
  have hm : (ChangeMembers.replaceAllVoters [1,2,5], some [[1,2,4],[1,2,5]]) ∈
      s.calls.map (fun c => (c.changes, c.phase.result.map (·.configs))) := by rw [h1.2.2]; simp
  obtain ⟨c, hcm, he⟩ := List.mem_map.1 hm
  simp only [Prod.mk.injEq, Option.map_eq_some_iff] at he
  obtain ⟨_, r, hr, hrc⟩ := he
  have := hall five s five_shaped hc c hcm r hr
  rw [hrc] at this
  simp at this

/-- A call about nodes that finds a joint config left behind makes its request twice and returns the joint config. -/
theorem C50_nodes_false : ∃ s, Calls False five s ∧ s.calls.map (fun c => (c.changes, c.phase.result.map (·.configs))) =
      [(.replaceAllVoters [1,2,4], none), (.addNodes [(6,0)], some [[1,2,3],[1,2,4]])] := by
  obtain ⟨s, hs⟩ : ∃ s, ChangeApi.run ⟨five, none, [], [five]⟩ leftJoint = some s := Option.isSome_iff_exists.1 (by decide)
  refine ⟨s, calls_run .init (by decide) hs, ?_⟩
  have hd : (ChangeApi.run ⟨five, none, [], [five]⟩ leftJoint).any (fun s =>
      decide (s.calls.map (fun c => (c.changes, c.phase.result.map (·.configs))) =
      [(.replaceAllVoters [1,2,4], none), (.addNodes [(6,0)], some [[1,2,3],[1,2,4]])])) = true := by decide
  rw [hs] at hd
  simpa using hd

/-- The hypotheses of `C50_alone_partial`, `C50_result_partial` and `C50_last_config` are met: a caller goes away between its two requests,
the next one removes voter 3 for good, from the joint config it finds; its result is {1,2,4} without a record of 3. -/
def nextCaller : List ChangeApi.Ev :=
  [.call (.addVoterIds [4]) true, .take 0, .commit, .reply 0, .fail 0, .call (.removeVoters [3]) false, .take 1, .commit, .reply 1,
   .take 1, .commit, .reply 1]

/-- `OneByOne` for an event -/
def oneB (s : Sys) : ChangeApi.Ev → Bool
  | .call _ _ => s.calls.all fun c => c.phase.over
  | .foreign _ _ => false
  | _ => true

/-- events one by one, each allowed -/
def runOne (s : Sys) : List ChangeApi.Ev → Option Sys
  | [] => some s
  | e :: es => if oneB s e && evOkB e then match ChangeApi.step s e with
    | some s' => runOne s' es
    | none => none
    else none

theorem calls_runOne {m0 : Membership} {s s' : Sys} (h : Calls True m0 s) {evs : List ChangeApi.Ev}
    (hr : runOne s evs = some s') : Calls True m0 s' := by
  induction evs generalizing s with
  | nil => cases hr; exact h
  | cons ev evs ih =>
    simp only [runOne] at hr
    split at hr
    · next hb =>
      rw [Bool.and_eq_true] at hb
      split at hr
      · next s1 hs =>
        refine ih (h.step ev (evOkB_ok hb.2) (fun _ => ?_) hs) hr
        cases ev with
        | call c r => exact fun c hc => List.all_eq_true.1 hb.1 c hc
        | foreign m k => cases hb.1
        | _ => trivial
      · cases hr
    · cases hr

example : ∃ s, Calls True five s ∧ s.calls.map (fun c => (c.changes, c.phase.result)) =
    [(.addVoterIds [4], none), (.removeVoters [3], some ⟨[[1,2,4]], [(1,0),(2,0),(4,0),(5,0)]⟩)] := by
  obtain ⟨s, hs⟩ : ∃ s, runOne ⟨five, none, [], [five]⟩ nextCaller = some s := Option.isSome_iff_exists.1 (by decide)
  refine ⟨s, calls_runOne .init hs, ?_⟩
  have hd : (runOne ⟨five, none, [], [five]⟩ nextCaller).any (fun s =>
      decide (s.calls.map (fun c => (c.changes, c.phase.result)) =
    [(.addVoterIds [4], none), (.removeVoters [3], some ⟨[[1,2,4]], [(1,0),(2,0),(4,0),(5,0)]⟩)])) = true := by decide
  rw [hs] at hd
  simpa using hd

/-- `C50_second_taken`: the first request of a call makes {1,2,3} and {1,2,4} a joint config, the second leaves it. -/
example : five.change (.replaceAllVoters [1,2,4]) false = .ok ⟨[[1,2,3],[1,2,4]], five.nodes⟩ ∧
    (Membership.mk [[1,2,3],[1,2,4]] five.nodes).change (.replaceAllVoters [1,2,4]) false = .ok ⟨[[1,2,4]], [(1,0),(2,0),(4,0),(5,0)]⟩ := by
  decide

end Openraft.Props
