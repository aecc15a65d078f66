import Verif.Net.Legal

/-!
# Sequences of legal commands

A node that only emits legal commands agrees with the history after any number of them.
-/

set_option autoImplicit false
set_option linter.unusedSectionVars false

namespace Openraft.Net
open Openraft.Engine Openraft.Cluster

variable {m0 : Membership} [hne : Fact (m0.configs ≠ [])] {g g' : Ghost} {dv dv' : NodeId → Vote} {q : NodeId} {G : Gh}

/-- all commands are legal, in order -/
def Legals (g : Ghost) (dv : NodeId → Vote) (q : NodeId) : Gh → List Cmd → Prop
  | _, [] => True
  | G, c :: cs => Legal g dv q G c ∧ Legals g dv q (G.run c) cs

theorem legals_append {a b : List Cmd} : Legals g dv q G (a ++ b) ↔ Legals g dv q G a ∧ Legals g dv q (G.runs a) b := by
  induction a generalizing G with
  | nil => simp [Legals, Gh.runs]
  | cons c a ih => simp [Legals, Gh.runs, ih, and_assoc]

theorem legals_snoc {a : List Cmd} {c : Cmd} : Legals g dv q G (a ++ [c]) ↔ Legals g dv q G a ∧ Legal g dv q (G.runs a) c := by
  rw [legals_append]; simp [Legals]

theorem VS.runs (hg : GInv m0 g) {cs : List Cmd} (h : VS g dv q G) (ho : G.Oks cs) (hl : Legals g dv q G cs) : VS g dv q (G.runs cs) := by
  induction cs generalizing G with
  | nil => exact h
  | cons c cs ih => exact ih (h.run hg ho.1 hl.1) ho.2 hl.2

theorem Legals.mono (hg : GInv m0 g) (hle : GhostLe g g') (hdv : ∀ n, dv n ≤ dv' n) {cs : List Cmd} (h : VS g dv q G)
    (ho : G.Oks cs) (hl : Legals g dv q G cs) : Legals g' dv' q G cs := by
  induction cs generalizing G with
  | nil => trivial
  | cons c cs ih => exact ⟨hl.1.mono hle hdv h.st, ih (h.run hg ho.1 hl.1) ho.2 hl.2⟩

/-- an entry of the log after a command was there before, is appended, or is up to a snapshot -/
theorem VS.run_src (hg : GInv m0 g) (h : VS g dv q G) {c : Cmd} (hok : G.Ok c) (hl : Legal g dv q G c) {x : LogId}
    (hx : idAt (logOf g (G.run c)) x.index = some x) : idAt (logOf g G) x.index = some x ∨
      (∃ v es, c = .append v es ∧ ∃ e ∈ es, e.id = x) ∨ (∃ u, c = .purge u ∧ x.index ≤ u.index) := by
  cases c with
  | append v es =>
    obtain ⟨hvs, hlog⟩ := h.run_append hok hl
    rw [hlog] at hx
    obtain ⟨e, he, hxe⟩ := idAt_some.1 hx
    by_cases hlt : x.index < (logOf g G).length
    · rw [List.getElem?_append_left hlt] at he
      exact Or.inl (idAt_some.2 ⟨e, he, hxe⟩)
    · right; left
      refine ⟨v, es, rfl, ?_⟩
      have hm := hvs.st.mem_idAt (x := x) (by
        show idAt (logOf g (G.run (.append v es))) x.index = _
        rw [hlog]; exact hx) (by
          show nextIndex G.store.purged ≤ _
          have h1 := h.st.len
          have : (logOf g G).length = (stLog g G.store).length := rfl
          omega)
      rcases List.mem_append.1 hm with hm | hm
      · have hm : x ∈ G.store.purged.toList := hm
        have hm : G.store.purged = some x := by simpa using hm
        have h1 := h.st.len
        have : (logOf g G).length = (stLog g G.store).length := rfl
        rw [hm] at h1
        simp only [nextIndex_some] at h1
        omega
      · obtain ⟨y, hy, hyx⟩ := List.mem_map.1 hm
        have hy : y ∈ G.store.entries ++ es := hy
        rcases List.mem_append.1 hy with hy | hy
        · have := lt_of_get (h.st.mem_get hy).2
          rw [hyx] at this
          exact absurd this hlt
        · exact ⟨y, hy, hyx⟩
  | truncate s =>
    rw [(h.run_truncate hg hok hl).2] at hx
    exact Or.inl (idAt_pre (List.take_prefix _ _) hx)
  | purge u =>
    rcases hok.2.2 with hin | ⟨h1, h2⟩
    · rw [(h.run_purgeIn hok hin).2] at hx; exact Or.inl hx
    · obtain ⟨_, hlog⟩ := h.run_purgeOut hg h1 h2
      rw [hlog] at hx
      have := idAt_lt hx
      rw [cont_len (h.comVal u h2)] at this
      exact Or.inr (Or.inr ⟨u, rfl, by omega⟩)
  | sm c => cases c <;> exact Or.inl hx
  | _ => exact Or.inl hx

theorem Gh_com_run {c : Cmd} (hok : G.Ok c) : nextIndex G.com ≤ nextIndex (G.run c).com := by
  cases c with
  | apply p u =>
    obtain ⟨_, _, hle, _⟩ := hok
    show _ ≤ u.index + 1
    omega
  | sm c =>
    cases c with
    | install m io =>
      obtain ⟨⟨x, hx, hle, _⟩, _⟩ := hok
      show _ ≤ nextIndex m.lastLogId
      rw [hx]; simp only [nextIndex_some]; omega
    | _ => exact Nat.le_refl _
  | _ => exact Nat.le_refl _

/-- a committed entry of the log stays there -/
theorem VS.run_in (hg : GInv m0 g) (h : VS g dv q G) {c : Cmd} (hok : G.Ok c) (hl : Legal g dv q G c) {x : LogId} {v : Vote}
    (hx : idAt (logOf g G) x.index = some x) (hc : CVote g v (cont g (some x))) (hlt : x.index < nextIndex G.com) :
    idAt (logOf g (G.run c)) x.index = some x := by
  cases c with
  | append v es =>
    rw [(h.run_append hok hl).2]
    exact idAt_pre (List.prefix_append _ _) hx
  | truncate s =>
    rw [(h.run_truncate hg hok hl).2]
    obtain ⟨e, he, hxe⟩ := idAt_some.1 hx
    have := hok.2
    exact idAt_some.2 ⟨e, by rw [get_take (by omega)]; exact he, hxe⟩
  | purge u =>
    rcases hok.2.2 with hin | ⟨h1, h2⟩
    · rw [(h.run_purgeIn hok hin).2]; exact hx
    · rw [(h.run_purgeOut hg h1 h2).2]
      have hv := (take_of_idAt h.good hx).1
      have h3 := h.com
      rw [h2] at h3 hlt
      refine idAt_pre (hc.pre_of_len hg h3 ?_) (cont_last hv)
      rw [cont_len hv, cont_len (h.comVal u h2)]
      simp only [nextIndex_some] at hlt
      omega
  | sm c => cases c <;> exact hx
  | _ => exact hx

theorem VS.runs_in (hg : GInv m0 g) {cs : List Cmd} (h : VS g dv q G) (ho : G.Oks cs) (hl : Legals g dv q G cs) {x : LogId} {v : Vote}
    (hx : idAt (logOf g G) x.index = some x) (hc : CVote g v (cont g (some x))) (hlt : x.index < nextIndex G.com) :
    idAt (logOf g (G.runs cs)) x.index = some x := by
  induction cs generalizing G with
  | nil => exact hx
  | cons c cs ih =>
    exact ih (h.run hg ho.1 hl.1) ho.2 hl.2 (h.run_in hg ho.1 hl.1 hx hc hlt) (lt_of_lt_of_le hlt (Gh_com_run ho.1))

/-- while the vote is not committed, the log does not change -/
theorem VS.run_idle (hg : GInv m0 g) (h : VS g dv q G) {c : Cmd} (hok : G.Ok c) (hl : Legal g dv q G c) (hs : ∀ v, c ≠ .saveVote v)
    (hv : G.vote.committed = false) (ht : G.vote.leaderId.term ≠ 0) : logOf g (G.run c) = logOf g G ∧ (G.run c).vote = G.vote := by
  cases c with
  | append v es =>
    obtain ⟨_, _, h | h⟩ := hl
    · rw [hv] at h; cases h
    · exact absurd h ht
  | truncate s => have := hl.1; rw [hv] at this; cases this
  | purge u => exact ⟨h.purge_log (h.anch_own (Or.inl hv)) hok, rfl⟩
  | saveVote v => exact absurd rfl (hs v)
  | sm c =>
    cases c with
    | _ => exact ⟨rfl, rfl⟩
  | _ => exact ⟨rfl, rfl⟩

theorem VS.runs_idle (hg : GInv m0 g) {cs : List Cmd} (h : VS g dv q G) (ho : G.Oks cs) (hl : Legals g dv q G cs)
    (hs : ∀ c ∈ cs, ∀ v, c ≠ .saveVote v) (hv : G.vote.committed = false) (ht : G.vote.leaderId.term ≠ 0) :
    logOf g (G.runs cs) = logOf g G ∧ (G.runs cs).vote = G.vote := by
  induction cs generalizing G with
  | nil => exact ⟨rfl, rfl⟩
  | cons c cs ih =>
    have h1 := h.run_idle hg ho.1 hl.1 (hs c (by simp)) hv ht
    have h2 := ih (h.run hg ho.1 hl.1) ho.2 hl.2 (fun x hx => hs x (by simp [hx])) (by rw [h1.2]; exact hv) (by rw [h1.2]; exact ht)
    exact ⟨h2.1.trans h1.1, h2.2.trans h1.2⟩

/-- with an own vote the log only grows -/
theorem VS.run_own (h : VS g dv q G) {c : Cmd} (hok : G.Ok c) (hl : Legal g dv q G c) (hv : G.vote.leaderId.node = q) :
    logOf g G <+: logOf g (G.run c) := by
  cases c with
  | append v es => rw [(h.run_append hok hl).2]; exact List.prefix_append _ _
  | truncate s => exact absurd hv hl.2.1
  | purge u => rw [h.purge_log (h.anch_own (Or.inr hv)) hok]
  | sm c =>
    cases c with
    | _ => exact List.prefix_refl _
  | _ => exact List.prefix_refl _

theorem VS.runs_own (hg : GInv m0 g) {cs : List Cmd} (h : VS g dv q G) (ho : G.Oks cs) (hl : Legals g dv q G cs)
    (hs : ∀ c ∈ cs, ∀ v, c ≠ .saveVote v) (hv : G.vote.leaderId.node = q) : logOf g G <+: logOf g (G.runs cs) := by
  induction cs generalizing G with
  | nil => exact List.prefix_refl _
  | cons c cs ih =>
    have h1 := h.run_own ho.1 hl.1 hv
    have h0 : (G.run c).vote = G.vote := by
      cases c with
      | saveVote v => exact absurd rfl (hs _ (by simp) v)
      | sm c => cases c <;> rfl
      | _ => rfl
    exact h1.trans (ih (h.run hg ho.1 hl.1) ho.2 hl.2 (fun x hx => hs x (by simp [hx])) (by rw [h0]; exact hv))

/-! ## Additions to the history by the node itself -/

theorem VS.addAck (h : VS g dv q G) (a : Ack) (ha : a.q = q → AckOk g a G.vote (logOf g G)) : VS (g.addAck a) dv q G := by
  refine ⟨⟨h.st.val, h.st.pos⟩, h.good, h.lids, h.voteEl, h.comVal, h.comIn, h.com, h.ownCl, ?_, h.grants, h.pv, h.base, h.pc⟩
  intro b hb hq
  rcases List.mem_cons.1 hb with rfl | hb
  · exact ha hq
  · exact h.acks b hb hq

theorem VS.addGrant (h : VS g dv q G) (gr : Grant) (ha : gr.q = q → (⟨gr.L, false⟩ : Vote) ≤ G.vote) : VS (g.addGrant gr) dv q G := by
  refine ⟨⟨h.st.val, h.st.pos⟩, h.good, h.lids, h.voteEl, h.comVal, h.comIn, h.com, h.ownCl, h.acks, ?_, h.pv, h.base, h.pc⟩
  intro b hb hq
  rcases List.mem_cons.1 hb with rfl | hb
  · exact ha hq
  · exact h.grants b hb hq

theorem VS.setCl (h : VS g dv q G) (hg : GInv m0 g) {L : LeaderId} {l : Log} (hn : g.cl L = none) (hL : L.node = q → L ≤ G.vote.leaderId) :
    VS (g.setCl L l) dv q G := by
  have hs := (step_setCl L.node L l rfl hn).toGhostLe
  refine ⟨⟨h.st.val, h.st.pos⟩, h.good, h.lids, h.voteEl, h.comVal, h.comIn, h.com, ?_, ?_, h.grants, h.pv, h.base, h.pc⟩
  · intro L' hL' hq
    by_cases hLL : L' = L
    · rw [hLL] at hq ⊢; exact hL hq
    · refine h.ownCl L' ?_ hq
      rw [show (g.setCl L l).cl L' = g.cl L' from fset_ne _ _ hLL] at hL'; exact hL'
  · intro a ha hq
    exact (h.acks a ha hq).mono hs (hg.ackEl a ha).2

end Openraft.Net
