import Verif.Net.Node2

/-!
# A node agrees with the history: writes, the state machine, executing commands
-/

set_option autoImplicit false
set_option linter.unusedSectionVars false

namespace Openraft.Net
open Openraft.Repl (Panic dassert Inflight)
open Openraft.Engine Openraft.Cluster
open Openraft.Runtime (Fl RInv Covered Note SmOk LeI DiskOp opOf vote_runs_same out_bind out_pure lift_ok exec_frame submit_ok note_of_op saved_append)
open Openraft.VecProgress (AllP BI)

variable {m0 : Membership} [hne : Fact (m0.configs ≠ [])] {g g' : Ghost} {dv dv' : NodeId → Vote} {q : NodeId} {g0 : Gh} {p : Nat} {dbg : Bool} {now : Nat}
variable {a0 : IOId} {s0 c0 : Option LogId} {P S : List Cmd} {n n' n1 : Runtime.Node}

namespace NI

/-! ## Writes -/

/-- with an own vote the writes that are not durable yet only add to the log -/
theorem own_grow (hg : GInv m0 g) (h : NI g dv q g0 a0 s0 c0 P S n) {A B C : List Cmd} (hS : S = A ++ B ++ C) (hv : (g0.runs P).vote.leaderId.node = q) :
    logOf g (g0.runs (P ++ A)) <+: logOf g (g0.runs (P ++ A ++ B)) := by
  have ho := h.oksS
  have hl := h.legs.1
  rw [hS, Gh.oks_append, Gh.oks_append] at ho
  rw [hS, legals_append, legals_append] at hl
  have hvA := h.vsP.runs hg ho.1.1 hl.1.1
  have hn : ∀ v, Cmd.saveVote v ∉ S := h.r.d.novote
  have hva : ((g0.runs P).runs A).vote = (g0.runs P).vote := vote_runs_same _ _ fun v hv => hn v (by rw [hS]; simp [hv])
  have := hvA.runs_own hg ho.1.2 hl.1.2 (fun c hc v hcv => hn v (by rw [hS, ← hcv]; simp [hc])) (by rw [hva]; exact hv)
  rw [Gh.runs_append g0 (P ++ A) B, Gh.runs_append g0 P A]; exact this

/-- the last entry of a write is in the log after it -/
theorem own_note (hg : GInv m0 g) (h : NI g dv q g0 a0 s0 c0 P S n) {S1 S2 : List Cmd} {c : Cmd} {io : IOId} (hS : S = S1 ++ c :: S2) (hh : c.hard = some io) :
    io.vote.leaderId = (g0.runs P).vote.leaderId ∧ ∀ x, io.last = some x → idAt (logOf g (g0.runs (P ++ (S1 ++ [c])))) x.index = some x := by
  have hc : c ∈ S := by rw [hS]; simp
  obtain ⟨_, hv, v, es, y, rfl, hy, rfl, _⟩ := h.r.soft hc hh
  refine ⟨by rw [hv, h.vlD.lid, h.vote_PS], ?_⟩
  intro x hx
  have hx : some y.id = some x := hx
  cases hx
  have ho := h.oksS
  have hl := h.legs.1
  rw [hS, Gh.oks_append] at ho
  rw [hS, legals_append] at hl
  have hvA := h.vsP.runs hg ho.1 hl.1
  obtain ⟨hvs, hlog⟩ := hvA.run_append ho.2.1 hl.2.1
  rw [← List.append_assoc, Gh.runs_snoc, Gh.runs_append]
  refine hvs.st.idAt_mem (List.mem_append_right _ ?_)
  show y.id ∈ (((g0.runs P).runs S1).store.entries ++ es).map (·.id)
  rw [List.map_append]
  exact List.mem_append_right _ (List.mem_map_of_mem (List.mem_of_getLast? hy))

/-- the oldest write becomes durable -/
theorem flush (hg : GInv m0 g) (h : NI g dv q g0 a0 s0 c0 P S n) : ∃ P' S', NI g dv q g0 a0 s0 c0 P' S' n.flush1 := by
  unfold Runtime.Node.flush1
  cases hp : n.pend with
  | nil => exact ⟨P, S, h⟩
  | cons op ops =>
    obtain ⟨S1, c, S2, hS, hn, ho, hr⟩ := h.r.pend_cons hp
    have hri := h.r.flush_at hS hn ho hr
    have hS' : S = (S1 ++ [c]) ++ S2 := by rw [hS]; simp
    have hcat : P ++ (S1 ++ [c]) ++ S2 = P ++ S := by rw [List.append_assoc, ← hS']
    refine ⟨P ++ (S1 ++ [c]), S2, hri, h.sy, ?_, h.vl, by rw [hcat]; exact h.cand, ?_, ?_⟩
    · refine h.en.advance hg h.r.flow.oks (by simp) ?_
      have := h.r.rest
      rw [this, ← hcat]; simp
    · have hvote : (g0.runs (P ++ (S1 ++ [c]))).vote = (g0.runs P).vote := by
        rw [Gh.runs_append]
        exact vote_runs_same _ _ fun v hv => h.r.d.novote v (by rw [hS']; exact List.mem_append_left _ hv)
      have hrx : ∀ x ∈ n.rx ++ op.note, x ∈ n.rx ∨ ∃ io, x = .localIO io ∧ c.hard = some io ∧ c.reports = some io := by
        intro x hx
        rcases List.mem_append.1 hx with hx | hx
        · exact Or.inl hx
        · exact Or.inr (note_of_op ho hx)
      refine ⟨?_, ?_, h.x.hist, fun f l hm => by rw [hcat]; exact h.x.aq f l hm, ?_⟩
      · intro f hf
        rcases hrx _ hf with h1 | ⟨io, h1, h2, _⟩
        · have h3 := h.x.loc f h1
          intro k1 k2 x hx
          rw [hvote] at k2 ⊢
          have := h.own_grow hg (A := []) (B := S1 ++ [c]) (C := S2) (by simpa using hS') (by rw [← k2]; exact k1)
          rw [List.append_nil] at this
          exact (h3 k1 k2 x hx).imp (idAt_pre this) id
        · cases h1
          exact fun _ _ x hx => Or.inl ((h.own_note hg hS h2).2 x hx)
      · intro v hv
        rcases hrx _ hv with h1 | ⟨io, h1, _⟩
        · exact h.x.selfs v h1
        · cases h1
      · have hdc := h.x.dc
        have hsv := hri.d.committed
        rw [saved_append, ← h.r.d.committed] at hsv
        rw [hsv, Gh.runs_append]
        have ho := h.oksS
        have hl := h.legs.1
        rw [hS', Gh.oks_append] at ho
        rw [hS', legals_append] at hl
        exact hdc.runs hg h.vsP ho.1 hl.1
    · show dv q = (n.disk.write op).vote
      rw [h.dvq]; cases op <;> rfl

/-! ## The state machine -/

theorem smStep (hg : GInv m0 g) (h : NI g dv q g0 a0 s0 c0 P S n) (hp : NP g n) (hr : n.smStep = .ok n') : NI g dv q g0 a0 s0 c0 P S n' := by
  have hri := h.r.smStep hr
  have hchain := h.r.s.chain
  unfold Runtime.Node.smStep at hr
  cases hq : n.smq with
  | nil => rw [hq] at hr; simp only [out_pure] at hr; subst hr; exact h
  | cons c qs =>
    rw [hq] at hr hchain
    have hsub : ∀ f l, SmCmd.apply f l ∈ qs → idAt (logOf g (g0.runs (P ++ S))) l.index = some l :=
      fun f l hm => h.x.aq f l (by rw [hq]; exact List.mem_cons_of_mem _ hm)
    cases c with
    | apply first last =>
      simp only at hr
      split at hr
      · rw [out_pure] at hr
        subst hr
        refine ⟨hri, h.sy, h.en, h.vl, h.cand, ⟨?_, ?_, ?_, hsub, h.x.dc⟩, h.dvq⟩
        · intro f hf
          refine h.x.loc f ?_
          rcases List.mem_append.1 hf with hf | hf
          · exact hf
          · simp at hf
        · intro v hv
          rcases List.mem_append.1 hv with hv | hv
          · exact h.x.selfs v hv
          · simp at hv
        · intro e he
          rcases List.mem_append.1 he with he | he
          · exact h.x.hist e he
          · have hvs := h.vsD hg
            unfold LogStore.read at he
            obtain ⟨hm, hb⟩ := List.mem_filter.1 he
            simp only [Bool.and_eq_true, decide_eq_true_eq] at hb
            rw [h.r.d.rd] at hm
            have hid := h.x.aq first last (by rw [hq]; simp)
            obtain ⟨_, hk⟩ := hp.que first last (by rw [hq]; simp)
            obtain ⟨hval, htk⟩ := take_of_idAt hvs.good hid
            refine ⟨_, _, hk.cpre, ?_⟩
            rw [← htk, get_take (by omega)]
            exact (hvs.st.mem_get hm).2
      · cases hr
    | install m io =>
      simp only [out_pure] at hr
      subst hr
      refine ⟨hri, h.sy, h.en, h.vl, h.cand, ⟨?_, ?_, fun e he => (by cases he), hsub, h.x.dc⟩, h.dvq⟩
      · intro f hf
        refine h.x.loc f ?_
        rcases List.mem_append.1 hf with hf | hf
        · exact hf
        · simp at hf
      · intro v hv
        rcases List.mem_append.1 hv with hv | hv
        · exact h.x.selfs v hv
        · simp at hv
    | build =>
      simp only [out_pure] at hr
      subst hr
      exact ⟨hri, h.sy, h.en, h.vl, h.cand, ⟨h.x.loc, h.x.selfs, h.x.hist, hsub, h.x.dc⟩, h.dvq⟩

theorem buildDone (h : NI g dv q g0 a0 s0 c0 P S n) (k : Nat) : NI g dv q g0 a0 s0 c0 P S (n.buildDone k) := by
  have hri := h.r.buildDone k
  unfold Runtime.Node.buildDone at hri ⊢
  cases hk : n.builds[k]? with
  | none => exact h
  | some m =>
    rw [hk] at hri
    refine ⟨hri, h.sy, h.en, h.vl, h.cand, ⟨?_, ?_, h.x.hist, h.x.aq, h.x.dc⟩, h.dvq⟩
    · intro f hf
      refine h.x.loc f ?_
      rcases List.mem_append.1 hf with hf | hf
      · exact hf
      · simp at hf
    · intro v hv
      rcases List.mem_append.1 hv with hv | hv
      · exact h.x.selfs v hv
      · simp at hv

theorem register (h : NI g dv q g0 a0 s0 c0 P S n) (tx : Nat) (o : Option Nat) : NI g dv q g0 a0 s0 c0 P S (n.register tx o) := by
  have hri := h.r.register tx o
  cases o <;> exact ⟨hri, h.sy, h.en, h.vl, h.cand, ⟨h.x.loc, h.x.selfs, h.x.hist, h.x.aq, h.x.dc⟩, h.dvq⟩

end NI

/-! ## A command is executed -/

/-- what executing a command does to the state machine's side -/
theorem exec_sm {c : Cmd} (hr : n.exec dbg c = .ok n1) :
    n1.sm = n.sm ∧ n1.builds = n.builds ∧ ∀ f l, SmCmd.apply f l ∈ n1.smq → SmCmd.apply f l ∈ n.smq ∨ (∃ a, c = .apply a l) ∨ c = .sm (.apply f l) := by
  cases c with
  | updateIO w io =>
    simp only [Runtime.Node.exec, out_bind, out_pure] at hr
    obtain ⟨n2, h1, hr⟩ := hr
    rw [submit_ok h1] at hr
    subst hr
    exact ⟨rfl, rfl, fun m f hm => Or.inl hm⟩
  | append v es =>
    simp only [Runtime.Node.exec, out_bind, out_pure, lift_ok, unwrap_ok] at hr
    obtain ⟨l, hl, n2, h1, hr⟩ := hr
    rw [submit_ok h1] at hr
    subst hr
    exact ⟨rfl, rfl, fun m f hm => Or.inl hm⟩
  | saveVote v =>
    simp only [Runtime.Node.exec, out_bind, out_pure] at hr
    obtain ⟨n2, h1, hr⟩ := hr
    rw [submit_ok h1] at hr
    subst hr
    exact ⟨rfl, rfl, fun m f hm => Or.inl hm⟩
  | sendVote v l =>
    simp only [Runtime.Node.exec, out_bind, out_pure] at hr
    obtain ⟨_, _, hr⟩ := hr; subst hr
    exact ⟨rfl, rfl, fun m f hm => Or.inl hm⟩
  | transfer v t l =>
    simp only [Runtime.Node.exec, out_bind, out_pure] at hr
    obtain ⟨_, _, hr⟩ := hr; subst hr
    exact ⟨rfl, rfl, fun m f hm => Or.inl hm⟩
  | apply a u =>
    simp only [Runtime.Node.exec, out_bind, out_pure, lift_ok, unwrap_ok] at hr
    obtain ⟨first, hfi, _, _, hr⟩ := hr; subst hr
    refine ⟨rfl, rfl, fun f l hm => ?_⟩
    rcases List.mem_append.1 hm with hm | hm
    · exact Or.inl hm
    · simp only [List.mem_singleton, SmCmd.apply.injEq] at hm
      right; left
      exact ⟨a, by rw [hm.2]⟩
  | replicate t r =>
    simp only [Runtime.Node.exec] at hr
    split at hr
    · rw [out_pure] at hr; subst hr
      exact ⟨rfl, rfl, fun m f hm => Or.inl hm⟩
    · cases hr
  | rebuild ts =>
    simp only [Runtime.Node.exec, Runtime.Node.rebuild, out_bind] at hr
    obtain ⟨_, _, hr⟩ := hr
    split at hr
    · rw [out_pure] at hr; subst hr
      exact ⟨rfl, rfl, fun m f hm => Or.inl hm⟩
    · cases hr
  | sm c =>
    cases c with
    | install m io =>
      simp only [Runtime.Node.exec, out_bind, out_pure] at hr
      obtain ⟨n2, h1, hr⟩ := hr
      rw [submit_ok h1] at hr
      subst hr
      refine ⟨rfl, rfl, fun f l hm => ?_⟩
      rcases List.mem_append.1 hm with hm | hm
      · exact Or.inl hm
      · simp at hm
    | apply f' l' =>
      simp only [Runtime.Node.exec, out_pure] at hr; subst hr
      refine ⟨rfl, rfl, fun f l hm => ?_⟩
      rcases List.mem_append.1 hm with hm | hm
      · exact Or.inl hm
      · rw [List.mem_singleton.1 hm]; exact Or.inr (Or.inr rfl)
    | build =>
      simp only [Runtime.Node.exec, out_pure] at hr; subst hr
      refine ⟨rfl, rfl, fun f l hm => ?_⟩
      rcases List.mem_append.1 hm with hm | hm
      · exact Or.inl hm
      · simp at hm
  | _ =>
    simp only [Runtime.Node.exec, out_pure] at hr; subst hr
    exact ⟨rfl, rfl, fun m f hm => Or.inl hm⟩

theorem exec_facts {c : Cmd} (hsv : ∀ v, c ≠ .saveVote v) (hr : n.exec dbg c = .ok n1) :
    n1.sm = n.sm ∧ n1.disk = n.disk ∧ (n1.rx = n.rx ∨ ∃ w io, c = .updateIO w io ∧ n1.rx = n.rx ++ [.localIO io]) ∧
      ∀ m f, SmCmd.install m f ∈ n1.smq → SmCmd.install m f ∈ n.smq ∨ c = .sm (.install m f) := by
  cases c with
  | updateIO w io =>
    simp only [Runtime.Node.exec, out_bind, out_pure] at hr
    obtain ⟨n2, h1, hr⟩ := hr
    rw [submit_ok h1] at hr
    subst hr
    exact ⟨rfl, rfl, Or.inr ⟨w, io, rfl, rfl⟩, fun m f hm => Or.inl hm⟩
  | append v es =>
    simp only [Runtime.Node.exec, out_bind, out_pure, lift_ok, unwrap_ok] at hr
    obtain ⟨l, hl, n2, h1, hr⟩ := hr
    rw [submit_ok h1] at hr
    subst hr
    exact ⟨rfl, rfl, Or.inl rfl, fun m f hm => Or.inl hm⟩
  | saveVote v => exact absurd rfl (hsv v)
  | purge u =>
    simp only [Runtime.Node.exec, out_pure] at hr
    subst hr
    exact ⟨rfl, rfl, Or.inl rfl, fun m f hm => Or.inl hm⟩
  | truncate u =>
    simp only [Runtime.Node.exec, out_pure] at hr
    subst hr
    exact ⟨rfl, rfl, Or.inl rfl, fun m f hm => Or.inl hm⟩
  | saveCommitted u =>
    simp only [Runtime.Node.exec, out_pure] at hr
    subst hr
    exact ⟨rfl, rfl, Or.inl rfl, fun m f hm => Or.inl hm⟩
  | sendVote v l =>
    simp only [Runtime.Node.exec, out_bind, out_pure] at hr
    obtain ⟨_, _, hr⟩ := hr; subst hr
    exact ⟨rfl, rfl, Or.inl rfl, fun m f hm => Or.inl hm⟩
  | transfer v t l =>
    simp only [Runtime.Node.exec, out_bind, out_pure] at hr
    obtain ⟨_, _, hr⟩ := hr; subst hr
    exact ⟨rfl, rfl, Or.inl rfl, fun m f hm => Or.inl hm⟩
  | replCommitted s =>
    simp only [Runtime.Node.exec, out_pure] at hr; subst hr
    exact ⟨rfl, rfl, Or.inl rfl, fun m f hm => Or.inl hm⟩
  | heartbeat a b c =>
    simp only [Runtime.Node.exec, out_pure] at hr; subst hr
    exact ⟨rfl, rfl, Or.inl rfl, fun m f hm => Or.inl hm⟩
  | apply a u =>
    simp only [Runtime.Node.exec, out_bind, out_pure, lift_ok, unwrap_ok] at hr
    obtain ⟨first, hfi, _, _, hr⟩ := hr; subst hr
    refine ⟨rfl, rfl, Or.inl rfl, fun m f hm => ?_⟩
    rcases List.mem_append.1 hm with hm | hm
    · exact Or.inl hm
    · simp at hm
  | replicate t r =>
    simp only [Runtime.Node.exec] at hr
    split at hr
    · rw [out_pure] at hr; subst hr
      exact ⟨rfl, rfl, Or.inl rfl, fun m f hm => Or.inl hm⟩
    · cases hr
  | rebuild ts =>
    simp only [Runtime.Node.exec, Runtime.Node.rebuild, out_bind] at hr
    obtain ⟨_, _, hr⟩ := hr
    split at hr
    · rw [out_pure] at hr; subst hr
      exact ⟨rfl, rfl, Or.inl rfl, fun m f hm => Or.inl hm⟩
    · cases hr
  | sm c =>
    cases c with
    | install m io =>
      simp only [Runtime.Node.exec, out_bind, out_pure] at hr
      obtain ⟨n2, h1, hr⟩ := hr
      rw [submit_ok h1] at hr
      subst hr
      refine ⟨rfl, rfl, Or.inl rfl, fun m' f hm => ?_⟩
      rcases List.mem_append.1 hm with hm | hm
      · exact Or.inl hm
      · simp only [List.mem_singleton] at hm
        rw [hm]; exact Or.inr rfl
    | _ =>
      simp only [Runtime.Node.exec, out_pure] at hr; subst hr
      refine ⟨rfl, rfl, Or.inl rfl, fun m' f hm => ?_⟩
      rcases List.mem_append.1 hm with hm | hm
      · exact Or.inl hm
      · simp at hm
  | respond w tx r =>
    simp only [Runtime.Node.exec, out_pure] at hr; subst hr
    exact ⟨rfl, rfl, Or.inl rfl, fun m f hm => Or.inl hm⟩

theorem CandLog.run (hg : GInv m0 g) {G : Gh} (hvs : VS g dv q G) {c : Cmd} (hok : G.Ok c) (hl : Legal g dv q G c) (hs : ∀ v, c ≠ .saveVote v)
    (h : CandLog g q G) : CandLog g q (G.run c) := by
  have hv : (G.run c).vote = G.vote := vote_runs_same [c] G fun v hv => hs v (List.mem_singleton.1 hv).symm
  intro h1 h2 h3
  rw [hv] at h1 h2 h3
  rw [hv, (hvs.run_idle hg hok hl hs h2 h3).1]
  exact h h1 h2 h3

namespace NI

theorem frame (hf : Runtime.ExecFrame n n1) (h : NI g dv q g0 a0 s0 c0 P S n) : EN g dv q g0 P.length n1.eng ∧ Sy n1.eng ∧
    n1.eng.st.io.prog.flushed = n.eng.st.io.prog.flushed ∧ n1.eng.out = n.eng.out := by
  obtain ⟨p, x, h1, h2, h3⟩ := hf.eng
  rw [h1]
  exact ⟨EN.same (e := n.eng) h.en rfl rfl rfl (by unfold RState.accLast; rw [h2]) rfl rfl rfl, Sy.same (e := n.eng) h.sy, h3, rfl⟩

/-- a command that saves no vote -/
theorem exec_keep (hg : GInv m0 g) (h : NI g dv q g0 a0 s0 c0 P S n) (hp : NP g n) {c : Cmd} (hc : n.head = some c) (hrd : n.ready c = true)
    (hsv : ∀ v, c ≠ .saveVote v) (hr : n.exec dbg c = .ok n1) : NI g dv q g0 a0 s0 c0 P (S ++ [c]) { n1 with done := n1.done + 1 } := by
  have hri := h.r.exec_keep hc hrd hsv hr
  obtain ⟨he, hsy, hfl, _⟩ := h.frame (exec_frame hr)
  obtain ⟨k1, k2, k3, k4⟩ := h.r.head hc
  have hleg := h.headLegal hc
  obtain ⟨f1, f2, f3, f4⟩ := exec_facts hsv hr
  have hrx : ∀ x ∈ n1.rx, x ∈ n.rx ∨ ∃ w io, c = .updateIO w io ∧ x = .localIO io := by
    intro x hx
    rcases f3 with h1 | ⟨w, io, h1, h2⟩
    · exact Or.inl (h1 ▸ hx)
    · rw [h2] at hx
      rcases List.mem_append.1 hx with hx | hx
      · exact Or.inl hx
      · exact Or.inr ⟨w, io, h1, List.mem_singleton.1 hx⟩
  obtain ⟨-, -, f5⟩ := exec_sm hr
  have hvs := h.vsD hg
  refine ⟨hri, hsy, he, h.vl, ?_, ⟨?_, ?_, ?_, ?_, ?_⟩, ?_⟩
  · rw [← List.append_assoc, Gh.runs_snoc]
    exact h.cand.run hg hvs k1 hleg hsv
  · intro f hf
    rcases hrx _ hf with h1 | ⟨w, io, rfl, h1⟩
    · exact h.x.loc f h1
    · cases h1
      obtain ⟨hv, hw, hh⟩ := k2
      intro h1 _ x hx
      have ha : Anch g (g0.runs (P ++ S)) := hvs.anch_own (Or.inr (by rw [← h.vlD.lid, ← hv]; exact h1))
      have := h.durable hg hp (h.r.fl_wait rfl hrd (hw.imp_left And.left)) ha (hleg h1 x hx)
      rw [h.vote_disk, h.vote_PS] at this
      exact this
  · intro v hv
    rcases hrx _ hv with h1 | ⟨w, io, rfl, h1⟩
    · exact h.x.selfs v h1
    · cases h1
  · intro e he
    refine h.x.hist e ?_
    rw [← f1]; exact he
  · intro f l hm
    rw [← List.append_assoc, Gh.runs_snoc]
    rcases f5 f l hm with h1 | ⟨a, rfl⟩ | rfl
    · have hlt := (ComVal.le h.r.oks (h.r.s.chain.apply_val h1)).next
      simp only [nextIndex_some] at hlt
      exact hvs.run_in hg k1 hleg (h.x.aq f l h1) (hp.que f l h1).2 (by omega)
    · exact hvs.st.idAt_mem (List.mem_append_right _ k1.2.1)
    · exact k2.elim
  · show Sav g _ n1.disk.committed
    rw [f2]; exact h.x.dc
  · show dv q = n1.disk.vote
    rw [f2]; exact h.dvq

end NI

/-- what the history gets when a vote is saved -/
theorem vote_hist (hg : GInv m0 g) {G : Gh} (hvs : VS g dv' q G) {w : Vote} (hlt : w < G.vote) (hlid : ∀ e ∈ logOf g G, e.lid = ⟨0, 0⟩ ∨ (⟨e.lid, true⟩ : Vote) ≤ w)
    (hcl : ∀ L, g.cl L ≠ none → L.node = q → L ≤ w.leaderId) :
    ∃ g', GInv m0 g' ∧ GSame q g g' ∧ g'.ll = g.ll ∧ g'.el = g.el ∧ VS g' dv' q G ∧ CandLog g' q G ∧ SelfOk g' dv' q G.vote := by
  by_cases hc : G.vote.leaderId.node = q ∧ G.vote.committed = false ∧ G.vote.leaderId.term ≠ 0
  · obtain ⟨h1, h2, h3⟩ := hc
    have hwL : w.leaderId < G.vote.leaderId := by
      rcases Vote.lt_def.1 hlt with h4 | ⟨_, _, h4⟩
      · exact h4
      · rw [h2] at h4; cases h4
    have hnone : g.cl G.vote.leaderId = none := by
      by_contra hne
      exact absurd (hcl _ hne h1) (not_le.2 hwL)
    have hlts : ∀ e ∈ logOf g G, e.lid < G.vote.leaderId := by
      intro e he
      rcases hlid e he with h4 | h4
      · rw [h4]
        refine LeaderId.lt_def.2 (Or.inl ?_)
        exact Nat.pos_of_ne_zero h3
      · exact lt_of_le_of_lt (lid_of_le h4) hwL
    have hs1 := step_setCl (g := g) q G.vote.leaderId (logOf g G) h1 hnone
    have hg1 := ginv_setCl hg G.vote.leaderId (logOf g G) hnone hvs.good hlts
    have hv1 : VS (g.setCl G.vote.leaderId (logOf g G)) dv' q G := hvs.setCl hg hnone fun _ => le_refl _
    obtain ⟨g1, hg1e⟩ : ∃ g1, g1 = g.setCl G.vote.leaderId (logOf g G) := ⟨_, rfl⟩
    have hl1 : logOf g1 G = logOf g G := by rw [hg1e]; exact logOf_mono hs1.toGhostLe hvs.st
    have hcl1 : g1.cl G.vote.leaderId = some (logOf g1 G) := by
      rw [hl1, hg1e]; exact fset_same _ _ _
    rw [← hg1e] at hs1 hg1 hv1
    have hs2 := step_addGrant (g := g1) q ⟨q, G.vote.leaderId, logOf g1 G⟩ rfl
    have hunc : (⟨G.vote.leaderId, false⟩ : Vote) = G.vote := by rw [← h2]
    refine ⟨g1.addGrant ⟨q, G.vote.leaderId, logOf g1 G⟩, ginv_addGrant hg1 _ ⟨_, hcl1, le_refl _⟩ hv1.good ?_, ⟨hs1.trans hs2, by rw [hg1e]; rfl⟩, by rw [hg1e]; rfl, by rw [hg1e]; rfl,
      hv1.addGrant _ (fun _ => le_of_eq hunc), ?_, ?_⟩
    · intro a ha hq _ m hm hyp
      refine (hv1.acks a ha hq.symm).2 m hm fun L'' S'' l'' k1 k2 k3 k4 => hyp L'' S'' l'' k1 k2 k3 ?_
      rcases Vote.le_def.1 k4 with k5 | ⟨_, k5⟩
      · exact k5
      · have := k5 rfl; rw [h2] at this; cases this
    · exact fun _ _ _ => hcl1
    · exact ⟨fun hcm => (by rw [h2] at hcm; cases hcm), fun hne => absurd h1 hne, fun _ _ _ => ⟨_, List.mem_cons_self, rfl, rfl⟩⟩
  · refine ⟨g, hg, .refl q g, rfl, rfl, hvs, fun h1 h2 h3 => absurd ⟨h1, h2, h3⟩ hc, hvs.voteEl, hvs.pv, fun h1 h2 h3 => absurd ⟨h1, h2, h3⟩ hc⟩

namespace NI

/-- a vote is saved -/
theorem exec_save (hg : GInv m0 g) (h : NI g dv q g0 a0 s0 c0 P S n) {v : Vote} (hc : n.head = some (.saveVote v))
    (hr : n.exec dbg (.saveVote v) = .ok n1) :
    ∃ g' dv', GInv m0 g' ∧ GSame q g g' ∧ (∀ i, dv i ≤ dv' i) ∧ (∀ i, i ≠ q → dv' i = dv i) ∧
      NI g' dv' q g0 a0 s0 c0 (P ++ S ++ [.saveVote v]) [] { n1 with done := n1.done + 1 } := by
  have hri := h.r.run_saveVote hc hr
  obtain ⟨he, hsy, hfl, hout⟩ := h.frame (exec_frame hr)
  obtain ⟨k1, k2, k3, k4⟩ := h.r.head hc
  have k1 : (g0.runs (P ++ S)).vote < v := k1
  have hleg := h.headLegal hc
  have hvD := h.vsD hg
  obtain ⟨dv', hdv'⟩ : ∃ dv' : NodeId → Vote, dv' = fun i => if i = q then v else dv i := ⟨_, rfl⟩
  have hdq : dv' q = v := by rw [hdv']; simp
  have hdo : ∀ i, i ≠ q → dv' i = dv i := fun i hi => by rw [hdv']; simp [hi]
  have hdle : ∀ i, dv i ≤ dv' i := by
    intro i
    by_cases hi : i = q
    · rw [hi, hdq, h.dvq, h.vote_disk]; exact le_of_lt k1
    · rw [hdo i hi]
  have hrun : g0.runs (P ++ S ++ [.saveVote v]) = (g0.runs (P ++ S)).run (.saveVote v) := Gh.runs_snoc _ _ _
  have hvv : (g0.runs (P ++ S ++ [.saveVote v])).vote = v := by rw [hrun]; rfl
  have hlog : ∀ gg, logOf gg (g0.runs (P ++ S ++ [.saveVote v])) = logOf gg (g0.runs (P ++ S)) := fun gg => by rw [hrun]; rfl
  have hout' : n1.eng.out = n.eng.out := hout
  have hlen : (P ++ S ++ [Cmd.saveVote v]).length ≤ n1.eng.out.length := by
    rw [hout', ← k3, List.length_take]; omega
  have htk : n1.eng.out.take (P ++ S ++ [Cmd.saveVote v]).length = P ++ S ++ [.saveVote v] := by
    have := hri.split
    rw [List.append_nil] at this
    have h2 := congrArg List.length this
    have this : n1.eng.out.take (n1.done + 1) = P ++ S ++ [.saveVote v] := this
    rw [← this, List.length_take]
    rw [List.take_eq_take_iff]; omega
  have he1 : EN g dv q g0 (P ++ S ++ [Cmd.saveVote v]).length n1.eng := he.advance hg (by rw [hout']; exact h.r.flow.oks) (by simp) hlen
  have hv1 : VS g dv q (g0.runs (P ++ S ++ [.saveVote v])) := by
    have := he1.sq.vs; rw [htk] at this; exact this
  have hv2 : VS g dv' q (g0.runs (P ++ S ++ [.saveVote v])) := hv1.mono hg (.refl q g) hdle
  obtain ⟨g', w1, w2, w3, w4, w5, w6, w7⟩ := vote_hist hg hv2 (w := (g0.runs (P ++ S)).vote) (by rw [hvv]; exact k1)
    (by rw [hlog]; exact hvD.lids) hvD.ownCl
  have hEI : EInv g0 n1.eng := hri.flow.inv
  refine ⟨g', dv', w1, w2, hdle, hdo, hri, hsy, ?_, h.vl, by rw [List.append_nil]; exact w6, ?_, ?_⟩
  · refine he1.self hg w2.toGhostLe w3 w4 hdle hEI ?_
    rw [htk]; exact w5
  · have hdc : Sav g' (g0.runs (P ++ S ++ [.saveVote v])).vote n1.disk.committed := by
      have h1 := hri.d.committed
      have h1 : n1.disk.committed = _ := h1
      rw [List.append_assoc, saved_append, ← h.r.d.committed] at h1
      rw [h1, List.append_assoc, Gh.runs_append]
      have ho : (g0.runs P).Oks (S ++ [.saveVote v]) := (Gh.oks_append _ _ _).2 ⟨h.oksS, by rw [← Gh.runs_append]; exact ⟨k1, trivial⟩⟩
      have hl : Legals g dv q (g0.runs P) (S ++ [.saveVote v]) := legals_append.2 ⟨h.legs.1, by rw [← Gh.runs_append]; exact ⟨hleg, trivial⟩⟩
      exact (h.x.dc.runs hg h.vsP ho hl).mono w2.toGhostLe (le_refl _)
    simp only [Runtime.Node.exec, out_bind, out_pure] at hr
    obtain ⟨n2, hs, hr⟩ := hr
    rw [submit_ok hs] at hr
    subst hr
    clear hs
    have hrx : ∀ x ∈ n.rx ++ n.pend.flatMap DiskOp.note ++ [Note.localIO (IOId.new v), .selfVote v], x ∈ n.rx ∨
        (∃ f S1 c S2, x = .localIO f ∧ S = S1 ++ c :: S2 ∧ c.hard = some f) ∨ x = .localIO (IOId.new v) ∨ x = .selfVote v := by
      intro x hx
      rcases List.mem_append.1 hx with hx | hx
      · rcases List.mem_append.1 hx with hx | hx
        · exact Or.inl hx
        · right; left
          obtain ⟨op, ho, hx⟩ := List.mem_flatMap.1 hx
          rw [h.r.d.pend] at ho
          obtain ⟨d, hd, hdo⟩ := List.mem_filterMap.1 ho
          obtain ⟨io, h2, h3, _⟩ := note_of_op hdo hx
          obtain ⟨A, B, hAB⟩ := List.append_of_mem hd
          exact ⟨io, A, d, B, h2, hAB, h3⟩
      · simp only [List.mem_cons, List.not_mem_nil, or_false] at hx
        rcases hx with hx | hx
        · exact Or.inr (Or.inr (Or.inl hx))
        · exact Or.inr (Or.inr (Or.inr hx))
    have hlog' : logOf g' (g0.runs (P ++ S ++ [.saveVote v])) = logOf g (g0.runs (P ++ S)) := by
      rw [hlog, logOf_mono w2.toGhostLe hvD.st]
    have hvle : (g0.runs P).vote.leaderId ≤ v.leaderId := by rw [← h.vote_PS]; exact lid_of_le (le_of_lt k1)
    refine ⟨?_, ?_, fun e he => (h.x.hist e he).mono w2.toGhostLe, fun f l hm => by rw [List.append_nil, hlog']; exact h.x.aq f l hm, hdc⟩
    · intro f hf
      rcases hrx _ hf with h1 | ⟨f', S1, c, S2, h1, h2, h3⟩ | h1 | h1
      · have h3 := h.x.loc f h1
        intro o1 o2 x hx
        rw [hvv] at o2 ⊢
        have hl := h.flid (h.r.f.local_ f h1).1
        have heq : f.vote.leaderId = (g0.runs P).vote.leaderId := le_antisymm hl (by rw [o2]; exact hvle)
        rw [hlog']
        have := h.own_grow hg (A := []) (B := S) (C := []) (by simp) (by rw [← heq]; exact o1)
        rw [List.append_nil] at this
        rcases h3 o1 heq x hx with h4 | ⟨h4, h5⟩
        · exact Or.inl (idAt_pre this h4)
        · rw [cont_mono w2.toGhostLe h4]
          exact Or.inr ⟨h4.mono w2.toGhostLe, (h5.mono w2.toGhostLe).le (by rw [← h.vote_PS]; exact le_of_lt k1)⟩
      · cases h1
        obtain ⟨o1, o2⟩ := h.own_note hg h2 h3
        intro o3 _ x hx
        left
        rw [hlog']
        have := h.own_grow hg (A := S1 ++ [c]) (B := S2) (C := []) (by rw [h2]; simp) (by rw [← o1]; exact o3)
        rw [List.append_assoc, List.append_assoc, List.singleton_append, ← h2] at this
        exact idAt_pre this (o2 x hx)
      · cases h1
        exact fun _ _ x hx => by cases hx
      · cases h1
    · intro w hw
      rcases hrx _ hw with h1 | ⟨f', S1, c, S2, h1, h2, h3⟩ | h1 | h1
      · exact (h.x.selfs w h1).mono w2.toGhostLe hdle
      · cases h1
      · cases h1
      · cases h1
        rw [hvv] at w7; exact w7
  · rw [hdq]
    have := hri.disk_vote
    rw [this, List.append_nil, hvv]

end NI
end Openraft.Net
