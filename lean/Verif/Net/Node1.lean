import Verif.Net.Eng10
import Verif.Net.Model
import Verif.Runtime.InvRun

/-!
# A node agrees with the history of the cluster

`NI`: the invariant of one node, `RInv` together with what its commands, notifications and state machine mean in the
history.
-/

set_option autoImplicit false
set_option linter.unusedSectionVars false

namespace Openraft.Net
open Openraft.Repl (Panic dassert Inflight)
open Openraft.Engine Openraft.Cluster
open Openraft.Runtime (Fl RInv Covered Note SmOk LeI vote_runs_same out_bind out_pure lift_ok)
open Openraft.VecProgress (AllP BI)

variable {m0 : Membership} [hne : Fact (m0.configs ≠ [])] {g g' : Ghost} {dv dv' : NodeId → Vote} {q : NodeId} {g0 : Gh} {p : Nat} {dbg : Bool} {now : Nat}

/-! ## The engine when the history grows -/

theorem EC.mono (hle : GhostLe g g') {l : Log} {e : Eng} (h : EC g q l e) (hl : ∀ x, e.leader = some x → g'.ll e.st.vote.data.leaderId = g.ll e.st.vote.data.leaderId)
    (hc : ∀ c, e.candidate = some c → g'.el e.st.vote.data.leaderId = g.el e.st.vote.data.leaderId) : EC g' q l e := by
  refine ⟨?_, ?_, ?_, ?_⟩
  · intro x hx
    obtain ⟨h1, h2⟩ := h.lead x hx
    exact ⟨by rw [hl x hx]; exact h1, fun a hm => AckBy.mono hle (h2 a hm)⟩
  · intro c hcc
    obtain ⟨h1, h2, h3, h4, h5⟩ := h.cand c hcc
    refine ⟨h1, h2, fun n hn => ?_, by rw [hc c hcc]; exact h4, h5⟩
    obtain ⟨gr, h6, h7⟩ := h3 n hn
    exact ⟨gr, hle.grants gr h6, h7⟩
  · exact fun h1 h2 x hx => idAt_pre (hle.ll _) (h.acc h1 h2 x hx)
  · exact fun h1 y hy => (h.mcom h1 y hy).mono hle

/-- a step of another node -/
theorem EN.other (hg : GInv m0 g) {n : NodeId} (hs : GhostStep n g g') (hnq : q ≠ n) (hdv : ∀ n, dv n ≤ dv' n) {e : Eng} (h : EInv g0 e)
    (hn : EN g dv q g0 p e) : EN g' dv' q g0 p e := by
  have hvs := hn.sq.endVS hg h.lm.oks
  have hl : elog g' g0 e = elog g g0 e := logOf_mono hs.toGhostLe hvs.st
  refine ⟨hn.sq.mono hg (hs.grown hnq) hdv h.lm.oks, ?_, hn.id⟩
  rw [hl]
  refine hn.ec.mono hs.toGhostLe (fun x hx => hs.ll_eq _ ?_) (fun c hc => hs.el_eq _ ?_)
  · have := (h.pj.lead x hx).node
    rw [this, hn.id]; exact hnq
  · have := (h.pj.cand c hc).node
    rw [this, hn.id]; exact hnq

/-- this node adds to the history -/
theorem EN.self (hg : GInv m0 g) (hle : GhostLe g g') (hll : g'.ll = g.ll) (hel : g'.el = g.el) (hdv : ∀ n, dv n ≤ dv' n) {e : Eng} (h : EInv g0 e)
    (hn : EN g dv q g0 p e) (hv : VS g' dv' q (g0.runs (e.out.take p))) : EN g' dv' q g0 p e := by
  have hvs := hn.sq.endVS hg h.lm.oks
  have hl : elog g' g0 e = elog g g0 e := logOf_mono hle hvs.st
  refine ⟨⟨hn.sq.le, hv, hn.sq.legs.mono hg hle hdv hn.sq.vs (oks_split h.lm.oks p)⟩, ?_, hn.id⟩
  rw [hl]
  exact hn.ec.mono hle (fun x hx => by rw [hll]) (fun c hc => by rw [hel])

/-- more commands are durable -/
theorem SQ.advance (hg : GInv m0 g) {out : List Cmd} (h : SQ g dv q g0 p out) (ho : g0.Oks out) {p' : Nat} (h1 : p ≤ p') (h2 : p' ≤ out.length) :
    SQ g dv q g0 p' out := by
  have ht : out.take p' = out.take p ++ (out.drop p).take (p' - p) := by
    rw [← List.take_add, Nat.add_sub_cancel' h1]
  have hd : out.drop p = (out.drop p).take (p' - p) ++ out.drop p' := by
    conv_lhs => rw [← List.take_append_drop (p' - p) (out.drop p)]
    rw [List.drop_drop, Nat.add_sub_cancel' h1]
  have hl := h.legs
  have ho' := oks_split ho p
  rw [hd, legals_append] at hl
  rw [hd, Gh.oks_append] at ho'
  refine ⟨h2, ?_, ?_⟩
  · rw [ht, Gh.runs_append]; exact h.vs.runs hg ho'.1 hl.1
  · rw [ht, Gh.runs_append]; exact hl.2

theorem EN.advance (hg : GInv m0 g) {e : Eng} (h : EN g dv q g0 p e) (ho : g0.Oks e.out) {p' : Nat} (h1 : p ≤ p') (h2 : p' ≤ e.out.length) :
    EN g dv q g0 p' e := ⟨h.sq.advance hg ho h1 h2, h.ec, h.id⟩

/-! ## Votes of IO ids -/

/-- the vote of the accepted IO id is the saved vote, except that a cluster's first entry is written with a vote that is not saved -/
def VL (a : IOId) (G : Gh) : Prop := a.vote = G.vote ∨ (a.vote = ⟨⟨0, 0⟩, true⟩ ∧ G.vote = ⟨⟨0, 0⟩, false⟩)

theorem VL.run {a : IOId} {G : Gh} {c : Cmd} (h : VL a G) (hk : COk G a c) : VL (lvl a c) (G.run c) := by
  cases c with
  | append v es =>
    obtain ⟨x, hx, _, hv⟩ := hk
    have hl : lvl a (.append v es) = IOId.newLog v (some x.id) := by simp [lvl, hx]
    rw [hl]
    show v.toCommitted = G.vote ∨ v.toCommitted = _ ∧ G.vote = _
    rcases hv with hv | ⟨hv, hw⟩
    · rw [← hv]; exact h
    · rcases h with h | ⟨h, _⟩
      · exact Or.inr ⟨hw, by rw [← h]; exact hv⟩
      · rw [hv] at h; cases h
  | saveVote v => exact Or.inl rfl
  | updateIO w io =>
    have hv : io.vote = a.vote := hk.1
    have : (max a io).vote = a.vote := by
      rcases max_choice a io with h1 | h1
      · rw [h1]
      · rw [h1]; exact hv
    show (max a io).vote = G.vote ∨ (max a io).vote = _ ∧ _
    rw [this]; exact h
  | sm c =>
    cases c with
    | install m io =>
      have hio : io = ⟨a.vote, m.lastLogId⟩ := hk
      have : (max a io).vote = a.vote := by
        rcases max_choice a io with h1 | h1
        · rw [h1]
        · rw [h1, hio]
      show (max a io).vote = G.vote ∨ (max a io).vote = _ ∧ _
      rw [this]; exact h
    | _ => exact h
  | _ => exact h

theorem VL.runs {a : IOId} {G : Gh} {cs : List Cmd} (h : VL a G) (hk : COks G a cs) : VL (lvls a cs) (G.runs cs) := by
  induction cs generalizing a G with
  | nil => exact h
  | cons c cs ih => exact ih (h.run hk.1) hk.2

theorem VL.lid {a : IOId} {G : Gh} (h : VL a G) : a.vote.leaderId = G.vote.leaderId := by
  rcases h with h | ⟨h, k⟩
  · rw [h]
  · rw [h, k]

/-! ## Positions of the state machine -/

variable {a0 : IOId} {s0 c0 : Option LogId} {P S : List Cmd} {n n' : Runtime.Node}

/-- a committed position and the membership at it -/
def PosOk (g : Ghost) (v : Vote) (o : Option LogId) (m : StoredMem) : Prop :=
  (∀ x, o = some x → Val g x) ∧ CVote g v (cont g o) ∧ m = memOf (cont g o)

theorem PosOk.zero (v : Vote) : PosOk g v none StoredMem.empty := ⟨fun x hx => (by cases hx), Or.inl rfl, rfl⟩

theorem PosOk.mono (hle : GhostLe g g') {v v' : Vote} (hv : v ≤ v') {o : Option LogId} {m : StoredMem} (h : PosOk g v o m) : PosOk g' v' o m := by
  obtain ⟨h1, h2, h3⟩ := h
  unfold PosOk
  rw [cont_monoO hle h1]
  exact ⟨fun x hx => (h1 x hx).mono hle, (h2.mono hle).le hv, h3⟩

/-- positions of the state machine -/
structure NP (g : Ghost) (n : Runtime.Node) : Prop where
  sm : PosOk g n.disk.vote n.sm.applied n.sm.mem
  snap : PosOk g n.disk.vote n.sm.snap.lastLogId n.sm.snap.mem
  builds : ∀ m ∈ n.builds, PosOk g n.disk.vote m.lastLogId m.mem
  que : ∀ f l, SmCmd.apply f l ∈ n.smq → Val g l ∧ CVote g n.disk.vote (cont g (some l))
  inst : ∀ m f, SmCmd.install m f ∈ n.smq → PosOk g n.disk.vote m.lastLogId m.mem

theorem NP.mono (hle : GhostLe g g') (h : NP g n) (hv : n.disk.vote ≤ n'.disk.vote) (hs : n'.sm = n.sm) (hb : n'.builds = n.builds)
    (hq : ∀ f l, SmCmd.apply f l ∈ n'.smq → SmCmd.apply f l ∈ n.smq ∨ Val g' l ∧ CVote g' n'.disk.vote (cont g' (some l)))
    (hi : ∀ m f, SmCmd.install m f ∈ n'.smq → SmCmd.install m f ∈ n.smq ∨ PosOk g' n'.disk.vote m.lastLogId m.mem) : NP g' n' := by
  refine ⟨by rw [hs]; exact h.sm.mono hle hv, by rw [hs]; exact h.snap.mono hle hv, fun m hm => (h.builds m (hb ▸ hm)).mono hle hv, ?_, ?_⟩
  · intro f l hm
    rcases hq f l hm with h1 | h1
    · obtain ⟨h2, h3⟩ := h.que f l h1
      rw [cont_mono hle h2]
      exact ⟨h2.mono hle, (h3.mono hle).le hv⟩
    · exact h1
  · intro m f hm
    rcases hi m f hm with h1 | h1
    · exact (h.inst m f h1).mono hle hv
    · exact h1

/-- the same node -/
theorem NP.le (hle : GhostLe g g') (h : NP g n) : NP g' n :=
  h.mono hle (le_refl _) rfl rfl (fun _ _ hm => Or.inl hm) (fun _ _ hm => Or.inl hm)

/-- what the state machine has durably -/
theorem NP.kept (h : NP g n) : (∀ x, n.sm.kept = some x → Val g x) ∧ CVote g n.disk.vote (cont g n.sm.kept) := by
  unfold Runtime.Sm.kept
  split
  · exact ⟨h.sm.1, h.sm.2.1⟩
  · exact ⟨h.snap.1, h.snap.2.1⟩

/-! ## Sequences of commands -/

/-- an entry beyond `k` was there before, or is an appended one that is not greater than `k` -/
theorem VS.runs_src (hg : GInv m0 g) {G : Gh} {cs : List Cmd} {k : Option LogId} (h : VS g dv q G) (ho : G.Oks cs) (hl : Legals g dv q G cs)
    (hcov : ∀ v es, Cmd.append v es ∈ cs → ∀ e ∈ es, some e.id ≤ k) (hpu : ∀ u, Cmd.purge u ∈ cs → u.index < nextIndex k)
    {x : LogId} (hi : nextIndex k ≤ x.index) (hx : idAt (logOf g (G.runs cs)) x.index = some x) :
    idAt (logOf g G) x.index = some x ∨ some x ≤ k := by
  induction cs generalizing G with
  | nil => exact Or.inl hx
  | cons c cs ih =>
    rcases ih (h.run hg ho.1 hl.1) ho.2 hl.2 (fun v es hm => hcov v es (List.mem_cons_of_mem _ hm))
      (fun u hm => hpu u (List.mem_cons_of_mem _ hm)) hx with h1 | h1
    · rcases h.run_src hg ho.1 hl.1 h1 with h2 | ⟨v, es, rfl, e, he, rfl⟩ | ⟨u, rfl, h2⟩
      · exact Or.inl h2
      · exact Or.inr (hcov v es (by simp) e he)
      · have := hpu u (by simp)
        omega
    · exact Or.inr h1

theorem purged_run {G : Gh} {c : Cmd} (ho : G.Ok c) : nextIndex G.store.purged ≤ nextIndex (G.run c).store.purged := by
  cases c with
  | purge u =>
    have h1 : nextIndex G.store.purged ≤ u.index := ho.1
    show _ ≤ u.index + 1
    omega
  | sm c => cases c <;> exact Nat.le_refl _
  | _ => exact Nat.le_refl _

theorem purged_runs {G : Gh} {cs : List Cmd} (ho : G.Oks cs) : nextIndex G.store.purged ≤ nextIndex (G.runs cs).store.purged := by
  induction cs generalizing G with
  | nil => exact Nat.le_refl _
  | cons c cs ih => exact Nat.le_trans (purged_run ho.1) (ih ho.2)

theorem purged_mem {G : Gh} {cs : List Cmd} (ho : G.Oks cs) {u : LogId} (hu : Cmd.purge u ∈ cs) : u.index < nextIndex (G.runs cs).store.purged := by
  obtain ⟨A, B, rfl⟩ := List.append_of_mem hu
  rw [Gh.oks_append] at ho
  rw [Gh.runs_append]
  exact lt_of_lt_of_le (Nat.lt_succ_self _) (purged_runs ho.2.2 : _ ≤ nextIndex (((G.runs A).run (.purge u)).runs B).store.purged)

/-- the position of an entry that is to be applied -/
theorem _root_.Openraft.Runtime.SmOk.apply_val {V : Option LogId → Prop} {p r : Option LogId} {qs : List SmCmd} (h : SmOk V p qs r) {f l : LogId}
    (hm : SmCmd.apply f l ∈ qs) : V (some l) := by
  induction qs generalizing p with
  | nil => cases hm
  | cons c cs ih =>
    cases c with
    | apply f' l' =>
      obtain ⟨_, _, _, h4, h5⟩ := h
      rcases List.mem_cons.1 hm with hm | hm
      · cases hm; exact h4
      · exact ih h5 hm
    | install m io => exact ih h.2.2.2 (by simpa using hm)
    | build => exact ih h (by simpa using hm)

/-- a saved committed position -/
def Sav (g : Ghost) (v : Vote) (o : Option LogId) : Prop := ∀ c, o = some c → Val g c ∧ CVote g v (cont g (some c))

theorem Sav.mono (hle : GhostLe g g') {v v' : Vote} (hv : v ≤ v') {o : Option LogId} (h : Sav g v o) : Sav g' v' o := by
  intro c hc
  obtain ⟨h1, h2⟩ := h c hc
  rw [cont_mono hle h1]
  exact ⟨h1.mono hle, (h2.mono hle).le hv⟩

theorem Sav.run (hg : GInv m0 g) {G : Gh} (hv : VS g dv q G) {c : Cmd} (ho : G.Ok c) (hl : Legal g dv q G c) {o : Option LogId} (h : Sav g G.vote o) :
    Sav g (G.run c).vote (Runtime.saved o [c]) := by
  cases c with
  | saveVote v => exact h.mono (.refl g) (le_of_lt ho)
  | saveCommitted y =>
    intro z hz
    have hz : some y = some z := hz
    cases hz
    have hid := hv.st.idAt_mem (List.mem_append_right _ ho.1)
    obtain ⟨h1, h2⟩ := take_of_idAt hv.good hid
    refine ⟨h1, ?_⟩
    rw [← h2]; exact hl
  | sm c => cases c <;> exact h
  | _ => exact h

theorem Sav.runs (hg : GInv m0 g) {G : Gh} {cs : List Cmd} (hv : VS g dv q G) (ho : G.Oks cs) (hl : Legals g dv q G cs) {o : Option LogId}
    (h : Sav g G.vote o) : Sav g (G.runs cs).vote (Runtime.saved o cs) := by
  induction cs generalizing G o with
  | nil => exact h
  | cons c cs ih => exact ih (hv.run hg ho.1 hl.1) ho.2 hl.2 (h.run hg hv ho.1 hl.1)

/-! ## The invariant of a node -/

/-- the entry is one of a committed prefix -/
def HistOk (g : Ghost) (e : Ent) : Prop := ∃ L l, CPre g L l ∧ l[e.id.index]? = some (toEntry e)

theorem HistOk.mono (hle : GhostLe g g') {e : Ent} (h : HistOk g e) : HistOk g' e := by
  obtain ⟨L, l, h1, h2⟩ := h
  exact ⟨L, l, h1.mono hle, h2⟩

/-- an id that is reported durable with an own vote is in the durable log, or committed -/
def OwnIO (g : Ghost) (q : NodeId) (G : Gh) (f : IOId) : Prop :=
  f.vote.leaderId.node = q → f.vote.leaderId = G.vote.leaderId → ∀ x, f.last = some x →
    idAt (logOf g G) x.index = some x ∨ Val g x ∧ CVote g G.vote (cont g (some x))

/-- a vote that the node has saved -/
structure SelfOk (g : Ghost) (dv : NodeId → Vote) (q : NodeId) (v : Vote) : Prop where
  el : v.committed = true → ∃ S, g.el v.leaderId = some S
  pv : v.leaderId.node ≠ q → v ≤ dv v.leaderId.node
  gr : v.leaderId.node = q → v.committed = false → v.leaderId.term ≠ 0 → ∃ x ∈ g.grants, x.q = q ∧ x.L = v.leaderId

theorem SelfOk.mono (hle : GhostLe g g') (hdv : ∀ n, dv n ≤ dv' n) {v : Vote} (h : SelfOk g dv q v) : SelfOk g' dv' q v := by
  refine ⟨fun hc => ?_, fun hn => le_trans (h.pv hn) (hdv _), fun h1 h2 h3 => ?_⟩
  · obtain ⟨S, hS⟩ := h.el hc; exact ⟨S, hle.el _ _ hS⟩
  · obtain ⟨x, hx, h4⟩ := h.gr h1 h2 h3; exact ⟨x, hle.grants x hx, h4⟩

/-- the log of this node when it became a candidate -/
def CandLog (g : Ghost) (q : NodeId) (G : Gh) : Prop :=
  G.vote.leaderId.node = q → G.vote.committed = false → G.vote.leaderId.term ≠ 0 → g.cl G.vote.leaderId = some (logOf g G)

/-- notifications and reports -/
structure NX (g : Ghost) (dv : NodeId → Vote) (q : NodeId) (g0 : Gh) (P S : List Cmd) (n : Runtime.Node) : Prop where
  loc : ∀ f, Note.localIO f ∈ n.rx → OwnIO g q (g0.runs P) f
  selfs : ∀ v, Note.selfVote v ∈ n.rx → SelfOk g dv q v
  hist : ∀ e ∈ n.sm.hist, HistOk g e
  aq : ∀ f l, SmCmd.apply f l ∈ n.smq → idAt (logOf g (g0.runs (P ++ S))) l.index = some l
  dc : Sav g (g0.runs P).vote n.disk.committed

structure NI (g : Ghost) (dv : NodeId → Vote) (q : NodeId) (g0 : Gh) (a0 : IOId) (s0 c0 : Option LogId) (P S : List Cmd) (n : Runtime.Node) : Prop where
  r : RInv g0 a0 s0 c0 P S n
  sy : Sy n.eng
  en : EN g dv q g0 P.length n.eng
  vl : VL a0 g0
  cand : CandLog g q (g0.runs (P ++ S))
  x : NX g dv q g0 P S n
  dvq : dv q = n.disk.vote

theorem OwnIO.mono (hle : GhostLe g g') {G : Gh} (hs : StOk g G.store) {f : IOId} (h : OwnIO g q G f) : OwnIO g' q G f := by
  intro h1 h2 x hx
  rw [logOf_mono hle hs]
  rcases h h1 h2 x hx with h3 | ⟨h3, h4⟩
  · exact Or.inl h3
  · rw [cont_mono hle h3]
    exact Or.inr ⟨h3.mono hle, h4.mono hle⟩

theorem CandLog.mono (hle : GhostLe g g') {G : Gh} (hs : StOk g G.store) (h : CandLog g q G) : CandLog g' q G := by
  unfold CandLog
  rw [logOf_mono hle hs]
  exact fun h1 h2 h3 => hle.cl _ _ (h h1 h2 h3)

theorem NX.mono (hle : GhostLe g g') (hdv : ∀ n, dv n ≤ dv' n) (hs : StOk g (g0.runs P).store) (hsD : StOk g (g0.runs (P ++ S)).store)
    (h : NX g dv q g0 P S n) : NX g' dv' q g0 P S n :=
  ⟨fun f hf => (h.loc f hf).mono hle hs, fun v hv => (h.selfs v hv).mono hle hdv, fun e he => (h.hist e he).mono hle,
    fun f l hm => by rw [logOf_mono hle hsD]; exact h.aq f l hm, h.dc.mono hle (le_refl _)⟩

namespace NI

theorem takeP (h : NI g dv q g0 a0 s0 c0 P S n) : n.eng.out.take P.length = P := by
  rw [h.r.rest, List.append_assoc]; simp

theorem dropP (h : NI g dv q g0 a0 s0 c0 P S n) : n.eng.out.drop P.length = S ++ n.eng.out.drop n.done := by
  conv_lhs => rw [h.r.rest, List.append_assoc]
  simp

theorem vsP (h : NI g dv q g0 a0 s0 c0 P S n) : VS g dv q (g0.runs P) := by
  have := h.en.sq.vs
  rw [h.takeP] at this; exact this

theorem oksP (h : NI g dv q g0 a0 s0 c0 P S n) : (g0.runs P).Oks (S ++ n.eng.out.drop n.done) := by
  have := h.r.flow.oks
  rw [h.r.rest, List.append_assoc, Gh.oks_append] at this
  exact this.2

theorem oksS (h : NI g dv q g0 a0 s0 c0 P S n) : (g0.runs P).Oks S := ((Gh.oks_append _ _ _).1 h.oksP).1

theorem oksR (h : NI g dv q g0 a0 s0 c0 P S n) : (g0.runs (P ++ S)).Oks (n.eng.out.drop n.done) := by
  rw [Gh.runs_append]; exact ((Gh.oks_append _ _ _).1 h.oksP).2

theorem legs (h : NI g dv q g0 a0 s0 c0 P S n) : Legals g dv q (g0.runs P) S ∧ Legals g dv q (g0.runs (P ++ S)) (n.eng.out.drop n.done) := by
  have := h.en.sq.legs
  rw [h.takeP, h.dropP, legals_append] at this
  rw [Gh.runs_append]; exact this

theorem vsD (hg : GInv m0 g) (h : NI g dv q g0 a0 s0 c0 P S n) : VS g dv q (g0.runs (P ++ S)) := by
  rw [Gh.runs_append]; exact h.vsP.runs hg h.oksS h.legs.1

theorem endR (h : NI g dv q g0 a0 s0 c0 P S n) : g0.runs n.eng.out = (g0.runs (P ++ S)).runs (n.eng.out.drop n.done) := by
  conv_lhs => rw [h.r.rest]
  rw [Gh.runs_append]

theorem vsE (hg : GInv m0 g) (h : NI g dv q g0 a0 s0 c0 P S n) : VS g dv q (g0.runs n.eng.out) := h.en.sq.endVS hg h.r.flow.oks

theorem vote_PS (h : NI g dv q g0 a0 s0 c0 P S n) : (g0.runs (P ++ S)).vote = (g0.runs P).vote := by
  rw [Gh.runs_append]; exact vote_runs_same _ _ h.r.d.novote

theorem vote_disk (h : NI g dv q g0 a0 s0 c0 P S n) : n.disk.vote = (g0.runs (P ++ S)).vote := h.r.disk_vote

theorem vote_le (h : NI g dv q g0 a0 s0 c0 P S n) : (g0.runs (P ++ S)).vote ≤ n.eng.st.vote.data := by
  rw [← h.r.flow.inv.pj.gv, h.endR]
  exact Gh.vote_runs h.oksR

theorem headLegal (h : NI g dv q g0 a0 s0 c0 P S n) {c : Cmd} (hc : n.head = some c) : Legal g dv q (g0.runs (P ++ S)) c := by
  have := h.legs.2
  unfold Runtime.Node.head at hc
  obtain ⟨hlt, hget⟩ := List.getElem?_eq_some_iff.1 hc
  rw [List.drop_eq_getElem_cons hlt, hget] at this
  exact this.1

theorem vlD (h : NI g dv q g0 a0 s0 c0 P S n) : VL (lvls a0 (P ++ S)) (g0.runs (P ++ S)) := h.vl.runs h.r.coks

theorem flid (h : NI g dv q g0 a0 s0 c0 P S n) {k : Option LogId} {f : IOId} (hf : Fl a0 P S k f) : f.vote.leaderId ≤ (g0.runs P).vote.leaderId := by
  have h1 : f.vote ≤ (lvls a0 (P ++ S)).vote := by
    rcases IOId.le_def.1 hf.1 with h2 | ⟨h2, _⟩
    · exact le_of_lt h2
    · exact le_of_eq h2
  rw [← h.vote_PS, ← h.vlD.lid]
  exact lid_of_le h1

theorem kept_le (h : NI g dv q g0 a0 s0 c0 P S n) : nextIndex n.sm.kept ≤ nextIndex (g0.runs (P ++ S)).com := by
  have h1 := (ComVal.le h.r.oks h.r.s.cur).next
  have h2 := h.r.snap_app.next
  unfold Runtime.Sm.kept
  split
  · exact h1
  · exact Nat.le_trans h2 h1

/-- what is visible is durable, or committed and in the state machine, if all pending writes are covered by it -/
theorem durable (hg : GInv m0 g) (h : NI g dv q g0 a0 s0 c0 P S n) (hp : NP g n)
    (hcov : ∀ d ∈ S, ∀ io', d.hard = some io' → Covered n.sm.kept d) (ha : Anch g (g0.runs (P ++ S))) {x : LogId}
    (hx : idAt (logOf g (g0.runs (P ++ S))) x.index = some x) :
    idAt (logOf g (g0.runs P)) x.index = some x ∨ Val g x ∧ CVote g n.disk.vote (cont g (some x)) := by
  have hvs := h.vsD hg
  obtain ⟨kv, kc⟩ := hp.kept
  have hkle := h.kept_le
  have hkc : cont g n.sm.kept <+: cont g (g0.runs (P ++ S)).com :=
    kc.pre_of_len hg hvs.com (by rw [cont_lenO kv, cont_lenO hvs.comVal]; exact hkle)
  have hkl : cont g n.sm.kept <+: logOf g (g0.runs (P ++ S)) := hkc.trans (hvs.comPre ha)
  obtain ⟨hval, htk⟩ := take_of_idAt hvs.good hx
  by_cases hi : x.index < nextIndex n.sm.kept
  · refine Or.inr ⟨hval, kc.pre ?_⟩
    rw [← htk]
    refine List.prefix_of_prefix_length_le (List.take_prefix _ _) hkl ?_
    rw [cont_lenO kv, List.length_take]; omega
  · have hx' := hx
    rw [Gh.runs_append] at hx'
    have ho := h.oksS
    refine (h.vsP.runs_src hg ho h.legs.1 (k := n.sm.kept) ?_ ?_ (by omega) hx').imp id fun hxk => ?_
    · intro v es hm e he
      obtain ⟨A, B, hAB⟩ := List.append_of_mem hm
      have hne := ho
      rw [hAB, Gh.oks_append] at hne
      have hne := hne.2.1.1
      obtain ⟨y, hy⟩ : ∃ y, es.getLast? = some y := by
        cases hl : es.getLast? with
        | none => exact absurd (List.getLast?_eq_none_iff.1 hl) hne
        | some y => exact ⟨y, rfl⟩
      exact hcov _ hm (IOId.newLog v (some y.id)) (by simp [Cmd.hard, hy]) e he
    · intro u hu
      have h1 := purged_mem ho hu
      rw [← Gh.runs_append, ← h.r.d.rd] at h1
      have h2 := h.r.d.purged.2
      have h3 : nextIndex n.sm.snap.lastLogId ≤ nextIndex n.sm.kept := by
        unfold Runtime.Sm.kept
        split
        · exact h.r.snap_app.next
        · exact Nat.le_refl _
      omega
    · exfalso
      cases hk : n.sm.kept with
      | none => rw [hk] at hxk; exact OptOrd.not_some_le_none' hxk
      | some y =>
        rw [hk] at hxk hi hkl
        simp only [nextIndex_some] at hi
        have hy := idAt_pre hkl (cont_last (kv y hk))
        have := ((cons_ids hg hvs.good).le_iff (mem_ids0.2 hx) (mem_ids0.2 hy)).1 hxk
        omega

/-- a step of another node -/
theorem other (hg : GInv m0 g) {k : NodeId} (hs : GhostStep k g g') (hnq : q ≠ k) (hdv : ∀ n, dv n ≤ dv' n) (hq : dv' q = dv q)
    (h : NI g dv q g0 a0 s0 c0 P S n) : NI g' dv' q g0 a0 s0 c0 P S n :=
  ⟨h.r, h.sy, h.en.other hg hs hnq hdv h.r.flow.inv, h.vl, h.cand.mono hs.toGhostLe (h.vsD hg).st, h.x.mono hs.toGhostLe hdv h.vsP.st (h.vsD hg).st, hq.trans h.dvq⟩

end NI
end Openraft.Net
