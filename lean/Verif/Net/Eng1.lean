import Verif.Net.Seq
import Verif.Net.Prog
import Verif.Engine.Sync

/-!
# The engine agrees with the history of the cluster: votes and elections

`SQ`: the commands of an engine are legal for the history. `EC`: what leader, candidate and the positions of the engine
stand for in the history.
-/

set_option autoImplicit false
set_option linter.unusedSectionVars false

namespace Openraft.Net
open Openraft.Repl (Panic dassert Inflight)
open Openraft.Engine Openraft.Cluster
open Openraft.VecProgress (AllP BI)

variable {m0 : Membership} [hne : Fact (m0.configs ≠ [])] {g g' : Ghost} {dv dv' : NodeId → Vote} {q : NodeId} {g0 : Gh} {p : Nat}

/-- the commands from number `p` on are legal -/
structure SQ (g : Ghost) (dv : NodeId → Vote) (q : NodeId) (g0 : Gh) (p : Nat) (out : List Cmd) : Prop where
  le : p ≤ out.length
  vs : VS g dv q (g0.runs (out.take p))
  legs : Legals g dv q (g0.runs (out.take p)) (out.drop p)

theorem runs_split (out : List Cmd) : g0.runs out = (g0.runs (out.take p)).runs (out.drop p) := by
  rw [← Gh.runs_append, List.take_append_drop]

theorem oks_split {out : List Cmd} (h : g0.Oks out) (p : Nat) : (g0.runs (out.take p)).Oks (out.drop p) := by
  rw [← List.take_append_drop p out, Gh.oks_append] at h
  exact h.2

theorem SQ.endVS {out : List Cmd} (h : SQ g dv q g0 p out) (hg : GInv m0 g) (ho : g0.Oks out) : VS g dv q (g0.runs out) := by
  rw [runs_split (p := p) out]
  exact h.vs.runs hg (oks_split ho p) h.legs

theorem SQ.append {out cs : List Cmd} (h : SQ g dv q g0 p out) (hl : Legals g dv q (g0.runs out) cs) : SQ g dv q g0 p (out ++ cs) := by
  have hle := h.le
  refine ⟨by simp; omega, ?_, ?_⟩
  · rw [List.take_append_of_le_length hle]; exact h.vs
  · rw [List.take_append_of_le_length hle, List.drop_append_of_le_length hle, legals_append, ← runs_split]
    exact ⟨h.legs, hl⟩

theorem SQ.snoc {out : List Cmd} {c : Cmd} (h : SQ g dv q g0 p out) (hl : Legal g dv q (g0.runs out) c) : SQ g dv q g0 p (out ++ [c]) :=
  h.append ⟨hl, trivial⟩

theorem SQ.mono {out : List Cmd} (h : SQ g dv q g0 p out) (hg : GInv m0 g) (hgr : Grown q g g') (hdv : ∀ n, dv n ≤ dv' n)
    (ho : g0.Oks out) : SQ g' dv' q g0 p out :=
  ⟨h.le, h.vs.mono hg hgr hdv, h.legs.mono hg hgr.toGhostLe hdv h.vs (oks_split ho p)⟩

/-- a command about which the history says nothing -/
def calm : Cmd → Bool
  | .replicate _ _ | .transfer _ _ _ | .rebuild _ | .purge _ => true
  | .sm (.install _ _) => false
  | .sm _ => true
  | _ => false

theorem calm_legal {G : Gh} {c : Cmd} (h : calm c = true) : Legal g dv q G c := by
  cases c with
  | sm c => cases c <;> first | trivial | cases h
  | _ => first | trivial | cases h

theorem calm_legals {G : Gh} {cs : List Cmd} (h : ∀ c ∈ cs, calm c = true) : Legals g dv q G cs := by
  induction cs generalizing G with
  | nil => trivial
  | cons c cs ih => exact ⟨calm_legal (h c (by simp)), ih fun x hx => h x (by simp [hx])⟩

/-- node `n` acknowledged position `o` of the log of leader `L`, or has it from a snapshot -/
def AckBy (g : Ghost) (L : LeaderId) (n : NodeId) (o : Option LogId) : Prop :=
  ∀ x, o = some x → idAt (g.ll L) x.index = some x ∧
    ((∃ a ∈ g.acks, a.q = n ∧ a.L = L ∧ x.index < a.m) ∨ CVote g ⟨L, true⟩ ((g.ll L).take (x.index + 1)))

theorem AckBy.none {L : LeaderId} {n : NodeId} : AckBy g L n none := fun _ h => by cases h

theorem AckBy.mono {L : LeaderId} {n : NodeId} {o : Option LogId} (hle : GhostLe g g') (h : AckBy g L n o) : AckBy g' L n o := by
  intro x hx
  obtain ⟨h1, h2⟩ := h x hx
  refine ⟨idAt_pre (hle.ll _) h1, ?_⟩
  rcases h2 with ⟨a, ha, h2⟩ | h2
  · exact Or.inl ⟨a, hle.acks a ha, h2⟩
  · rw [hle.take (by have := idAt_lt h1; omega)]
    exact Or.inr (h2.mono hle)

/-- what the roles and positions of the engine stand for; `l` is the node's whole log -/
structure EC (g : Ghost) (q : NodeId) (l : Log) (e : Eng) : Prop where
  lead : ∀ x, e.leader = some x → g.ll e.st.vote.data.leaderId = l ∧ x.progress.vp.AllP (AckBy g e.st.vote.data.leaderId)
  cand : ∀ c, e.candidate = some c → BI c.progress ∧ c.progress.configs = c.mem.configs ∧
    (∀ n, (n, true) ∈ c.progress.vector → ∃ gr ∈ g.grants, gr.q = n ∧ gr.L = e.st.vote.data.leaderId) ∧
    g.el e.st.vote.data.leaderId = none ∧ e.st.vote.data.leaderId.term ≠ 0 ∧ (c.progress.configs = [] → c.progress.vector = [])
  acc : e.st.vote.data.committed = true → e.st.vote.data.leaderId.node ≠ q →
    ∀ x, e.st.accLast = some x → idAt (g.ll e.st.vote.data.leaderId) x.index = some x
  mcom : e.st.ms.committed = e.st.ms.effective → ∀ y, e.st.ms.committed.logId = some y →
    CVote g e.st.vote.data (l.take (y.index + 1))

/-- the engine's log in full -/
def elog (g : Ghost) (g0 : Gh) (e : Eng) : Log := logOf g (g0.runs e.out)

/-- the engine agrees with the history -/
structure EN (g : Ghost) (dv : NodeId → Vote) (q : NodeId) (g0 : Gh) (p : Nat) (e : Eng) : Prop where
  sq : SQ g dv q g0 p e.out
  ec : EC g q (elog g g0 e) e
  id : e.cfg.id = q

theorem EC.of {l : Log} {e e' : Eng} (h : EC g q l e) (hv : e'.st.vote.data = e.st.vote.data) (ha : e'.st.accLast = e.st.accLast)
    (hm : e'.st.ms = e.st.ms)
    (hl : ∀ x', e'.leader = some x' → ∃ x, e.leader = some x ∧ x'.progress.vp = x.progress.vp)
    (hc : ∀ c', e'.candidate = some c' → e.candidate = some c') : EC g q l e' := by
  refine ⟨?_, ?_, by rw [hv, ha]; exact h.acc, by rw [hv, hm]; exact h.mcom⟩
  · intro x' hx'
    obtain ⟨x, hx, hp⟩ := hl x' hx'
    rw [hv, hp]; exact h.lead x hx
  · intro c hcc
    rw [hv]; exact h.cand c (hc c hcc)

theorem _root_.Openraft.Engine.Frame.vp {e e' : Eng} (h : Frame e e') :
    ∀ x', e'.leader = some x' → ∃ x, e.leader = some x ∧ x'.progress.vp = x.progress.vp := by
  intro x' hx'
  have := h.lead
  cases hl : e.leader with
  | none => rw [hl, hx'] at this; cases this
  | some x => rw [hl, hx'] at this; exact ⟨x, rfl, this.2.2.1⟩

theorem _root_.Openraft.Engine.Frame.accL {e e' : Eng} (h : Frame e e') : e'.st.accLast = e.st.accLast := by
  unfold RState.accLast; rw [h.acc]

theorem EN.frame {e e' : Eng} (h : EN g dv q g0 p e) (hf : Frame e e') (hem : Emits (fun c => calm c = true) e e') : EN g dv q g0 p e' := by
  obtain ⟨cs, ho, hc⟩ := hem
  have hl : elog g g0 e' = elog g g0 e := by unfold elog; rw [hf.ghost]
  refine ⟨?_, ?_, by rw [hf.cfg]; exact h.id⟩
  · rw [ho]; exact h.sq.append (calm_legals hc)
  · rw [hl]
    exact h.ec.of hf.vote hf.accL hf.ms hf.vp fun c hc => by rw [← hf.cand]; exact hc

/-- frames and the legal commands they emit -/
theorem EN.frame' {e e' : Eng} {cs : List Cmd} (h : EN g dv q g0 p e) (hf : Frame e e') (ho : e'.out = e.out ++ cs)
    (hl : Legals g dv q (g0.runs e.out) cs) : EN g dv q g0 p e' := by
  have hlog : elog g g0 e' = elog g g0 e := by unfold elog; rw [hf.ghost]
  refine ⟨?_, ?_, by rw [hf.cfg]; exact h.id⟩
  · rw [ho]; exact h.sq.append hl
  · rw [hlog]
    exact h.ec.of hf.vote hf.accL hf.ms hf.vp fun c hc => by rw [← hf.cand]; exact hc

theorem emits_out {P : Cmd → Prop} {e e' : Eng} (h : e'.out = e.out) : Emits P e e' := ⟨[], by simp [h], by simp⟩

theorem calm_maybeSnapshot (e : Eng) : Emits (fun c => calm c = true) e e.maybeSnapshot := by
  unfold Eng.maybeSnapshot
  split
  · unfold Eng.triggerSnapshot
    split
    · exact Emits.refl _
    · exact ⟨[.sm .build], rfl, by simp [calm]⟩
  · exact Emits.refl _

theorem calm_rhInitiate {dbg : Bool} {e e' : Eng} {l : Engine.Leader} (h : Eng.rhInitiate dbg e l = .ok e') : Emits (fun c => calm c = true) e e' := by
  unfold Eng.rhInitiate at h
  rw [bind_ok] at h
  obtain ⟨⟨ent, cmds⟩, h1, h⟩ := h
  simp only [pure_ok] at h
  subst h
  refine ⟨cmds, rfl, fun c hc => ?_⟩
  obtain ⟨n, req, rfl⟩ := Eng.initLoop_inert h1 (by simp) c hc
  rfl

/-! ## Memberships that are not the last one are committed -/

/-- what precedes a membership entry and its predecessor is committed -/
theorem cfg_com (hg : GInv m0 g) {l : Log} {v : Vote} (hl : Good g l) (hlid : ∀ e ∈ l, e.lid = ⟨0, 0⟩ ∨ (⟨e.lid, true⟩ : Vote) ≤ v)
    {i : Nat} {e : Entry} {m mp : Membership} {k : Nat} (he : l[i]? = some e) (hm : e.cfg = some m) (hk : lastCfg (l.take i) = some (k, mp)) :
    CVote g v (l.take (k + 1)) := by
  have hki : k < i := by
    have := lastCfg_lt hk
    rw [List.length_take] at this; omega
  obtain ⟨⟨S, hS⟩, k0, mp', h1, -, r, hr, h2, h3⟩ := hg.cfgEntry hl he hm (by omega)
  rw [hk] at h1
  cases h1
  have hpos : (⟨0, 0⟩ : LeaderId) < e.lid := by
    obtain ⟨_, _, _, _, _, _, _, _, h⟩ := hg.elCl _ S hS
    exact h
  have hv : (⟨e.lid, true⟩ : Vote) ≤ v := by
    rcases hlid e (List.mem_of_getElem? he) with h | h
    · rw [h] at hpos; exact absurd hpos (lt_irrefl _)
    · exact h
  refine Or.inr ⟨r, hr, by rw [h2]; exact hv, ?_⟩
  rw [h2]
  have hp := hl i e he
  have h4 : l.take (k + 1) <+: l.take (i + 1) := take_pre_take (by omega)
  have h5 := h4.trans hp
  exact pre_take_of_le h5 (by rw [List.length_take]; omega)

/-- the membership before the last one is committed -/
theorem VS.mems_prev {G : Gh} (hg : GInv m0 g) (h : VS g dv q G) (ha : Anch g G) (hb : nextIndex G.base.logId ≤ nextIndex G.store.purged) {c : StoredMem}
    (hc : G.mems.dropLast.getLast? = some c) {y : LogId} (hy : c.logId = some y) : CVote g G.vote ((logOf g G).take (y.index + 1)) := by
  unfold Gh.mems at hc
  rcases List.eq_nil_or_concat (G.store.entries.filterMap (·.stored?)) with hX | ⟨X, x, hX⟩
  · rw [hX] at hc; cases hc
  · rw [hX, List.concat_eq_append, ← List.cons_append, List.dropLast_concat, List.getLast?_cons] at hc
    rw [List.concat_eq_append] at hX
    obtain ⟨A, B, hAB, hA, hB⟩ := List.filterMap_eq_append_iff.1 hX
    obtain ⟨B1, e2, B2, hB', hB1, he2, hB2⟩ := List.filterMap_eq_cons_iff.1 hB
    cases hx : X.getLast? with
    | none =>
      rw [hx] at hc
      simp only [Option.getD_none, Option.some.injEq] at hc
      rw [← hc] at hy
      rw [hy] at hb
      have := h.pc
      refine (h.comT ha).pre (take_pre_take ?_)
      simp only [nextIndex_some] at hb; omega
    | some z =>
      rw [hx] at hc
      simp only [Option.getD_some, Option.some.injEq] at hc
      subst hc
      have hpos : ∀ i e, (A ++ B1)[i]? = some e → e.id.index = (cont g G.store.purged).length + i := by
        intro i e he
        rw [h.st.baseLen]
        refine h.st.pos i e ?_
        rw [hAB, hB', ← List.append_assoc, List.getElem?_append_left (lt_of_get he)]; exact he
      have hmo := memOf_append (cont g G.store.purged) (A ++ B1) hpos
      have hf : (A ++ B1).filterMap (·.stored?) = X := by
        rw [List.filterMap_append, hA, List.filterMap_eq_nil_iff.2 hB1, List.append_nil]
      rw [hf, hx] at hmo
      simp only [Option.getD_some] at hmo
      have hlog : logOf g G = (cont g G.store.purged ++ (A ++ B1).map toEntry) ++ toEntry e2 :: B2.map toEntry := by
        show cont g G.store.purged ++ G.store.entries.map toEntry = _
        rw [hAB, hB']; simp
      generalize cont g G.store.purged ++ (A ++ B1).map toEntry = l1 at hmo hlog
      have hget : (logOf g G)[l1.length]? = some (toEntry e2) := by rw [hlog]; simp
      have htk : (logOf g G).take l1.length = l1 := by rw [hlog]; simp
      unfold memOf at hmo
      split at hmo
      · rw [← hmo] at hy; cases hy
      · next k mp hk =>
        rw [← hmo] at hy
        simp only at hy
        have hyk := idAt_index hy
        rw [hyk]
        have hcfg : (toEntry e2).cfg = some x.mem := by
          rw [stored?_cfg] at he2
          cases hcc : (toEntry e2).cfg with
          | none => rw [hcc] at he2; cases he2
          | some m => rw [hcc] at he2; simp only [Option.map_some, Option.some.injEq] at he2; rw [← he2]
        exact cfg_com hg h.good h.lids hget hcfg (by rw [htk]; exact hk)

/-- the committed position of an engine is in its log -/
theorem lm_anch {e : Eng} (h : LM g0 e) (hv : VS g dv q (g0.runs e.out)) : Anch g (g0.runs e.out) := by
  intro c hc
  have h1 : c ∈ e.st.lv.L := h.log.comIn c (by rw [← h.log.com]; exact hc)
  rw [h.log.cpl, ← h.log.stp] at h1
  exact hv.st.idAt_mem h1

/-- the membership that the engine takes for committed is committed -/
theorem EC.mcom1 {e : Eng} (hg : GInv m0 g) (hi : LM g0 e) (hgv : (g0.runs e.out).vote = e.st.vote.data) (hv : VS g dv q (g0.runs e.out)) (h : EC g q (elog g g0 e) e) {y : LogId}
    (hy : e.st.ms.committed.logId = some y) : CVote g e.st.vote.data ((elog g g0 e).take (y.index + 1)) := by
  rcases hi.mem.com with hc | hc
  · exact h.mcom hc y hy
  · rw [← hgv]
    refine hv.mems_prev hg (lm_anch hi hv) ?_ hc hy
    have := hi.mem.base2
    rw [hi.log.stp, ← hi.log.pn]
    exact this

theorem EC.mcom' {e : Eng} (hg : GInv m0 g) (hi : EInv g0 e) (hv : VS g dv q (g0.runs e.out)) (h : EC g q (elog g g0 e) e) {y : LogId}
    (hy : e.st.ms.committed.logId = some y) : CVote g e.st.vote.data ((elog g g0 e).take (y.index + 1)) :=
  h.mcom1 hg hi.lm hi.pj.gv hv hy

end Openraft.Net
