import Verif.Net.Facts
import Verif.Net.Demo
import Verif.Engine.Won
import Verif.Engine.NoopAt
import Verif.Props.LogIdProps
import Verif.Cluster.Read
import Verif.Runtime.ApplyReady

/-!
# What a leader knows of its own commits

A leader that a quorum still accepts is the latest one; it knows what it committed itself, unless it forgot it in a
crash.
-/

set_option autoImplicit false
set_option linter.unusedSectionVars false

namespace Openraft.Net
open Openraft.Repl (Panic dassert Inflight)
open Openraft.Engine Openraft.Cluster
open Openraft.Runtime (RInv out_bind out_pure lift_ok exec_frame run_view)
open Openraft.VecProgress (AllP BI)

variable {m0 : Membership} [hne : Fact (m0.configs ≠ [])] {g g' : Ghost} {dv dv' : NodeId → Vote} {q : NodeId} {g0 : Gh} {p : Nat} {dbg : Bool} {now : Nat}
variable {a0 : IOId} {s0 c0 : Option LogId} {P S : List Cmd} {n n' n1 : Runtime.Node} {G : Gh} {N N' : Net}

/-- A leader that still leads after the step with the same vote does not know less to be committed than before. Only a
crash can violate this (`remembers_node`). -/
def Remembers (N N' : Net) : Prop :=
  ∀ q, (N.nodes q).eng.leader ≠ none → (N'.nodes q).eng.leader ≠ none →
    (N'.nodes q).eng.st.vote.data = (N.nodes q).eng.st.vote.data →
    nextIndex (N.nodes q).eng.st.committed ≤ nextIndex (N'.nodes q).eng.st.committed

/-- a state of a cluster where no leader forgot its committed position in a crash -/
inductive ReachR (m0 : Membership) (dbg : Bool) : Net → Prop
  | init (s : Start) : ReachR m0 dbg (Net.init s)
  | step {N N' : Net} : ReachR m0 dbg N → Step m0 dbg N N' → Remembers N N' → ReachR m0 dbg N'

theorem ReachR.reach (h : ReachR m0 dbg N) : Reach m0 dbg N := by
  induction h with
  | init s => exact ⟨s, .refl⟩
  | step _ h2 _ ih =>
    obtain ⟨s, h3⟩ := ih
    exact ⟨s, .step h3 h2⟩

/-- an event is at most one input of the engine -/
theorem NI.view (hm0 : m0.configs ≠ []) (hg : GInv m0 g) (h : NI g dv q g0 a0 s0 c0 P S n) {pkts : List Pkt} (hp : ∀ k ∈ pkts, PI g dv k)
    {ev : Runtime.Ev} (ha : Allowed m0 pkts q n ev) (hr : n.step dbg ev = .ok n') (hex : Exact n n') :
    (n'.eng.leader = n.eng.leader ∧ n'.eng.st.vote = n.eng.st.vote ∧ n'.eng.st.committed = n.eng.st.committed) ∨
    (∃ now i, InputOk n.eng i ∧ n.eng.input dbg now i = .ok n'.eng) := by
  by_cases hrun : ev = .run
  · subst hrun
    rcases run_view hr with rfl | ⟨c, n1, h1, _, h2, rfl⟩
    · exact Or.inl ⟨rfl, rfl, rfl⟩
    · obtain ⟨p, x, h3, _⟩ := (exec_frame h2).eng
      left
      show n1.eng.leader = _ ∧ n1.eng.st.vote = _ ∧ n1.eng.st.committed = _
      rw [h3]; exact ⟨rfl, rfl, rfl⟩
  · by_cases hm : ∃ now i, ev = .msg now i
    · obtain ⟨now, i, rfl⟩ := hm
      simp only [Runtime.Node.step] at hr
      split at hr
      · next hi =>
        simp only [out_bind, lift_ok, out_pure] at hr
        obtain ⟨e, he, hr⟩ := hr
        subst hr
        simp only [Bool.and_eq_true] at hi
        exact Or.inr ⟨now, i, (h.netIn hg hp ha hex hi.2).ok hm0 hg h.r.flow.inv h.en he, he⟩
      · rw [out_pure] at hr; subst hr; exact Or.inl ⟨rfl, rfl, rfl⟩
    · have ho : Runtime.EvOk n ev := by
        cases ev <;> first | trivial | exact absurd ⟨_, _, rfl⟩ hm
      obtain ⟨_, _, he | ⟨now, i, _, h1, _, h2⟩⟩ := h.r.view ho hrun hr
      · rw [he]; exact Or.inl ⟨rfl, rfl, rfl⟩
      · exact Or.inr ⟨now, i, h1, h2⟩

/-- Who leads after a step led before it with the same vote, or was a candidate with the same vote. -/
theorem CI.lead_back (hm0 : m0.configs ≠ []) (h : CI m0 N g) (hs : Step m0 dbg N N') (q : NodeId) {l' : Engine.Leader}
    (hl : (N'.nodes q).eng.leader = some l') :
    ((N.nodes q).eng.leader.isSome = true ∧ (N'.nodes q).eng.st.vote.data = (N.nodes q).eng.st.vote.data) ∨
      ((N.nodes q).eng.candidate.isSome = true ∧ (N'.nodes q).eng.st.vote.data.leaderId = (N.nodes q).eng.st.vote.data.leaderId) := by
  have other : ∀ {i : NodeId} {n' : Runtime.Node} {ps : List Pkt}, q ≠ i → ((N.put i n' ps).nodes q).eng.leader = some l' →
      ((N.nodes q).eng.leader.isSome = true ∧ ((N.put i n' ps).nodes q).eng.st.vote.data = (N.nodes q).eng.st.vote.data) := by
    intro i n' ps hi hl
    simp only [Net.put, hi, if_false] at hl ⊢
    exact ⟨by rw [hl]; rfl, trivial⟩
  cases hs with
  | node i ev n' ha hr hex =>
    by_cases hi : q = i
    · subst hi
      obtain ⟨g0, a0, s0, c0, P, S, hn⟩ := h.node q
      simp only [Net.put, if_true] at hl ⊢
      rcases hn.view hm0 h.gi h.pkts ha hr hex with ⟨h1, h2, _⟩ | ⟨now, i, h1, h2⟩
      · left
        rw [h2]
        exact ⟨by rw [← h1, hl]; rfl, rfl⟩
      · exact Eng.won_input hn.r.flow.inv h1 h2 hl
    · exact Or.inl (other hi hl)
  | send i l prev lc k => exact Or.inl ⟨by rw [hl]; rfl, rfl⟩
  | sendSnap i l => exact Or.inl ⟨by rw [hl]; rfl, rfl⟩
  | check i l t prev => exact Or.inl ⟨by rw [hl]; rfl, rfl⟩
  | crash i k now n' hf hll hr =>
    by_cases hi : q = i
    · subst hi
      obtain ⟨g0, a0, s0, c0, P, S, hn⟩ := h.node q
      simp only [Net.put, if_true] at hl ⊢
      obtain ⟨st, store, s2, base, e, _, hld, hri, hcfg, hn', hst, _⟩ := Runtime.restart_base (hn.r.crash_ok k) hf hr
      have he : n'.eng = e := by rw [hn']; rfl
      have hv : n'.eng.st.vote.data = (N.nodes q).disk.vote := by
        rw [he]
        refine ((Eng.vf_startup _ _ hst).noSave (Eng.emits_startup _ _ hst)).trans ?_
        show st.vote.data = _
        rw [hld.vote]; exact hn.r.vote_crash k
      have hk := hri.flow.inv.pj.lead l' hl
      have h1 := hk.node
      have h2 := hk.com
      rw [hv] at h1 h2
      rw [hcfg] at h1
      obtain ⟨h3, h4, _⟩ := hll h1 h2
      exact Or.inl ⟨Option.isSome_iff_ne_none.2 h3, by rw [hv, h4]⟩
    · exact Or.inl (other hi hl)

theorem Gh_com_runs {cs : List Cmd} (ho : G.Oks cs) : nextIndex G.com ≤ nextIndex (G.runs cs).com := by
  induction cs generalizing G with
  | nil => exact Nat.le_refl _
  | cons c cs ih => exact (Gh_com_run ho.1).trans (ih ho.2)

/-- without a crash nobody forgets a committed position -/
theorem CI.remembers_node (hm0 : m0.configs ≠ []) (h : CI m0 N g) {q : NodeId} {ev : Runtime.Ev} {n' : Runtime.Node}
    (ha : Allowed m0 N.pkts q (N.nodes q) ev) (hr : (N.nodes q).step dbg ev = .ok n') (hex : Exact (N.nodes q) n') :
    nextIndex (N.nodes q).eng.st.committed ≤ nextIndex n'.eng.st.committed := by
  obtain ⟨g0, a0, s0, c0, P, S, hn⟩ := h.node q
  rcases hn.view hm0 h.gi h.pkts ha hr hex with ⟨_, _, h3⟩ | ⟨now, i, h1, h2⟩
  · rw [h3]
  · have hi := Eng.inv_input hn.r.flow.inv h1 h2
    obtain ⟨_, cs, hcs⟩ := Eng.grow_input _ _ _ h2
    have ho := hi.lm.oks
    have hcs : n'.eng.out = (N.nodes q).eng.out ++ cs := hcs.symm
    rw [hcs, Gh.oks_append] at ho
    have h4 := Gh_com_runs ho.2
    rw [← Gh.runs_append, ← hcs, hi.lm.log.com, hn.r.flow.inv.lm.log.com] at h4
    exact h4

/-- a leader knows what it committed, and has a blank entry of its own -/
structure RC (N : Net) (g : Ghost) : Prop where
  own : ∀ q l, (N.nodes q).eng.leader = some l → ∀ r ∈ g.commits, r.L = l.vote.leaderId → r.m ≤ nextIndex (N.nodes q).eng.st.committed
  noop : ∀ q, NoopInv OwnNoop (N.nodes q).eng
  noopIn : ∀ q l x, (N.nodes q).eng.leader = some l → l.noopLogId = some x → idAt (g.ll l.vote.leaderId) x.index = some x

theorem RC.init (m0 : Membership) (s : Start) : RC (Net.init s) (Ghost.init m0 false) :=
  ⟨fun _ _ hl => (by cases hl), fun _ _ hl => (by cases hl), fun _ _ _ hl => (by cases hl)⟩

theorem noop_step (h : NoopInv OwnNoop n.eng) (hv : (n'.eng.leader = n.eng.leader) ∨ ∃ now i, n.eng.input dbg now i = .ok n'.eng) :
    NoopInv OwnNoop n'.eng := by
  rcases hv with h1 | ⟨now, i, h1⟩
  · exact h.same h1
  · exact Eng.noop_input h i _ h1

theorem CI.noop (hm0 : m0.configs ≠ []) (h : CI m0 N g) (hk : ∀ q, NoopInv OwnNoop (N.nodes q).eng) (hs : Step m0 dbg N N') (q : NodeId) :
    NoopInv OwnNoop (N'.nodes q).eng := by
  cases hs with
  | node i ev n' ha hr hex =>
    by_cases hi : q = i
    · subst hi
      obtain ⟨g0, a0, s0, c0, P, S, hn⟩ := h.node q
      simp only [Net.put, if_true]
      refine noop_step (dbg := dbg) (hk q) ?_
      rcases hn.view hm0 h.gi h.pkts ha hr hex with ⟨h1, _⟩ | ⟨now, i, _, h2⟩
      · exact Or.inl h1
      · exact Or.inr ⟨now, i, h2⟩
    · simp only [Net.put, hi, if_false]; exact hk q
  | send i l prev lc k => exact hk q
  | sendSnap i l => exact hk q
  | check i l t prev => exact hk q
  | crash i k now n' hf hll hr =>
    by_cases hi : q = i
    · subst hi
      obtain ⟨g0, a0, s0, c0, P, S, hn⟩ := h.node q
      simp only [Net.put, if_true]
      obtain ⟨st, store, s2, base, e, _, hld, hri, hcfg, hn', hst, _⟩ := Runtime.restart_base (hn.r.crash_ok k) hf hr
      have he : n'.eng = e := by rw [hn']; rfl
      rw [he]
      exact Eng.noop_startup (NoopInv.none rfl) _ hst
    · simp only [Net.put, hi, if_false]; exact hk q

/-- what a leader's list of log ids stands for is in its log -/
theorem NI.in_log (hg : GInv m0 g) (h : NI g dv q g0 a0 s0 c0 P S n) {l : Engine.Leader} (hl : n.eng.leader = some l) {x : LogId}
    (hx : x ∈ n.eng.st.lv.L) : idAt (g.ll l.vote.leaderId) x.index = some x := by
  rw [(h.leads hg hl).2]
  have hlm := h.r.flow.inv.lm
  rw [hlm.log.cpl, ← hlm.log.stp] at hx
  exact (h.vsE hg).st.idAt_mem hx

/-- the blank entry of a leader is in its log -/
theorem CI.noopIn (hm0 : m0.configs ≠ []) (h : CI m0 N g)
    (hk : ∀ q l x, (N.nodes q).eng.leader = some l → l.noopLogId = some x → idAt (g.ll l.vote.leaderId) x.index = some x)
    (hs : Step m0 dbg N N') (h' : CI m0 N' g') (hle : GhostLe g g') (q : NodeId) (l' : Engine.Leader) (x : LogId)
    (hl' : (N'.nodes q).eng.leader = some l') (hx : l'.noopLogId = some x) : idAt (g'.ll l'.vote.leaderId) x.index = some x := by
  have same : (N'.nodes q).eng.leader = (N.nodes q).eng.leader → idAt (g'.ll l'.vote.leaderId) x.index = some x := by
    intro he
    exact idAt_pre (hle.ll _) (hk q l' x (he ▸ hl') hx)
  obtain ⟨g0', a0', s0', c0', P', S', hn'⟩ := h'.node q
  have hp' := hn'.r.flow.inv.pj.lead l' hl'
  have last : l'.lastLogId = some x → idAt (g'.ll l'.vote.leaderId) x.index = some x := by
    intro hlast
    refine hn'.in_log h'.gi hl' ?_
    have : (N'.nodes q).eng.st.lv.L.getLast? = some x := by
      rw [← hn'.r.flow.inv.lm.log.last_eq, ← hlast, hp'.last]; rfl
    exact List.mem_of_getLast? this
  cases hs with
  | node i ev n' ha hr hex =>
    by_cases hi : q = i
    · subst hi
      obtain ⟨g0, a0, s0, c0, P, S, hn⟩ := h.node q
      simp only [Net.put, if_true] at same hl'
      rcases hn.view hm0 h.gi h.pkts ha hr hex with ⟨h1, _⟩ | ⟨now, i, h1, h2⟩
      · exact same h1
      · have hinv := hn.r.flow.inv
        cases hl : (N.nodes q).eng.leader with
        | some l =>
          have hv : n'.eng.st.vote.data = (N.nodes q).eng.st.vote.data := by
            rcases Eng.won_input hinv h1 h2 hl' with ⟨_, h3⟩ | ⟨h3, _⟩
            · exact h3
            · obtain ⟨c, hc⟩ := Option.isSome_iff_exists.1 h3
              rw [(hinv.pj.cand c hc).nl] at hl; cases hl
          have hno := Eng.noopKeep_input hinv h1 h2 hl hl' hv
          have hvv : l'.vote = l.vote := by
            rw [hp'.vote, (hinv.pj.lead l hl).vote]
            simp only [Net.put, if_true]; exact hv
          rw [hvv]
          exact idAt_pre (hle.ll _) (hk q l x hl (by rw [← hno]; exact hx))
        | none =>
          rcases Eng.new_input hinv h1 h2 hl hl' with h3 | h3
          · exact last (by rw [← h3]; exact hx)
          · exfalso
            rcases Eng.won_input hinv h1 h2 hl' with ⟨h4, _⟩ | ⟨h4, _⟩
            · rw [hl] at h4; cases h4
            · obtain ⟨c, hc⟩ := Option.isSome_iff_exists.1 h4
              obtain ⟨y, hy, hyl⟩ := Option.map_eq_some_iff.1 h3
              have hyL : y ∈ (N.nodes q).eng.st.lv.L := by
                refine List.mem_of_getLast? (?_ : (N.nodes q).eng.st.lv.L.getLast? = some y)
                rw [← hinv.lm.log.last_eq]; exact hy
              rw [hinv.lm.log.cpl, ← hinv.lm.log.stp] at hyL
              have hvs := hn.vsE h.gi
              obtain ⟨a, ha1, ha2⟩ := idAt_some.1 (hvs.st.idAt_mem hyL)
              have hal : a.lid = y.leaderId := by rw [ha2]
              rcases hvs.lids a (List.mem_of_getElem? ha1) with h5 | h5
              · have h6 := (hn.en.ec.cand c hc).2.2.2.2.1
                rw [← hyl, ← hal, h5] at h6
                exact h6 rfl
              · rw [hinv.pj.gv, hal, hyl] at h5
                have h6 := (hinv.pj.cand c hc).com
                rcases Vote.le_def.1 h5 with h7 | ⟨_, h7⟩
                · exact absurd h7 (lt_irrefl _)
                · rw [h7 rfl] at h6; cases h6
    · exact same (by simp only [Net.put, hi, if_false])
  | send i l prev lc k => exact same rfl
  | sendSnap i l => exact same rfl
  | check i l t prev => exact same rfl
  | crash i k now n' hf hll hr =>
    by_cases hi : q = i
    · subst hi
      obtain ⟨g0, a0, s0, c0, P, S, hn⟩ := h.node q
      simp only [Net.put, if_true] at hl' hn' last
      obtain ⟨st, store, s2, base, e, _, hld, hri, hcfg, hn1, hst, hso, _⟩ := Runtime.restart_base (hn.r.crash_ok k) hf hr
      have he : n'.eng = e := by rw [hn1]; rfl
      rw [he] at hl'
      obtain ⟨y, h1, h2⟩ := Eng.resume_noop hso.lm.log.sorted hst rfl hl'
      rw [hx] at h1; cases h1
      rcases h2 with h2 | h2 | ⟨y, h2, h3, h4⟩
      · exact last h2
      · rw [← he] at h2 hl'
        exact hn'.in_log h'.gi hl' (Props.mem_expand_of_mem hn'.r.flow.inv.lm.log.sorted h2)
      · exfalso
        rw [← he] at hl'
        have hlm := hn'.r.flow.inv.lm.log
        have hp1 := hn'.r.flow.inv.pj.lead l' hl'
        have hyL : y ∈ n'.eng.st.lv.L := by
          refine List.mem_of_getLast? (?_ : n'.eng.st.lv.L.getLast? = some y)
          rw [← hlm.last_eq, ← h2, hp1.last]; rfl
        have h5 := hlm.bound y hyL
        have h6 : n'.eng.st.vote.data = st.vote.data := by
          rw [he]; exact (Eng.vf_startup _ _ hst).noSave (Eng.emits_startup _ _ hst)
        have h7 : n'.eng.st.lv.vote = st.vote.data := h6
        rw [h7] at h5
        have h8 : x.leaderId = st.vote.data.leaderId := h3
        rw [h8] at h4
        exact absurd h4 (not_lt.2 h5)
    · exact same (by simp only [Net.put, hi, if_false])

theorem RC.step (hm0 : m0.configs ≠ []) (h : CI m0 N g) (hk : RC N g) (hs : Step m0 dbg N N') (hr : Remembers N N') :
    ∃ g', CI m0 N' g' ∧ GhostLe g g' ∧ RC N' g' := by
  obtain ⟨g', h1, h2, h3⟩ := h.step_made hm0 hs
  refine ⟨g', h1, h2, ?_, h.noop hm0 hk.noop hs, h.noopIn hm0 hk.noopIn hs h1 h2⟩
  intro q l' hl r hrm hrL
  obtain ⟨g0', _, _, _, _, _, hn'⟩ := h1.node q
  have hk' := hn'.r.flow.inv.pj.lead l' hl
  rw [hk'.vote] at hrL
  rcases h3 r hrm with h4 | ⟨i, h4, h5, h6⟩
  · rcases h.lead_back hm0 hs q hl with ⟨h5, h6⟩ | ⟨h5, h6⟩
    · obtain ⟨l, hl0⟩ := Option.isSome_iff_exists.1 h5
      obtain ⟨g0, _, _, _, _, _, hn⟩ := h.node q
      have h7 := hk.own q l hl0 r h4 (by rw [(hn.r.flow.inv.pj.lead l hl0).vote, ← h6]; exact hrL)
      exact h7.trans (hr q (by rw [hl0]; simp) (by rw [hl]; simp) h6)
    · obtain ⟨c, hc⟩ := Option.isSome_iff_exists.1 h5
      obtain ⟨g0, _, _, _, _, _, hn⟩ := h.node q
      have h7 := (hn.en.ec.cand c hc).2.2.2.1
      obtain ⟨⟨S, hS⟩, _⟩ := h.gi.commit r h4
      rw [hrL, h6, h7] at hS
      cases hS
  · have : i = q := by
      rw [← h4, hrL, hk'.node]; exact hn'.en.id
    subst this; exact h6

omit hne in
theorem reachR_ci (hm0 : m0.configs ≠ []) (h : ReachR m0 dbg N) : ∃ g, CI m0 N g ∧ RC N g := by
  have : Fact (m0.configs ≠ []) := ⟨hm0⟩
  induction h with
  | init s => exact ⟨_, CI.init m0 s, RC.init m0 s⟩
  | step _ h2 h3 ih =>
    obtain ⟨g, h4, h5⟩ := ih
    obtain ⟨g', h6, _, h7⟩ := h5.step hm0 h4 h2 h3
    exact ⟨g', h6, h7⟩

/-- No member of the quorum granted its vote to a later leader: there is no later one. -/
theorem CI.latest (hm0 : m0.configs ≠ []) (h : CI m0 N g) {i : NodeId} {l : Engine.Leader} (hl : (N.nodes i).eng.leader = some l) {Q : List NodeId}
    (hQn : Q.Nodup) (hQ : isQuorum (N.nodes i).eng.st.ms.effective.mem.configs Q = true)
    (hv : ∀ q ∈ Q, ∃ M, Steps m0 dbg N M ∧ (M.nodes q).eng.st.vote.data ≤ l.vote) {L : LeaderId} {S : List NodeId} (hS : g.el L = some S) :
    L ≤ l.vote.leaderId := by
  obtain ⟨g0, _, _, _, _, _, hn⟩ := h.node i
  obtain ⟨⟨SL, hSL⟩, hll⟩ := hn.leads h.gi hl
  have hcf : cfgs (g.ll l.vote.leaderId) = (N.nodes i).eng.st.ms.effective.mem.configs := by
    rw [hll, eff_memOf hn.r.flow.inv.lm (hn.vsE h.gi)]
    rw [memOf_mem]; rfl
  refine h.gi.noNewer hm0 hSL (by rw [hcf]; exact hQ) hQn ?_ L S hS
  intro q hq gr hgr hgq
  obtain ⟨M, hM, hle⟩ := hv q hq
  obtain ⟨gM, hc, hgl⟩ := h.steps hm0 hM
  obtain ⟨_, _, _, _, _, _, hm⟩ := hc.node q
  have h1 := hm.vsP.grants gr (hgl.grants gr hgr) hgq
  rw [← hm.vote_PS] at h1
  exact lid_of_le ((h1.trans hm.vote_le).trans hle)

/-- a position at or after the read position of a leader that is the latest one -/
theorem CI.read_pos (hm0 : m0.configs ≠ []) (h : CI m0 N g) (hk : RC N g) {i : NodeId} {l : Engine.Leader} (hl : (N.nodes i).eng.leader = some l)
    (hlast : ∀ L S, g.el L = some S → L ≤ l.vote.leaderId) {e : Ent} (he : HistOk g e) (hg' : GInv m0 g') (hle : GhostLe g g') {v : Vote} {o : Option LogId}
    {mem : StoredMem} (hp : PosOk g' v o mem) (hR : Eng.lhReadLogId (N.nodes i).eng l ≤ o) : e.id.index < nextIndex o := by
  obtain ⟨g0, _, _, _, _, _, hn⟩ := h.node i
  obtain ⟨x, hx, hxL⟩ := hk.noop i l hl
  have hmax : l.noopLogId ≤ Eng.lhReadLogId (N.nodes i).eng l ∧ (N.nodes i).eng.st.committed ≤ Eng.lhReadLogId (N.nodes i).eng l := by
    unfold Eng.lhReadLogId
    rw [omax_eq]
    split
    · next h1 => exact ⟨h1, le_refl _⟩
    · next h1 => exact ⟨le_refl _, le_of_not_ge h1⟩
  have hn1 := hmax.1.trans hR
  have hn2 := hmax.2.trans hR
  rw [hx] at hn1
  cases o with
  | none => exact absurd hn1 OptOrd.not_some_le_none'
  | some A =>
    have hxA : x ≤ A := OptOrd.some_le_some'.1 hn1
    by_contra hcon
    simp only [nextIndex_some] at hcon
    obtain ⟨L, pl, h1, h2⟩ := he
    rcases h1 with rfl | ⟨r, hr, _, hp2⟩
    · simp at h2
    have h2 := get_of_pre_some hp2 h2
    obtain ⟨⟨Sr, hSr⟩, _, hrt, hrl, _⟩ := h.gi.commit r hr
    have hlt := lt_of_get h2
    rw [List.length_take] at hlt
    have hr' := hle.commits r hr
    have hgood' : (g'.ll r.L).take r.m = (g.ll r.L).take r.m := take_eq_of_pre (hle.ll r.L) (by omega)
    have hc1 : CPre g' r.L ((g'.ll r.L).take r.m) := Or.inr ⟨r, hr', le_refl _, List.prefix_refl _⟩
    have hval := hp.1 A rfl
    have hpre : cont g' (some A) <+: (g'.ll r.L).take r.m := by
      rcases hp.2.1.cpre.total hm0 hg' hc1 with h3 | h3
      · exact h3
      · have h4 := h3.length_le
        rw [cont_len hval, hgood', List.length_take] at h4
        omega
    have hA := idAt_pre hpre (cont_last hval)
    rw [hgood'] at hA
    rcases lt_or_eq_of_le (hlast r.L Sr hSr) with hlt2 | heq
    · obtain ⟨y, hy, hAy⟩ := idAt_some.1 (idAt_pre (List.take_prefix _ _) hA)
      have h3 := h.gi.lidLe hy
      have h4 : A.leaderId ≤ r.L := by rw [hAy]; exact h3
      have h5 : x.leaderId ≤ A.leaderId := (by rcases LogId.le_def.1 hxA with h6 | ⟨h6, _⟩ <;> first | exact le_of_lt h6 | exact le_of_eq h6)
      rw [hxL] at h5
      exact absurd (lt_of_le_of_lt (h5.trans h4) hlt2) (lt_irrefl _)
    · have h3 := hk.own i l hl r hr heq
      cases hc : (N.nodes i).eng.st.committed with
      | none => rw [hc] at h3; simp at h3; omega
      | some c =>
        rw [hc] at h3 hn2
        simp only [nextIndex_some] at h3
        have hcA : c ≤ A := OptOrd.some_le_some'.1 hn2
        have hcl := lm_anch hn.r.flow.inv.lm (hn.vsE h.gi) c (by rw [hn.r.flow.inv.lm.log.com]; exact hc)
        obtain ⟨_, hll⟩ := hn.leads h.gi hl
        have hA2 := idAt_pre (List.take_prefix _ _) hA
        rw [heq, hll] at hA2
        have := idAt_le h.gi (hn.vsE h.gi).good hcl hA2 hcA
        omega

/-! ## Concrete executions -/

/-- decides `Remembers` for one node -/
def remB (n n' : Runtime.Node) : Bool :=
  n.eng.leader.isNone || n'.eng.leader.isNone || decide (n'.eng.st.vote.data ≠ n.eng.st.vote.data) ||
    decide (nextIndex n.eng.st.committed ≤ nextIndex n'.eng.st.committed)

/-- the steps are allowed, no leader forgets its committed position, and they lead to a state with the property `p` -/
def Net.showsR (m0 : Membership) (dbg : Bool) (N : Net) (p : Net → Bool) : List NEv → Bool
  | [] => p N
  | ev :: evs => match N.after m0 dbg ev with
    | some N' => remB (N.nodes ev.at) (N'.nodes ev.at) && N'.showsR m0 dbg p evs
    | none => false

omit hne in
theorem remB_ok {N1 : Net} {ev : NEv} (h1 : N.after m0 dbg ev = some N1) (h2 : remB (N.nodes ev.at) (N1.nodes ev.at) = true) : Remembers N N1 := by
  intro q hl hl' hv
  by_cases hq : ev.at = q
  · subst hq
    simp only [remB, Bool.or_eq_true, Option.isNone_iff_eq_none, decide_eq_true_eq] at h2
    rcases h2 with ((h2 | h2) | h2) | h2
    · exact absurd h2 hl
    · exact absurd h2 hl'
    · exact absurd hv h2
    · exact h2
  · have h3 : N.runTo m0 dbg [ev] = some N1 := by simp only [Net.runTo, h1]
    rw [Net.runTo_other h3 (i := q) (by simpa using hq)]

omit hne in
theorem Net.showsR_ok {evs : List NEv} {p : Net → Bool} (hN : ReachR m0 dbg N) (h : N.showsR m0 dbg p evs = true) :
    ∃ N', ReachR m0 dbg N' ∧ Steps m0 dbg N N' ∧ p N' = true := by
  induction evs generalizing N with
  | nil => exact ⟨N, hN, .refl, h⟩
  | cons ev evs ih =>
    simp only [Net.showsR] at h
    split at h
    · next N1 h1 =>
      simp only [Bool.and_eq_true] at h
      have hst := Net.after_ok h1
      have hrem : Remembers N N1 := remB_ok h1 h.1
      obtain ⟨N', h3, h4, h5⟩ := ih (.step hN hst hrem) h.2
      exact ⟨N', h3, Steps.trans (.step .refl hst) h4, h5⟩
    · cases h

namespace Demo
open Openraft.Engine.Demo (m3 lid)

/-- Leader 2 (after `second`) gets another write, sends it to node 3, and learns that it has it. -/
def fifth : List NEv :=
  [.node 2 (.write 50 9 (.normal 8))] ++ work 2 51 6 ++
  [.send 2 (some (lid 2 2 3)) none 1, .node 3 (.msg 52 (.appendReq 5 v2c (some (lid 2 2 3)) [⟨lid 2 2 4, .normal 8⟩] none))] ++ work 3 53 6 ++
  [.node 2 (.msg 54 (.replProgress ⟨v2c, some (lid 0 0 0)⟩ 3 (.matching (some (lid 2 2 4)))))]

/-- It commits and applies the entry, and everything it wrote is durable; then it crashes and resumes. -/
def kept : List NEv := work 2 55 8 ++ [.crash 2 0 61] ++ work 2 62 4

/-- It commits and applies the entry, but the committed position it saved is not durable; then it crashes and resumes. -/
def forgot : List NEv := (List.replicate 8 [.node 2 .run, .node 2 .sm, .node 2 (.note 55)]).flatten ++ [.crash 2 0 61] ++ work 2 62 4

/-- Node 3 answers that it has the log up to the first entry of leader 2, which commits and applies this much. -/
def sixth : List NEv :=
  [.send 2 (some (lid 2 2 3)) none 0, .node 3 (.msg 63 (.appendReq 6 v2c (some (lid 2 2 3)) [] none))] ++ work 3 64 6 ++
  [.node 2 (.msg 65 (.replProgress ⟨v2c, some (lid 0 0 0)⟩ 3 (.matching (some (lid 2 2 3)))))] ++ work 2 66 8

end Demo

end Openraft.Net
