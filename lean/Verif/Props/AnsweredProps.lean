import Verif.Runtime.Answered
import Verif.Props.ClientProps
import Verif.Props.WaitProps

/-!
# C51: the caller of a committed write is answered
-/

set_option autoImplicit false

namespace Openraft.Props
open Openraft.Engine Openraft.Runtime Openraft.Runtime.Demo Openraft.LogIdList
open Openraft.Engine.Demo (lid m3 v2)
open Openraft.Cluster (Payload)

/-- a process: an infinite run of a node that has just started, fresh or after a crash, in which no part of the node stops working -/
structure Process (dbg : Bool) (cfg : Cfg) (old : List Resp) (σ : Nat → Runtime.Node) (ev : Nat → Ev) : Prop where
  life : Life dbg cfg old (σ 0)
  born : Born (σ 0)
  idle : (σ 0).smq = []
  works : Works dbg σ ev

/-- the requests that the node got before step `j` -/
def askedTill (σ : Nat → Runtime.Node) (ev : Nat → Ev) (j : Nat) : List (Nat × Option Payload) := (List.range j).flatMap fun k => asked (σ k) (ev k)

/-- the caller `tx` is told that its own entry, at index `i`, was applied -/
def toldOwn (σ : Nat → Runtime.Node) (ev : Nat → Ev) (i tx j : Nat) : Prop :=
  ∃ e : Ent, e.id.index = i ∧ (tx, some e.payload) ∈ askedTill σ ev j ∧ (tx, some e) ∈ (σ j).replies

/-- a truncation that was emitted before step `t`, and not yet executed, removes index `i`; the caller is told an error -/
def toldError (σ : Nat → Runtime.Node) (i tx t j : Nat) : Prop :=
  (tx, none) ∈ (σ j).replies ∧ ∃ s, Cmd.truncate s ∈ (σ t).eng.out.drop (σ t).done ∧ s.index ≤ i

/-- **C51, the full claim**: whoever waits for an index that the node knows to be committed is answered, sooner or later: with its
entry, or with an error if the entry it waits for was replaced. It is false, `C51_false`. -/
def C51_statement (dbg : Bool) : Prop :=
  ∀ (cfg : Cfg) (old : List Resp) (σ : Nat → Runtime.Node) (ev : Nat → Ev), Process dbg cfg old σ ev →
    ∀ i tx t : Nat, (i, tx) ∈ (σ t).clients → i < nextIndex (σ t).eng.st.committed →
      ∃ j, t ≤ j ∧ (toldOwn σ ev i tx j ∨ toldError σ i tx t j)

theorem crun_of_works {dbg : Bool} {σ : Nat → Runtime.Node} {ev : Nat → Ev} (h : Works dbg σ ev) (j : Nat) :
    ∃ ap, CRun dbg (σ 0) (askedTill σ ev j) ap (σ j) := by
  induction j with
  | zero => exact ⟨[], .refl⟩
  | succ j ih =>
    obtain ⟨ap, ih⟩ := ih
    have := CRun.step (ev j) ih (h.ok j) (h.step j)
    refine ⟨ap ++ (σ (j + 1)).sm.hist.drop (σ j).sm.hist.length, ?_⟩
    unfold askedTill
    rw [List.range_succ, List.flatMap_append, List.flatMap_singleton]
    exact this

theorem told {dbg : Bool} {cfg : Cfg} {old : List Resp} {σ : Nat → Runtime.Node} {ev : Nat → Ev} (h : Process dbg cfg old σ ev)
    (hs : ∀ j, ¬ Halted (σ j)) {i tx t : Nat} (hsp : ∀ j, Spared i (σ j)) (hm : (i, tx) ∈ (σ t).clients)
    (hc : i < nextIndex (σ t).eng.st.committed) : ∃ j, t ≤ j ∧ (toldOwn σ ev i tx j ∨ toldError σ i tx t j) := by
  obtain ⟨j, hj, hh⟩ := h.works.answered h.life.inv.1 h.born h.idle hs hsp hm hc
  refine ⟨j, hj, ?_⟩
  rcases hh with ⟨e, h1, h2⟩ | hh
  · obtain ⟨ap, hr⟩ := crun_of_works h.works j
    exact Or.inl ⟨e, h1, (C26_own_entry_partial h.life h.born hr tx e h2).1, h2⟩
  · exact Or.inr hh

theorem Process.lives {dbg : Bool} {cfg : Cfg} {old : List Resp} {σ : Nat → Runtime.Node} {ev : Nat → Ev} (h : Process dbg cfg old σ ev) (j : Nat) :
    Life dbg cfg old (σ j) := by
  induction j with
  | zero => exact h.life
  | succ j ih => exact .step (ev j) ih (h.works.ok j) (h.works.step j)

/-- **C51, debug builds.** In every infinite run of a process that keeps working, whatever messages arrive: the caller of a committed
index is answered, unless a snapshot that goes over the index is installed. Missing: the claim without the premise on snapshots is
false, `C51_false`. -/
theorem C51_debug_partial {cfg : Cfg} {old : List Resp} {σ : Nat → Runtime.Node} {ev : Nat → Ev} (h : Process true cfg old σ ev) {i tx t : Nat}
    (hsp : ∀ j m io, Cmd.sm (.install m io) ∈ (σ j).eng.out → nextIndex m.lastLogId ≤ i) (hm : (i, tx) ∈ (σ t).clients)
    (hc : i < nextIndex (σ t).eng.st.committed) : ∃ j, t ≤ j ∧ (toldOwn σ ev i tx j ∨ toldError σ i tx t j) :=
  told h (fun j => (h.lives j).steady.waits.not_halted) hsp hm hc

/-- **C51, every build**, if the process installs no snapshot. Missing: as `C51_debug_partial`. -/
theorem C51_calm_partial {dbg : Bool} {cfg : Cfg} {old : List Resp} {σ : Nat → Runtime.Node} {ev : Nat → Ev} (h : Process dbg cfg old σ ev) {i tx t : Nat}
    (hsp : ∀ j m io, Cmd.sm (.install m io) ∉ (σ j).eng.out) (hm : (i, tx) ∈ (σ t).clients)
    (hc : i < nextIndex (σ t).eng.st.committed) : ∃ j, t ≤ j ∧ (toldOwn σ ev i tx j ∨ toldError σ i tx t j) :=
  told h (fun j => ((h.lives j).calm (hsp j)).waits.not_halted) (fun j m io hx => absurd hx (hsp j m io)) hm hc

/-- **C51, the other callers**: one whose index is to be removed from the log does not wait for ever either. -/
theorem C51_removed_debug {cfg : Cfg} {old : List Resp} {σ : Nat → Runtime.Node} {ev : Nat → Ev} (h : Process true cfg old σ ev) {i tx t : Nat}
    {s : LogId} (hm : Cmd.truncate s ∈ (σ t).eng.out.drop (σ t).done) (hs : s.index ≤ i) : ∃ j, t ≤ j ∧ (i, tx) ∉ (σ j).clients :=
  h.works.removed (fun j => (h.lives j).steady.waits.not_halted) hm hs

/-! ## Concrete cases -/

/-- events, then a flush and a step of the worker, then nothing happens any more -/
theorem process_of {dbg : Bool} {n : Runtime.Node} {cfg : Cfg} {old : List Resp} {evs : List (List LogId × Ev)} (hl : Life dbg cfg old n) (hb : Born n)
    (hq : n.smq = []) (ho : allOk dbg n (evs ++ [([], Ev.flush), ([], Ev.sm)]) = true)
    (h1 : (runTo dbg n (evs ++ [([], Ev.flush)])).pend = [])
    (h2 : (runTo dbg n (evs ++ [([], Ev.flush), ([], Ev.sm)])).head = none ∧ (runTo dbg n (evs ++ [([], Ev.flush), ([], Ev.sm)])).pend = [] ∧
      (runTo dbg n (evs ++ [([], Ev.flush), ([], Ev.sm)])).smq = [] ∧ (runTo dbg n (evs ++ [([], Ev.flush), ([], Ev.sm)])).rx = []) :
    Process dbg cfg old (fun i => runTo dbg n ((evs ++ [([], Ev.flush), ([], Ev.sm)]).take i)) (evOf (evs ++ [([], Ev.flush), ([], Ev.sm)])) := by
  refine ⟨hl, hb, hq, ?_⟩
  have hlen : (evs ++ [([], Ev.flush), ([], Ev.sm)]).length = evs.length + 2 := by simp
  have e1 : evOf (evs ++ [([], Ev.flush), ([], Ev.sm)]) evs.length = Ev.flush := by unfold evOf; simp
  have e2 : evOf (evs ++ [([], Ev.flush), ([], Ev.sm)]) (evs.length + 1) = Ev.sm := by unfold evOf; simp
  have e3 : (evs ++ [([], Ev.flush), ([], Ev.sm)]).take (evs.length + 1) = evs ++ [([], Ev.flush)] := by
    rw [List.take_append, List.take_of_length_le (by omega)]; simp
  generalize evs ++ [([], Ev.flush), ([], Ev.sm)] = E at *
  have hall : ∀ i, i < E.length → ∃ x, E[i]? = some x ∧ evOf E i = x.2 ∧ EvOk (runTo dbg n (E.take i)) x.2 ∧
      (runTo dbg n (E.take i)).step dbg x.2 = .ok (runTo dbg n (E.take (i + 1))) := by
    intro i hlt
    refine ⟨E[i], List.getElem?_eq_getElem hlt, by simp [evOf, List.getElem?_eq_getElem hlt], ?_⟩
    have hsplit : E = E.take i ++ E[i] :: E.drop (i + 1) := by
      rw [List.getElem_cons_drop, List.take_append_drop]
    have h2 := ho
    rw [hsplit, allOk_append] at h2
    simp only [Bool.and_eq_true] at h2
    have h3 := h2.2
    rcases hx : E[i] with ⟨lead, ev⟩
    rw [hx] at h3
    simp only [allOk, Bool.and_eq_true, decide_eq_true_eq] at h3
    refine ⟨evB_ok h3.1.1, ?_⟩
    rw [List.take_succ_eq_append_getElem hlt, hx, runTo_append]
    exact after_ok h3.1.2
  have hend : ∀ i, E.length ≤ i → E.take i = E ∧ evOf E i = .run := by
    intro i hi
    refine ⟨List.take_of_length_le hi, ?_⟩
    unfold evOf
    rw [List.getElem?_eq_none hi]; rfl
  refine ⟨?_, ?_, ?_, ?_, ?_, ?_⟩
  · intro i
    rcases Nat.lt_or_ge i E.length with h | h
    · obtain ⟨x, _, h2, h3, _⟩ := hall i h
      rw [h2]; exact h3
    · rw [(hend i h).2]; trivial
  · intro i
    rcases Nat.lt_or_ge i E.length with h | h
    · obtain ⟨x, _, h2, _, h3⟩ := hall i h
      rw [h2]; exact h3
    · rw [(hend i h).2]
      simp only [(hend i h).1, (hend (i + 1) (by omega)).1]
      unfold Node.step Node.run1
      rw [h2.1]; rfl
  · intro i _
    exact ⟨max i E.length, by omega, (hend _ (by omega)).2⟩
  · intro i hp
    rcases Nat.lt_or_ge evs.length i with h | h
    · refine absurd ?_ hp
      rcases Nat.lt_or_ge i (evs.length + 2) with h' | h'
      · rw [show i = evs.length + 1 by omega]
        show (runTo dbg n (E.take (evs.length + 1))).pend = []
        rw [e3]; exact h1
      · show (runTo dbg n (E.take i)).pend = []
        rw [(hend i (by omega)).1]; exact h2.2.1
    · exact ⟨evs.length, h, e1⟩
  · intro i hp
    rcases Nat.lt_or_ge (evs.length + 1) i with h | h
    · refine absurd ?_ hp
      show (runTo dbg n (E.take i)).smq = []
      rw [(hend i (by omega)).1]; exact h2.2.2.1
    · exact ⟨evs.length + 1, h, e2⟩
  · intro hh i
    obtain ⟨j, hj, _, hx⟩ := hh E.length
    refine absurd ?_ hx
    show (runTo dbg n (E.take j)).rx = []
    rw [(hend j hj).1]; exact h2.2.2.2

/-- the events of `clientLost`: the caller's index is passed by a snapshot -/
def lostFor : List (List LogId × Ev) := clientLostEvs ++ settle ++ [([], Ev.flush), ([], Ev.sm)]

theorem lost_process : Process true Demo.cfg [] (fun i => runTo true (Node.fresh Demo.cfg 0) (lostFor.take i)) (evOf lostFor) :=
  process_of (evs := clientLostEvs ++ settle) (fresh_life true) (Born.fresh _ _ _) rfl (by decide +kernel) (by decide +kernel) (by decide +kernel)

/-- **C51 is false**: a leader that has a waiting caller gets a snapshot of the next leader that goes beyond its log. The index is
committed, everything that was to be done is done, and the caller is not answered, ever. (`install_full_snapshot`,
`following_handler/mod.rs:279-330`; see `C26_never_answered`.) -/
theorem C51_false : ¬ C51_statement true := by
  intro h
  obtain ⟨j, hj, hh⟩ := h _ _ _ _ lost_process 3 50 lostFor.length (by rw [List.take_length]; decide +kernel) (by rw [List.take_length]; decide +kernel)
  have hr : (runTo true (Node.fresh Demo.cfg 0) (lostFor.take j)).replies = [] := by
    rw [List.take_of_length_le hj]; decide +kernel
  rcases hh with ⟨e, _, _, k⟩ | ⟨k, _⟩
  · have k : (50, some e) ∈ (runTo true (Node.fresh Demo.cfg 0) (lostFor.take j)).replies := k
    rw [hr] at k; cases k
  · have k : (50, none) ∈ (runTo true (Node.fresh Demo.cfg 0) (lostFor.take j)).replies := k
    rw [hr] at k; cases k

/-- the events of `two`: one entry is applied, one is replaced -/
def twoFor : List (List LogId × Ev) := twoEvs ++ settle ++ [([], Ev.flush), ([], Ev.sm)]

theorem two_process (dbg : Bool) (h : allOk dbg (Node.fresh Demo.cfg 0) twoFor = true)
    (h1 : (runTo dbg (Node.fresh Demo.cfg 0) (twoEvs ++ settle ++ [([], Ev.flush)])).pend = [])
    (h2 : (runTo dbg (Node.fresh Demo.cfg 0) twoFor).head = none ∧ (runTo dbg (Node.fresh Demo.cfg 0) twoFor).pend = [] ∧
      (runTo dbg (Node.fresh Demo.cfg 0) twoFor).smq = [] ∧ (runTo dbg (Node.fresh Demo.cfg 0) twoFor).rx = []) :
    Process dbg Demo.cfg [] (fun i => runTo dbg (Node.fresh Demo.cfg 0) (twoFor.take i)) (evOf twoFor) :=
  process_of (evs := twoEvs ++ settle) (fresh_life dbg) (Born.fresh _ _ _) rfl h h1 h2

theorem two_calm (dbg : Bool) (h : Process dbg Demo.cfg [] (fun i => runTo dbg (Node.fresh Demo.cfg 0) (twoFor.take i)) (evOf twoFor))
    (hc : ∀ c ∈ (runTo dbg (Node.fresh Demo.cfg 0) twoFor).eng.out, (match c with | .sm _ => false | _ => true) = true) (j : Nat) (m : SnapMeta) (io : IOId) :
    Cmd.sm (.install m io) ∉ (runTo dbg (Node.fresh Demo.cfg 0) (twoFor.take j)).eng.out := by
  intro hm
  have h1 := (h.works.fair.mono j (max j twoFor.length) (by omega)).2.1.subset hm
  have h2 : Cmd.sm (.install m io) ∈ (runTo dbg (Node.fresh Demo.cfg 0) (twoFor.take (max j twoFor.length))).eng.out := h1
  rw [List.take_of_length_le (by omega)] at h2
  simpa using hc _ h2

theorem two_debug : Process true Demo.cfg [] (fun i => runTo true (Node.fresh Demo.cfg 0) (twoFor.take i)) (evOf twoFor) :=
  two_process true (by decide +kernel) (by decide +kernel) (by decide +kernel)
theorem two_release : Process false Demo.cfg [] (fun i => runTo false (Node.fresh Demo.cfg 0) (twoFor.take i)) (evOf twoFor) :=
  two_process false (by decide +kernel) (by decide +kernel) (by decide +kernel)

-- caller 50 waits for index 3, which is committed at step 109; it is answered, by `C51_debug_partial` and in fact
example : ∃ j, 109 ≤ j ∧ (toldOwn (fun i => runTo true (Node.fresh Demo.cfg 0) (twoFor.take i)) (evOf twoFor) 3 50 j ∨
    toldError (fun i => runTo true (Node.fresh Demo.cfg 0) (twoFor.take i)) 3 50 109 j) :=
  C51_debug_partial two_debug (fun j m io hm => absurd hm (two_calm true two_debug (by decide +kernel) j m io)) (by decide +kernel) (by decide +kernel)
example : (50, some ⟨lid 2 1 3, .normal 7⟩) ∈ (runTo true (Node.fresh Demo.cfg 0) (twoFor.take 126)).replies := by decide +kernel
-- caller 51 waits for index 4, which is committed at step 145 with another entry; the truncation is not yet executed
example : ∃ j, 145 ≤ j ∧ (toldOwn (fun i => runTo false (Node.fresh Demo.cfg 0) (twoFor.take i)) (evOf twoFor) 4 51 j ∨
    toldError (fun i => runTo false (Node.fresh Demo.cfg 0) (twoFor.take i)) 4 51 145 j) :=
  C51_calm_partial two_release (two_calm false two_release (by decide +kernel)) (by decide +kernel) (by decide +kernel)
example : (51, none) ∈ (runTo false (Node.fresh Demo.cfg 0) (twoFor.take 147)).replies := by decide +kernel
example : ∃ j, 145 ≤ j ∧ (4, 51) ∉ (runTo true (Node.fresh Demo.cfg 0) (twoFor.take j)).clients :=
  C51_removed_debug (t := 145) two_debug (s := lid 2 1 4) (by decide +kernel) (by decide +kernel)

end Openraft.Props
