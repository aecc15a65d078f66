import Verif.Engine.Lead
import Verif.Engine.Shape
import Verif.Engine.Pairs

/-!
# The command stream of a running engine

`Flow`: the invariant of the engine, plus what is known of the whole stream of its commands: IO ids are in
order, ids reported for a leader's own writes are still in its log, the snapshot is a position of the state
machine.
-/

set_option autoImplicit false

namespace Openraft.Engine
open Openraft.Repl (Panic dassert Inflight)
open Openraft.Cluster (Payload)

/-- a position of the state machine somewhere in a stream of commands -/
def ComVal (g0 : Gh) (cs : List Cmd) (x : Option LogId) : Prop := ∃ a b, cs = a ++ b ∧ (g0.runs a).com = x

theorem ComVal.append {g0 : Gh} {cs ds : List Cmd} {x : Option LogId} (h : ComVal g0 cs x) : ComVal g0 (cs ++ ds) x := by
  obtain ⟨a, b, h1, h2⟩ := h
  exact ⟨a, b ++ ds, by rw [h1, List.append_assoc], h2⟩

theorem ComVal.last (g0 : Gh) (cs : List Cmd) : ComVal g0 cs (g0.runs cs).com := ⟨cs, [], by simp, rfl⟩

theorem ComVal.le {g0 : Gh} {cs : List Cmd} {x : Option LogId} (ho : g0.Oks cs) (h : ComVal g0 cs x) :
    Le2 x (g0.runs cs).com := by
  obtain ⟨a, b, rfl, rfl⟩ := h
  rw [Gh.oks_append] at ho
  rw [Gh.runs_append]
  exact Gh.com_runs ho.2

theorem ComVal.ge {g0 : Gh} {cs : List Cmd} {x : Option LogId} (ho : g0.Oks cs) (h : ComVal g0 cs x) :
    Le2 g0.com x := by
  obtain ⟨a, b, rfl, rfl⟩ := h
  rw [Gh.oks_append] at ho
  exact Gh.com_runs ho.1

theorem ComVal.total {g0 : Gh} {cs : List Cmd} {x y : Option LogId} (ho : g0.Oks cs) (h : ComVal g0 cs x)
    (k : ComVal g0 cs y) : Le2 x y ∨ Le2 y x := by
  obtain ⟨a, b, h1, rfl⟩ := h
  obtain ⟨c, d, h2, rfl⟩ := k
  have : a ++ b = c ++ d := h1.symm.trans h2
  rcases List.append_eq_append_iff.1 this with ⟨t, rfl, _⟩ | ⟨t, rfl, _⟩
  · left
    rw [h2, Gh.oks_append, Gh.oks_append] at ho
    rw [Gh.runs_append]; exact Gh.com_runs ho.1.2
  · right
    rw [h1, Gh.oks_append, Gh.oks_append] at ho
    rw [Gh.runs_append]; exact Gh.com_runs ho.1.2

theorem ComVal.le_iff {g0 : Gh} {cs : List Cmd} {x y : Option LogId} (ho : g0.Oks cs) (h : ComVal g0 cs x)
    (k : ComVal g0 cs y) (hle : x ≤ y) : Le2 x y := by
  rcases h.total ho k with h1 | h1
  · exact h1
  · exact Or.inl (le_antisymm hle h1.le)

/-- the state of an engine together with its stream of commands. `g0`: store, vote and position of the
state machine at the start; `a0`: the IO accepted at the start; `s0`: the snapshot at the start. -/
structure Flow (g0 : Gh) (a0 : IOId) (s0 : Option LogId) (e : Eng) : Prop where
  inv : EInv g0 e
  ios : COks g0 a0 e.out
  acc : e.st.io.prog.accepted = some (lvls a0 e.out)
  lead : ∀ l, e.leader = some l → ∀ c ∈ e.out, ∀ io, c.reports = some io → io.vote = l.vote → Held (g0.runs e.out) io.last
  snap : e.st.snap.lastLogId = s0 ∨ ComVal g0 e.out e.st.snap.lastLogId
  snap0 : Le2 s0 g0.com
  pair : Paired e.out

namespace Flow
variable {g0 : Gh} {a0 : IOId} {s0 : Option LogId} {e e' : Eng} {dbg : Bool} {now : Nat}

theorem oks (h : Flow g0 a0 s0 e) : g0.Oks e.out := h.inv.lm.oks

theorem vote (h : Flow g0 a0 s0 e) : (lvls a0 e.out).vote = e.st.vote.data := by
  obtain ⟨a, h1, h2, _⟩ := h.inv.pj.acc
  rw [h.acc] at h1
  cases h1
  exact h2

/-- only counters of completed IO, the server state or the replication progress differ -/
theorem same (h : Flow g0 a0 s0 e) (hi : EInv g0 e') (ho : e'.out = e.out) (ha : e'.st.io.prog.accepted = e.st.io.prog.accepted)
    (hl : e'.leader = e.leader) (hs : e'.st.snap = e.st.snap) : Flow g0 a0 s0 e' := by
  refine ⟨hi, by rw [ho]; exact h.ios, by rw [ho, ha]; exact h.acc, ?_, by rw [hs, ho]; exact h.snap, h.snap0, by rw [ho]; exact h.pair⟩
  rw [hl, ho]; exact h.lead

/-- a snapshot of a position of the state machine may be offered to the engine -/
theorem builtOk (h : Flow g0 a0 s0 e) {m : SnapMeta} (hm : ComVal g0 e.out m.lastLogId) : Eng.BuiltOk e m := by
  intro hlt x hx
  have hj := h.inv.lm.log
  have h1 := hm.le h.oks
  rw [hj.com, hx] at h1
  have h2 : x.index < nextIndex e.st.committed := h1.next
  refine ⟨?_, h2⟩
  obtain ⟨a, b, h3, h4⟩ := hm
  have hoks := h.oks
  rw [h3, Gh.oks_append] at hoks
  have h5 := Gh.passed_runs hoks.2 (x := x) (Or.inr (Or.inr (h4.trans hx))) (by rw [h4, hx]; simp)
  rw [← Gh.runs_append, ← h3] at h5
  have hL : e.st.lv.L = LogIdList.expand e.st.logIds := rfl
  rcases h5 with h5 | h5 | h5
  · rw [← hL, hj.cpl]; exact List.mem_append_right _ h5
  · exfalso
    rw [hj.stp] at h5
    have h6 : nextIndex e.st.lv.lastPurged ≤ nextIndex e.st.snap.lastLogId := by
      rw [← hj.pn]; exact le_trans hj.ord1 hj.ord2
    have h7 : nextIndex e.st.snap.lastLogId < nextIndex m.lastLogId := by
      have hval : ComVal g0 e.out m.lastLogId := ⟨a, b, h3, h4⟩
      have hge : Le2 e.st.snap.lastLogId m.lastLogId := by
        rcases h.snap with h8 | h8
        · rw [h8]; exact h.snap0.trans (hval.ge h.oks)
        · exact h8.le_iff h.oks hval (le_of_lt hlt)
      rcases hge with h8 | h8
      · rw [h8] at hlt; exact absurd hlt (lt_irrefl _)
      · exact h8.2
    rw [hx] at h7
    simp at h7
    omega
  · rw [hj.com] at h5
    rw [← hL]; exact hj.comIn x h5

end Flow

namespace Eng
variable {dbg : Bool} {now : Nat}

theorem snap_snapReq {g0 : Gh} {e e' : Eng} {tx : Nat} {v : Vote} {m : SnapMeta} (h : EInv g0 e)
    (ho : InputOk e (.snapReq tx v m)) (hr : e.handleInstall dbg now tx v m = .ok e') :
    e'.st.snap = e.st.snap ∨ e'.st.snap.lastLogId = e'.st.committed := by
  unfold handleInstall at hr
  rw [bind_ok] at hr
  obtain ⟨⟨ok, e1⟩, he1, hr⟩ := hr
  simp only at hr
  by_cases hle : e.st.vote.data ≤ v
  · obtain ⟨hnd, hcm, hso⟩ := ho hle
    obtain ⟨hinv, h3, _, hb⟩ := inv_updateVote h (fun hx => absurd hx hnd) he1
    have hok := h3.2 hle
    have hbe := hb hok hcm hnd
    rw [if_pos hok] at hr
    simp only [bind_ok, pure_ok] at hr
    obtain ⟨lv, hlv, ⟨cond, e2⟩, he2, hr⟩ := hr
    have hlv := followingHandler_ok hlv
    rw [toCommitted_eq hbe.fol.com] at hlv
    rw [hlv] at he2
    subst hr
    show e2.st.snap = _ ∨ e2.st.snap.lastLogId = e2.st.committed
    by_cases hlt : m.lastLogId ≤ e1.st.committed
    · unfold fhInstall at he2
      rw [if_pos hlt, pure_ok] at he2
      cases he2
      exact Or.inl hbe.snap
    · cases hx : m.lastLogId with
      | none => rw [hx] at hlt; exact absurd (OptOrd.none_le' _) hlt
      | some x =>
        rw [hx] at hlt
        have hlt' := not_le.1 hlt
        have hs := hso x hx (by rw [← hbe.com]; exact hlt')
        have hs' : SnapOk e1 e1.st.vote.data m x := by
          rw [hbe.vote]
          refine ⟨hs.leader, by rw [hbe.com]; exact hs.ahead, by rw [hbe.L, hbe.floor]; exact hs.agree, ?_,
            by rw [hbe.L, hbe.ms, hbe.com]; exact hs.conflict, by rw [hbe.L, hbe.ms]; exact hs.inside,
            by rw [hbe.L, hbe.ms, hbe.com]; exact hs.beyond⟩
          intro a _ ha hi
          rw [hbe.acc] at ha
          split at ha
          · next heq => exact hs.acc a heq ha hi
          · cases ha
        obtain ⟨k1, k2, _⟩ := fhInstall_shape hinv hbe.fol hx hlt' hs' he2
        right
        rw [k1, k2, hx]
  · unfold updateVote at he1
    rw [if_neg hle, pure_ok] at he1
    cases he1
    simp only [Bool.false_eq_true, if_false, pure_ok] at hr
    subst hr
    exact Or.inl rfl

theorem snap_built {e e' : Eng} {m : SnapMeta} (hr : e.coreBuilt dbg m = .ok e') :
    e'.st.snap = e.st.snap ∨ e'.st.snap = m := by
  simp only [coreBuilt, bind_ok, pure_ok] at hr
  obtain ⟨e1, h1, io, _, hr⟩ := hr
  subst hr
  show e1.st.snap = _ ∨ e1.st.snap = _
  unfold finishBuilding at h1
  have hu : (Eng.updateSnapshot { e with st := { e.st with io := { e.st.io with building := false } } } m).2.st.snap = e.st.snap ∨
      (Eng.updateSnapshot { e with st := { e.st with io := { e.st.io with building := false } } } m).2.st.snap = m := by
    unfold updateSnapshot; split
    · exact Or.inl rfl
    · exact Or.inr rfl
  dsimp only at h1
  split at h1
  · next e2 he => rw [he] at hu; rw [pure_ok] at h1; subst h1; exact hu
  · next e2 he =>
    rw [he] at hu
    simp only [bind_ok, pure_ok] at h1
    obtain ⟨e3, h3, h1⟩ := h1
    subst h1
    have h4 : e3.st.snap = e2.st.snap := keeps_snap (keeps_schedulePurge _ _ h3)
    have h5 : e3.tryPurge.st.snap = e3.st.snap := keeps_snap (keeps_tryPurge _)
    rw [h5, h4]; exact hu

/-! ## what the reports of the runtime change -/

theorem localIO_reports {e e' : Eng} {io : IOId} (hr : e.input dbg now (.localIO io) = .ok e') :
    e'.st.io.prog.flushed = some io ∧ e'.st.io.snapshot = e.st.io.snapshot ∧ e'.st.io.applied = e.st.io.applied := by
  simp only [input, coreLocalIO, bind_ok] at hr
  obtain ⟨p, hp, hr⟩ := hr
  have hp := flush_ok hp
  subst hp
  have hst : Stay (e.withProg { e.st.io.prog with flushed := some io }) e' := by
    split at hr
    · split at hr
      · split at hr
        · exact stay_rhUpdateLocal _ _ _ _ hr
        · rw [pure_ok] at hr; subst hr; rfl
      · rw [pure_ok] at hr; subst hr; rfl
    · rw [pure_ok] at hr; subst hr; rfl
  exact ⟨congrArg (·.2.1) hst, congrArg (·.2.2.1) hst, congrArg (·.2.2.2.1) hst⟩

theorem built_reports {e e' : Eng} {m : SnapMeta} (hr : e.input dbg now (.built m) = .ok e') :
    e'.st.io.prog.flushed = e.st.io.prog.flushed ∧ e'.st.io.snapshot = m.lastLogId ∧ e'.st.io.applied = e.st.io.applied := by
  simp only [input, coreBuilt, bind_ok, pure_ok] at hr
  obtain ⟨e1, h1, io, h2, hr⟩ := hr
  have h2 := updateSnapshotIO_ok h2
  subst hr
  subst h2
  have hst : Stay e e1 := stay_finishBuilding _ _ _ h1
  exact ⟨congrArg (·.2.1) hst, rfl, congrArg (·.2.2.2.1) hst⟩

theorem installed_reports {e e' : Eng} {io : IOId} {m : SnapMeta} (hr : e.input dbg now (.installed io m) = .ok e') :
    e'.st.io.prog.flushed = some io ∧ e'.st.io.snapshot = m.lastLogId ∧ e'.st.io.applied = m.lastLogId := by
  simp only [input, coreInstalled, bind_ok, pure_ok] at hr
  obtain ⟨p, hp, s1, h1, s2, h2, hr⟩ := hr
  have hp := flush_ok hp
  have h1 := updateApplied_ok h1
  have h2 := updateSnapshotIO_ok h2
  subst hp; subst h1; subst h2; subst hr
  exact ⟨rfl, rfl, rfl⟩

theorem applied_reports {e e' : Eng} {l : LogId} (hr : e.input dbg now (.applied l) = .ok e') :
    e'.st.io.prog.flushed = e.st.io.prog.flushed ∧ e'.st.io.snapshot = e.st.io.snapshot ∧ e'.st.io.applied = some l := by
  simp only [input, coreApplied, bind_ok, pure_ok] at hr
  obtain ⟨s, h1, hr⟩ := hr
  have h1 := updateApplied_ok h1
  subst h1; subst hr
  exact ⟨rfl, rfl, rfl⟩

end Eng

namespace Flow
variable {g0 : Gh} {a0 : IOId} {s0 : Option LogId} {e e' : Eng} {dbg : Bool} {now : Nat}

/-- what an input adds to the stream -/
theorem step (h : Flow g0 a0 s0 e) {i : Input} (ho : InputOk e i) (hb : ∀ m, i = .built m → ComVal g0 e.out m.lastLogId)
    (hr : e.input dbg now i = .ok e') : Flow g0 a0 s0 e' := by
  have hi := Eng.inv_input h.inv ho hr
  obtain ⟨cs, hout, hio⟩ := Eng.io_input h.inv ho hr
  obtain ⟨h1, h2⟩ := hio _ h.acc
  have hoks := hi.lm.oks
  rw [hout, Gh.oks_append] at hoks
  have hios : COks g0 a0 e'.out := by rw [hout, COks_append]; exact ⟨h.ios, h1⟩
  have hlv : lvls a0 e'.out = lvls (lvls a0 e.out) cs := by rw [hout, lvls_append]
  refine ⟨hi, hios, by rw [hlv]; exact h2, ?_, ?_, h.snap0, ?_⟩
  rotate_left 2
  · obtain ⟨cs', hcs', hp⟩ := Eng.pairs_input (dbg := dbg) (now := now) e i _ hr
    rw [show e'.out = e.out ++ cs' from hcs']; exact h.pair.append hp
  · intro l hl c hc io hc' hv
    obtain ⟨⟨cs', hcs', hp⟩, hor⟩ := Eng.lead_input h.inv ho hr hl
    have : cs' = cs := List.append_cancel_left (hcs'.symm.trans hout)
    subst this
    have hw := h.inv.lm.log.whole
    have hw' := hw.runs hoks.2 hp
    rw [hout, List.mem_append] at hc
    rw [hout, Gh.runs_append]
    have hlv' := (hi.pj.lead l hl).vote
    rcases hc with hc | hc
    · have hle : io.vote ≤ e.st.vote.data := by
        rw [← h.vote]
        rcases IOId.le_def.1 (reports_mem_le h.ios hc hc') with h5 | h5
        · exact le_of_lt h5
        · exact le_of_eq h5.1
      rw [hv, hlv'] at hle
      rcases hor with hor | hor
      · cases hle0 : e.leader with
        | none => rw [hle0] at hor; cases hor
        | some l0 =>
          refine hw'.2 _ (h.lead l0 hle0 c hc io hc' ?_)
          rw [hv, hlv', (h.inv.pj.lead l0 hle0).vote]
          refine le_antisymm hle ?_
          have h6 := Gh.vote_runs hoks.2
          rw [← Gh.runs_append, ← hout, h.inv.pj.gv, hi.pj.gv] at h6
          exact h6
      · exact absurd hor (not_lt.2 hle)
    · obtain ⟨x, y, rfl⟩ := List.append_of_mem hc
      rw [COks_append] at h1
      have hok2 := hoks.2
      rw [Gh.oks_append] at hok2
      have hwx := (hw.runs hok2.1 fun z hz => hp z (by simp [hz])).1
      have hwc := hwx.run hok2.2.1 (hp c (by simp))
      have hwy := hwc.1.runs hok2.2.2 fun z hz => hp z (by simp [hz])
      rw [Gh.runs_append]
      refine hwy.2 _ ?_
      have hk := h1.2.1
      cases c with
      | append v es =>
        obtain ⟨z, hz, _⟩ := hk
        simp only [Cmd.reports, hz, Option.map_some, Option.some.injEq] at hc'
        subst hc'
        intro q hq
        left
        have : z.id = q := Option.some.inj hq
        subst this
        simp only [Gh.ids, Gh.run, LogStore.append, List.map_append]
        exact List.mem_append_right _ (List.mem_map_of_mem (List.mem_of_getLast? hz))
      | updateIO w j =>
        simp only [Cmd.reports, Option.some.injEq] at hc'
        subst hc'
        exact hk.2.2
      | _ => cases hc'
  · have hsame : e'.st.snap = e.st.snap → (e'.st.snap.lastLogId = s0 ∨ ComVal g0 e'.out e'.st.snap.lastLogId) := by
      intro hs
      rw [hs, hout]
      rcases h.snap with h3 | h3
      · exact Or.inl h3
      · exact Or.inr h3.append
    cases i with
    | snapReq tx v m =>
      rcases Eng.snap_snapReq h.inv ho hr with h3 | h3
      · exact hsame h3
      · right
        rw [h3, show e'.st.committed = (g0.runs e'.out).com from hi.lm.log.com.symm]
        exact ComVal.last _ _
    | built m =>
      rcases Eng.snap_built hr with h3 | h3
      · exact hsame h3
      · right; rw [h3, hout]; exact (hb m rfl).append
    | _ => exact hsame (Eng.keeps_snap (Eng.keeps_input e _ rfl _ hr))

end Flow
end Openraft.Engine
