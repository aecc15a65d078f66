import Verif.Engine.Stuck

/-!
# When the quorum-acknowledged time of a leader stands still

The clock of a leader is a `VecProgress` of times (`proposer/leader.rs:63-69`). As in `Stuck`: while only the nodes in `A` answer, and
all of them are above the granted time, the granted time stays where it is.
-/

set_option autoImplicit false

namespace Openraft.VecProgress
variable {α : Type} [LinearOrder α]

/-- `increase_to` for a node that is above the granted value -/
theorem Above.increase {g : α} {A : NodeId → Prop} {p p' : VecProgress α} {n : NodeId} {v : α} (h : Above g A p) (hA : A n)
    (hu : p.increaseTo n v = some p') : Above g A p' := by
  unfold VecProgress.increaseTo at hu
  cases hi : p.index n with
  | none => rw [hi] at hu; cases hu
  | some i =>
    obtain ⟨x, hx⟩ := Props.index_some hi
    have hlt := h.above _ (List.mem_of_getElem? hx) hA
    rw [hi] at hu
    simp only [hx] at hu
    split at hu
    · next hv => exact h.update hA (lt_trans hlt hv) hu
    · cases hu; exact h

end Openraft.VecProgress

namespace Openraft.Engine
open Openraft.VecProgress (Above)

/-- inputs of a leader while only the nodes in `A` answer heartbeats; log entries are stored and acknowledged by any node -/
def OnlyAck (A : NodeId → Prop) (i : Input) : Prop :=
  OnlyFrom (fun _ => True) i ∧ ∀ s n t, i = .hbProgress s n t → A n

/-- the clock of a leader with the nodes in `A` above the granted time `g` -/
def ClockStuck (g : Option Nat) (A : NodeId → Prop) : PRule := fun _ c _ _ => Above g A c

variable {M : Membership → Prop} {g : Option Nat} {A : NodeId → Prop}

theorem clockStuck_counts {e : Eng} {l : Leader} {n : NodeId} {m : Option LogId} (hp : (ClockStuck g A).on l) :
    Counts (ClockStuck g A) (fun _ => True) e l n m := fun _ _ => ⟨hp, fun _ _ _ => trivial⟩

namespace Eng
variable {dbg : Bool} {now : Nat} {e : Eng}

/-- an input in which only nodes in `A` answer heartbeats leaves the granted time where it is -/
theorem clockStuck_input {g0 : Gh} {l : Leader} (hI : EInv g0 e) (hl : e.leader = some l)
    (h : KInv M (ClockStuck g A) (fun _ => True) e) {i : Input} (hq : OnlyAck A i) :
    KR M (ClockStuck g A) (fun _ => True) id (e.input dbg now i) := by
  have hq1 := hq.1
  cases i with
  | replProgress s target r =>
    simp only [input, coreReplProgress]
    split
    · exact KR.bind fun l hl => k_rhUpdateProgress h (h.clk _ (unwrap_some hl)) _ _ fun m _ => clockStuck_counts (h.clk _ (unwrap_some hl))
    · exact KR.pure h
  | write p =>
    simp only [input]
    refine KR.bindE Prod.snd ?_ fun p hp => KR.pure hp
    unfold writeEntry
    refine KR.bind fun o ho => ?_
    split
    · exact KR.pure h
    · split
      · exact KR.pure h
      · exact KR.bindE id (k_lhAppend_plain h (h.clk _ (leaderHandler_some ho)) hq1) fun e1 h1 => KR.bind fun l _ => KR.pure h1
  | localIO io =>
    simp only [input, coreLocalIO]
    refine KR.bind fun p _ => ?_
    have h1 : KInv M (ClockStuck g A) (fun _ => True) (e.withProg p) := h.same
    split
    · split
      · next l hl =>
        split
        · exact k_rhUpdateLocal h1 _ fun _ => clockStuck_counts (h.clk l hl)
        · exact KR.pure h1
      · exact KR.pure h1
    · exact KR.pure h1
  | hbProgress s target t =>
    simp only [input, coreHbProgress]
    split
    · refine KR.bind fun l hl => ?_
      unfold rhUpdateClock
      refine KR.bind fun c hc => KR.pure (h.lead (l := { l with clock := c }) ?_ rfl {})
      exact Above.increase (h.clk l (unwrap_some hl)) (hq.2 s target t rfl) (unwrap_some hc)
    · exact KR.pure h
  | tick el hb iv => exact k_tick_lead hI hl h
  | heartbeatCmd => exact k_coreHeartbeat h
  | snapshotCmd => exact KR.pure (k_triggerSnapshot h)
  | purgeCmd i => exact k_triggerPurge h _
  | transferCmd t => exact k_triggerTransfer h _
  | built m =>
    simp only [input, coreBuilt]
    exact KR.bindE id (k_finishBuilding h _) fun e1 h1 => KR.bind fun io _ => KR.pure h1.same
  | applied last =>
    simp only [input, coreApplied]
    exact KR.bind fun s _ => KR.pure h.same
  | initiate =>
    simp only [input, coreInitiate]
    refine KR.bind fun o ho => ?_
    split
    · exact KR.pure h
    · exact k_rhInitiate h (h.clk _ (leaderHandler_some ho))
  | _ => exact hq1.elim

end Eng

/-- a leader that stays leader; its granted time is `g` -/
structure StandsC (g0 : Gh) (g : Option Nat) (A : NodeId → Prop) (cfg : Cfg) (v : Vote) (e : Eng) : Prop where
  inv : EInv g0 e
  lead : ∃ l, e.leader = some l
  k : KInv (fun m => m.contains cfg.id = true) (ClockStuck g A) (fun _ => True) e
  cfg : e.cfg = cfg
  vote : e.st.vote.data = v

theorem StandsC.input {g0 : Gh} {cfg : Cfg} {v : Vote} {e e' : Eng} {dbg : Bool} {now : Nat} {i : Input}
    (h : StandsC g0 g A cfg v e) (ho : InputOk e i) (hq : OnlyAck A i) (hr : e.input dbg now i = .ok e') : StandsC g0 g A cfg v e' := by
  obtain ⟨l, hl⟩ := h.lead
  have hI := Eng.inv_input h.inv ho hr
  have hv : e'.st.vote.data = v := (Eng.quiet_vote h.inv hl hq.1 hr).trans h.vote
  have hc : e'.cfg = cfg := (Eng.grow_input (dbg := dbg) (now := now) e i e' hr).1.trans h.cfg
  have hk : KInv (fun m => m.contains cfg.id = true) (ClockStuck g A) (fun _ => True) e' := Eng.clockStuck_input h.inv hl h.k hq _ hr
  refine ⟨hI, ?_, hk, hc, hv⟩
  cases hl' : e'.leader with
  | some l' => exact ⟨l', rfl⟩
  | none =>
    have h1 := hI.pj.nolead hl'
    have hL := h.inv.pj.lead l hl
    have h2 := hL.com
    have h3 := hL.node
    rw [h.vote] at h2 h3
    rw [h.cfg] at h3
    unfold RState.isLeader RState.isLeading at h1
    rw [hc, hv, hk.eff, h2, h3] at h1
    simp at h1

/-- the time that is reported is the granted one, and stays so -/
theorem StandsC.metrics {g0 : Gh} {cfg : Cfg} {v : Vote} {e : Eng} (h : StandsC g0 g A cfg v e) (hme : A cfg.id) (now : Nat) :
    StandsC g0 g A cfg v (e.lastQuorumAcked now).2 ∧ (e.lastQuorumAcked now).1 = g := by
  have f := frame_lastQuorumAcked e now
  obtain ⟨l, hl⟩ := h.lead
  have hL := h.inv.pj.lead l hl
  have hid : A l.vote.leaderId.node := by rw [hL.vote, hL.node, h.cfg]; exact hme
  have hA : Above g A l.clock := h.k.clk l hl
  have hon : Above g A (l.lastQuorumAcked now).2.clock ∧ (l.lastQuorumAcked now).1 = g := by
    unfold Leader.lastQuorumAcked
    split
    · next c hc => exact ⟨hA.increase hid hc, (hA.increase hid hc).granted⟩
    · exact ⟨hA, hA.granted⟩
  refine ⟨⟨f.inv h.inv, ?_, ?_, f.cfg.trans h.cfg, f.vote.trans h.vote⟩, ?_⟩
  · unfold Eng.lastQuorumAcked
    rw [hl]
    exact ⟨_, rfl⟩
  · unfold Eng.lastQuorumAcked
    rw [hl]
    exact h.k.lead (l := (l.lastQuorumAcked now).2) hon.1 rfl {}
  · unfold Eng.lastQuorumAcked
    rw [hl]
    exact hon.2

theorem StandsC.run {g0 : Gh} {cfg : Cfg} {v : Vote} {e e' : Eng} {dbg : Bool} {is : List Input} (h : StandsC g0 g A cfg v e)
    (hme : A cfg.id) (hr : CRun dbg e is e') (hq : ∀ i ∈ is, OnlyAck A i) : StandsC g0 g A cfg v e' := by
  induction hr with
  | nil => exact h
  | input now i _ ho _ _ hr ih => exact (ih fun i hi => hq i (by simp [hi])).input ho (hq i (by simp)) hr
  | metrics now _ ih => exact ((ih hq).metrics hme now).1

end Openraft.Engine
