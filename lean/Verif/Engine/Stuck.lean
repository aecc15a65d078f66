import Verif.Engine.Acked
import Verif.Engine.Won

/-!
# When the granted position of a leader stands still

`VecProgress::update_with` (`progress/mod.rs:320-384`) looks for a new granted position only if the value of the updated voter was
not above the granted one before. `Above g A`: the granted position is `g` and every node in `A` is above it. Then no report of
a node in `A` changes the granted position, and no input changes the committed one as long as only nodes in `A` report (`OnlyFrom`).
-/

set_option autoImplicit false

namespace Openraft.VecProgress
variable {α : Type} [LinearOrder α]

/-- the granted value is `g`, and every node in `A` is above it -/
structure Above (g : α) (A : NodeId → Prop) (p : VecProgress α) : Prop where
  granted : p.granted = g
  nodup : (ids p.vector).Nodup
  above : ∀ e ∈ p.vector, A e.1 → g < e.2

/-- an update of a node that is above the granted value does not change the granted value -/
theorem Above.update {g : α} {A : NodeId → Prop} {p p' : VecProgress α} {n : NodeId} {v : α} (h : Above g A p) (hA : A n) (hv : g < v)
    (hu : p.update n v = some p') : Above g A p' := by
  refine ⟨?_, (update_ids hu).nodup_iff.2 h.nodup, ?_⟩
  · unfold VecProgress.update at hu
    cases hi : p.index n with
    | none => rw [hi] at hu; cases hu
    | some i =>
      obtain ⟨x, hx⟩ := Props.index_some hi
      have hlt := h.above _ (List.mem_of_getElem? hx) hA
      rw [hi] at hu
      simp only [hx] at hu
      split at hu
      · cases hu; exact h.granted
      · split at hu
        · cases hu; exact h.granted
        · rw [if_neg (by rw [h.granted]; exact fun c => absurd c.1 (not_le.2 hlt))] at hu
          cases hu; exact h.granted
  · intro e he hAe
    rcases update_mem hu e he with rfl | h1
    · exact hv
    · exact h.above e h1 hAe

end Openraft.VecProgress

namespace Openraft.Engine
open Openraft.VecProgress (Above)
open Openraft.Cluster (Payload)

/-- inputs of a leader while only the nodes in `A` store and acknowledge log entries: no other vote is seen, no request of another
leader, no membership change -/
def OnlyFrom (A : NodeId → Prop) : Input → Prop
  | .replProgress _ n (.matching _) => A n
  | .replProgress _ _ _ => True
  | .write p => ∀ m, p ≠ .membership m
  | .localIO _ | .hbProgress _ _ _ | .tick _ _ _ | .heartbeatCmd | .snapshotCmd | .purgeCmd _ | .transferCmd _ | .built _
  | .applied _ | .initiate => True
  | _ => False

/-- the progress of a leader with the nodes in `A` above the granted position `g` -/
def StuckRule (g : Option LogId) (A : NodeId → Prop) : PRule := fun _ _ v f => Above g A v ∧ ∀ e ∈ v.vector, e.2 = f e.1

variable {M : Membership → Prop} {C : Option LogId → Prop} {g : Option LogId} {A : NodeId → Prop}

/-- counting a report of a node in `A` -/
theorem stuck_counts {e : Eng} {l : Leader} {n : NodeId} {m : Option LogId} (hp : (StuckRule g A).on l) (hA : A n) (hm : l.mt n ≤ m)
    (hg : C g) : Counts (StuckRule g A) C e l n m := by
  intro vp hu
  have hlt : g < m := by
    obtain ⟨_, i, x, hx, _⟩ := VecProgress.update_vector hu
    have hmem := List.mem_of_getElem? hx
    have h1 := hp.1.above _ hmem hA
    have h2 : x = l.mt n := hp.2 _ hmem
    exact lt_of_lt_of_le h1 (h2 ▸ hm)
  refine ⟨⟨hp.1.update hA hlt hu, update_vals hp.1.nodup hp.2 hu⟩, ?_⟩
  intro x hx _
  rw [← hx, (hp.1.update hA hlt hu).granted]; exact hg

namespace Eng
variable {P : PRule} {dbg : Bool} {now : Nat} {e : Eng}

theorem k_lhAppend_plain {l : Leader} (h : KInv M P C e) (hl : P.on l) {p : Payload} (hp : ∀ m, p ≠ .membership m) :
    KR M P C id (e.lhAppend dbg l [p]) := by
  unfold lhAppend
  rw [if_neg (by simp)]
  refine KR.bind fun _ _ => KR.bind fun ids _ => KR.bind fun _ _ => KR.bind fun st hst => ?_
  have hms := acceptIo_ms hst
  have hst : (assign l.vote.leaderId (nextIndex l.lastLogId) [p]).filterMap (·.stored?) = [] := by
    cases p with
    | membership m => exact absurd rfl (hp m)
    | _ => rfl
  rw [hst]
  have h1 : KInv M P C (Eng.push { e with st := st, leader := some { l with lastLogId := (assign l.vote.leaderId (nextIndex l.lastLogId) [p]).getLast?.map (·.id) } }
      (.append l.vote (assign l.vote.leaderId (nextIndex l.lastLogId) [p]))) := h.lead hl rfl {} hms rfl
  refine KR.bindE id (KR.pure (π := id) h1) fun e2 h2 => ?_
  exact KR.bind fun l2 hl2 => k_rhInitiate h2 (h2.clk l2 (unwrap_some hl2))

theorem k_tick_lead {g0 : Gh} {l : Leader} (hI : EInv g0 e) (hl : e.leader = some l) (h : KInv M P C e) {el hb : Bool} {iv : Nat} :
    KR M P C id (e.coreTick dbg now el hb iv) := by
  unfold coreTick
  have hL := hI.pj.lead l hl
  have h1 : e.tickElection dbg now el = pure e := by
    unfold tickElection
    rw [if_pos hL.srv]
  rw [h1]
  refine KR.bind fun e1 he1 => ?_
  rw [pure_ok] at he1
  subst he1
  refine KR.bind fun e2 he2 => ?_
  have h2 := k_tickHeartbeat (dbg := dbg) (now := now) h hb iv e2 he2
  have hk : ∃ l2, e2.leader = some l2 ∧ l2.vote = l.vote ∧ e2.st = e.st := by
    unfold tickHeartbeat at he2
    rw [hl] at he2
    dsimp only at he2
    split at he2
    · have hgo : ∀ x : Res Eng, (∀ e3, x = .ok e3 → e3.leader = e.leader ∧ e3.st = e.st) →
          (x >>= fun e1 => (pure { e1 with leader := e1.leader.map fun l => { l with nextHeartbeat := now + iv } } : Res Eng)) = .ok e2 →
          ∃ l2, e2.leader = some l2 ∧ l2.vote = l.vote ∧ e2.st = e.st := by
        intro x hx h
        rw [bind_ok] at h
        obtain ⟨e3, he3, h⟩ := h
        rw [pure_ok] at h
        have h3 := hx e3 he3
        subst h
        refine ⟨{ l with nextHeartbeat := now + iv }, ?_, rfl, h3.2⟩
        show e3.leader.map _ = _
        rw [h3.1, hl]; rfl
      split at he2
      · refine hgo _ ?_ he2
        intro e3 he3
        unfold coreHeartbeat at he3
        rw [bind_ok] at he3
        obtain ⟨o, _, he3⟩ := he3
        split at he3
        · rw [pure_ok] at he3; subst he3; exact ⟨rfl, rfl⟩
        · split at he3 <;> (rw [pure_ok] at he3; subst he3; exact ⟨rfl, rfl⟩)
      · refine hgo _ ?_ he2
        intro e3 he3
        rw [pure_ok] at he3; subst he3; exact ⟨rfl, rfl⟩
    · rw [pure_ok] at he2
      subst he2
      exact ⟨l, hl, rfl, rfl⟩
  obtain ⟨l2, hl2, hv2, hs2⟩ := hk
  split
  · unfold leaderStepDown
    split
    · unfold updateInternal
      split
      · unfold becomeLeader
        rw [hl2]
        have hi : l2.vote.leaderId = e2.st.vote.data.leaderId := by rw [hv2, hs2, hL.vote]
        dsimp only
        rw [if_pos hi]
        exact KR.pure (h2.lead (l' := { l2 with vote := e2.st.vote.data.toCommitted }) (h2.clk l2 hl2) rfl ⟨hi.symm, rfl, rfl, rfl⟩)
      · split
        · exact KR.pure h2
        · exact k_becomeFollowing h2
    · exact KR.pure h2
  · exact KR.pure h2

/-- a quiet input leaves the granted position where it is -/
theorem stuck_input {g0 : Gh} {l : Leader} (hI : EInv g0 e) (hl : e.leader = some l) (h : KInv M (StuckRule g A) C e) (hg : C g)
    (hme : A e.cfg.id) {i : Input} (hq : OnlyFrom A i) (hgr : Grows e i) : KR M (StuckRule g A) C id (e.input dbg now i) := by
  cases i with
  | replProgress s target r =>
    simp only [input, coreReplProgress]
    split
    · next hs =>
      refine KR.bind fun l hl => k_rhUpdateProgress h (h.clk _ (unwrap_some hl)) _ _ ?_
      intro m hr
      subst hr
      exact stuck_counts (h.clk l (unwrap_some hl)) hq (hgr hs l (unwrap_some hl)) hg
    · exact KR.pure h
  | write p =>
    simp only [input]
    refine KR.bindE Prod.snd ?_ fun p hp => KR.pure hp
    unfold writeEntry
    refine KR.bind fun o ho => ?_
    split
    · exact KR.pure h
    · split
      · exact KR.pure h
      · exact KR.bindE id (k_lhAppend_plain h (h.clk _ (leaderHandler_some ho)) hq) fun e1 h1 => KR.bind fun l _ => KR.pure h1
  | localIO io =>
    simp only [input, coreLocalIO]
    refine KR.bind fun p _ => ?_
    have h1 : KInv M (StuckRule g A) C (e.withProg p) := h.same
    split
    · split
      · next l hl =>
        split
        · exact k_rhUpdateLocal h1 _ fun hu => stuck_counts (h.clk l hl) hme (le_of_lt (not_le.1 hu)) hg
        · exact KR.pure h1
      · exact KR.pure h1
    · exact KR.pure h1
  | hbProgress s target t =>
    simp only [input, coreHbProgress]
    split
    · refine KR.bind fun l hl => ?_
      unfold rhUpdateClock
      exact KR.bind fun c hc => KR.pure (h.lead (l := { l with clock := c }) (h.clk l (unwrap_some hl)) rfl {})
    · exact KR.pure h
  | tick el hb iv => exact k_tick_lead hI hl h
  | heartbeatCmd => exact k_coreHeartbeat h
  | snapshotCmd => exact KR.pure (k_triggerSnapshot h)
  | purgeCmd i => exact k_triggerPurge h _
  | transferCmd t => exact k_triggerTransfer h _
  | built m =>
    simp only [input, coreBuilt]
    exact KR.bindE id (k_finishBuilding h _) fun e1 h1 => KR.bind fun io _ => KR.pure h1.same
  | applied last =>
    simp only [input, coreApplied]
    exact KR.bind fun s _ => KR.pure h.same
  | initiate =>
    simp only [input, coreInitiate]
    refine KR.bind fun o ho => ?_
    split
    · exact KR.pure h
    · exact k_rhInitiate h (h.clk _ (leaderHandler_some ho))
  | _ => exact hq.elim

/-- a leader does not change its vote in a quiet input -/
theorem quiet_vote {g0 : Gh} {e' : Eng} {l : Leader} (hI : EInv g0 e) (hl : e.leader = some l) {i : Input} (hq : OnlyFrom A i)
    (hr : e.input dbg now i = .ok e') : e'.st.vote.data = e.st.vote.data := by
  by_cases ht : ∃ el hb iv, i = .tick el hb iv
  · obtain ⟨el, hb, iv, rfl⟩ := ht
    have hr : e.coreTick dbg now el hb iv = .ok e' := hr
    unfold coreTick at hr
    simp only [bind_ok] at hr
    obtain ⟨e1, h1, e2, h2, hr⟩ := hr
    unfold tickElection at h1
    rw [if_pos (hI.pj.lead l hl).srv, pure_ok] at h1
    subst h1
    have k2 := (vf_tickHeartbeat _ _ _ _ h2).noSave (emits_tickHeartbeat _ _ _ _ h2)
    split at hr
    · exact ((vf_leaderStepDown _ _ hr).noSave (emits_leaderStepDown _ _ hr)).trans k2
    · rw [pure_ok] at hr; subst hr; exact k2
  · refine (vf_input _ _ _ hr).noSave ((?_ : EmitsR NoSave id e (e.input dbg now i)) _ hr)
    cases i with
    | write p =>
      simp only [input]
      exact EmitsR.bindE Prod.snd (emits_writeEntry _ _) fun p => EmitsR.pure (Emits.refl _)
    | heartbeatCmd => exact emits_coreHeartbeat _
    | snapshotCmd => exact EmitsR.pure (emits_triggerSnapshot _)
    | purgeCmd i => exact emits_triggerPurge _ _
    | transferCmd t => exact emits_triggerTransfer _ _
    | localIO io =>
      simp only [input, coreLocalIO]
      refine EmitsR.bind fun p => ?_
      split
      · split
        · split
          · exact EmitsR.from' (e1 := e.withProg p) (emits_same rfl rfl) (emits_rhUpdateLocal _ _ _)
          · exact EmitsR.pure (emits_same rfl rfl)
        · exact EmitsR.pure (emits_same rfl rfl)
      · exact EmitsR.pure (emits_same rfl rfl)
    | replProgress s target r =>
      simp only [input, coreReplProgress]
      split
      · exact EmitsR.bind fun l => emits_rhUpdateProgress _ _ _ _
      · exact EmitsR.pure (Emits.refl _)
    | hbProgress s target t =>
      simp only [input, coreHbProgress]
      split
      · exact EmitsR.bind fun l => emits_rhUpdateClock _ _ _ _
      · exact EmitsR.pure (Emits.refl _)
    | built m =>
      simp only [input, coreBuilt]
      exact EmitsR.bindE id (emits_finishBuilding _ _) fun e1 => EmitsR.bind fun io => EmitsR.pure (emits_same rfl rfl)
    | applied last =>
      simp only [input, coreApplied]
      exact EmitsR.bind fun s => EmitsR.pure (emits_same rfl rfl)
    | initiate =>
      simp only [input, coreInitiate]
      refine EmitsR.bind fun o => ?_
      split
      · exact EmitsR.pure (Emits.refl _)
      · exact emits_rhInitiate _ _
    | tick el hb iv => exact absurd ⟨el, hb, iv, rfl⟩ ht
    | _ => exact hq.elim

end Eng

/-- a leader that stays leader; its granted position is `g`, nothing above `c0` is committed -/
structure Stands (g0 : Gh) (g c0 : Option LogId) (A : NodeId → Prop) (cfg : Cfg) (v : Vote) (e : Eng) : Prop where
  inv : EInv g0 e
  lead : ∃ l, e.leader = some l
  k : KInv (fun m => m.contains cfg.id = true) (StuckRule g A) (· ≤ c0) e
  cfg : e.cfg = cfg
  vote : e.st.vote.data = v

theorem Stands.input {g0 : Gh} {g c0 : Option LogId} {cfg : Cfg} {v : Vote} {e e' : Eng} {dbg : Bool} {now : Nat} {i : Input}
    (h : Stands g0 g c0 A cfg v e) (hg : g ≤ c0) (hme : A cfg.id) (ho : InputOk e i) (hq : OnlyFrom A i) (hgr : Grows e i)
    (hr : e.input dbg now i = .ok e') : Stands g0 g c0 A cfg v e' := by
  obtain ⟨l, hl⟩ := h.lead
  have hI := Eng.inv_input h.inv ho hr
  have hv : e'.st.vote.data = v := (Eng.quiet_vote h.inv hl hq hr).trans h.vote
  have hc : e'.cfg = cfg := (Eng.grow_input (dbg := dbg) (now := now) e i e' hr).1.trans h.cfg
  have hk : KInv (fun m => m.contains cfg.id = true) (StuckRule g A) (· ≤ c0) e' :=
    Eng.stuck_input h.inv hl h.k hg (by rw [h.cfg]; exact hme) hq hgr _ hr
  refine ⟨hI, ?_, hk, hc, hv⟩
  cases hl' : e'.leader with
  | some l' => exact ⟨l', rfl⟩
  | none =>
    have h1 := hI.pj.nolead hl'
    have hL := h.inv.pj.lead l hl
    have h2 := hL.com
    have h3 := hL.node
    rw [h.vote] at h2 h3
    rw [h.cfg] at h3
    unfold RState.isLeader RState.isLeading at h1
    rw [hc, hv, hk.eff, h2, h3] at h1
    simp at h1

theorem Stands.metrics {g0 : Gh} {g c0 : Option LogId} {cfg : Cfg} {v : Vote} {e : Eng} (h : Stands g0 g c0 A cfg v e) (now : Nat) :
    Stands g0 g c0 A cfg v (e.lastQuorumAcked now).2 := by
  have f := frame_lastQuorumAcked e now
  refine ⟨f.inv h.inv, ?_, ?_, f.cfg.trans h.cfg, f.vote.trans h.vote⟩
  · obtain ⟨l, hl⟩ := h.lead
    unfold Eng.lastQuorumAcked
    rw [hl]
    exact ⟨_, rfl⟩
  · unfold Eng.lastQuorumAcked
    cases hl : e.leader with
    | none => exact h.k
    | some l =>
      refine h.k.lead (l := (l.lastQuorumAcked now).2) ?_ rfl {}
      have := h.k.clk l hl
      unfold Leader.lastQuorumAcked
      split <;> exact this

/-- as long as only the nodes in `A` report, nothing above `c0` is committed -/
theorem Stands.run {g0 : Gh} {g c0 : Option LogId} {cfg : Cfg} {v : Vote} {e e' : Eng} {dbg : Bool} {is : List Input}
    (h : Stands g0 g c0 A cfg v e) (hg : g ≤ c0) (hme : A cfg.id) (hr : CRun dbg e is e') (hq : ∀ i ∈ is, OnlyFrom A i) :
    Stands g0 g c0 A cfg v e' := by
  induction hr with
  | nil => exact h
  | input now i _ ho _ hgr hr ih =>
    exact (ih fun i hi => hq i (by simp [hi])).input hg hme ho (hq i (by simp)) hgr hr
  | metrics now _ ih => exact (ih hq).metrics now

end Openraft.Engine
