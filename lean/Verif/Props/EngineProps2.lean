import Verif.Props.EngineProps
import Verif.Props.ProgressProps
import Verif.Engine.Cand

/-!
# Properties of the engine: purging, snapshots, membership, start of a cluster, elections

C20 (continued), C21, C30, C33 and C40.
-/

set_option autoImplicit false

namespace Openraft.Props
open Openraft.Engine Openraft.Engine.Demo LogIdList
open Openraft.Cluster (Payload)
open Openraft.Repl (Panic)

variable {g0 : Gh} {dbg : Bool} {now : Nat} {e e' e0 : Eng} {i : Input}

/-! ## C20, continued -/

/-- the leader of a cluster of one voter and one learner, nothing yet sent to the learner -/
def m1l : Membership := ⟨[[1]], [(1, 0), (2, 0)]⟩
/-- as `cfg`, but two logs are kept -/
def cfg2 : Cfg := { cfg with maxKeep := 2 }
/-- two entries are written, a snapshot is built, the user asks for a purge -/
def w20 : List (Nat × List LogId × Input) := [
  (1, [], .init 7 m1l), (2, [], .voteResp 1 ⟨⟨1, 1⟩, false⟩ none true ⟨⟨1, 1⟩, false⟩),
  (3, [], .localIO ⟨⟨⟨1, 1⟩, true⟩, some (lid 1 1 1)⟩),
  (4, [], .write (.normal 5)), (5, [], .localIO ⟨⟨⟨1, 1⟩, true⟩, some (lid 1 1 2)⟩),
  (6, [], .write (.normal 6)), (7, [], .localIO ⟨⟨⟨1, 1⟩, true⟩, some (lid 1 1 3)⟩),
  (8, [], .built ⟨some (lid 1 1 2), ⟨some (lid 0 0 0), m1l⟩, 3⟩), (9, [], .initiate)]
/-- the state after that -/
def s20 : Eng := runTo (Eng.fresh cfg2 0) w20
theorem s20_run : Eng.Run true (Eng.fresh cfg2 0) s20 := run_of_allOk .refl (by decide +kernel)

/-- the purge to index 0 waits for the logs in flight to node 2 -/
example : s20.st.purgeUpto = some (lid 0 0 0) ∧ s20.st.lastPurged = none ∧
    (s20.leader.map fun l => (l.progress.ent 2).inflight) = some (.logs none (some (lid 1 1 1))) := by decide +kernel

/-- once node 2 has the logs, the purge is done, and nothing is in flight that needs them -/
example : ∃ e', s20.input true 10 (.replProgress ⟨⟨⟨1, 1⟩, true⟩, some (lid 0 0 0)⟩ 2 (.matching (some (lid 1 1 1)))) = .ok e' ∧
    InputOk s20 (.replProgress ⟨⟨⟨1, 1⟩, true⟩, some (lid 0 0 0)⟩ 2 (.matching (some (lid 1 1 1)))) ∧
    .purge (lid 0 0 0) ∈ e'.out ∧ .purge (lid 0 0 0) ∉ s20.out ∧ e'.leader.isSome :=
  ⟨_, afterR_ok (by decide +kernel), okB_ok (lead := []) (by decide +kernel), by decide +kernel, by decide +kernel, by decide +kernel⟩

/-- the user asks for more than the policy would purge -/
def w20b : List (Nat × List LogId × Input) := [(10, [], .purgeCmd 2)]
/-- the state after that -/
def s20b : Eng := runTo s20 w20b
theorem s20b_run : Eng.Run true (Eng.fresh cfg2 0) s20b := run_of_allOk s20_run (by decide +kernel)

/-- The position scheduled for purging goes back when a snapshot is built while a user's purge waits;
debug builds abort. The purged position itself does not go back (`C20_purges_forward`). -/
theorem C20_scheduled_goes_back : ∃ (e e' : Eng) (m : SnapMeta), Eng.Run true (Eng.fresh cfg2 0) e ∧ InputOk e (.built m) ∧
    e.input false 11 (.built m) = .ok e' ∧ e'.st.purgeUpto < e.st.purgeUpto ∧
    e.input true 11 (.built m) = .error .debugAssert :=
  ⟨s20b, afterR false 11 s20b (.built ⟨some (lid 1 1 3), ⟨some (lid 0 0 0), m1l⟩, 4⟩), ⟨some (lid 1 1 3), ⟨some (lid 0 0 0), m1l⟩, 4⟩,
    s20b_run, okB_ok (lead := []) (by decide +kernel), afterR_ok (by decide +kernel), by decide +kernel,
    stops_some (by decide +kernel)⟩

/-! ## C21 -/

/-- What a snapshot does to a node, for every state and every snapshot of a leader:
* an old leader's is refused;
* one at or below the committed position changes nothing;
* else committed, snapshot and purged position become the snapshot's; the logs after it are kept if the
  log agrees with the snapshot, else none is kept; the effective membership is the later one of the
  snapshot's and the kept log's. -/
theorem C21_install {tx : Nat} {v : Vote} {m : SnapMeta} (h : EInv g0 e) (ho : InputOk e (.snapReq tx v m))
    (hr : e.input dbg now (.snapReq tx v m) = .ok e') :
    (¬ e.st.vote.data ≤ v → e'.st = e.st) ∧
    (e.st.vote.data ≤ v → m.lastLogId ≤ e.st.committed →
      expand e'.st.logIds = expand e.st.logIds ∧ e'.st.committed = e.st.committed ∧ e'.st.snap = e.st.snap ∧
      e'.st.lastPurged = e.st.lastPurged ∧ e'.st.ms = e.st.ms) ∧
    (e.st.vote.data ≤ v → ∀ x, m.lastLogId = some x → e.st.committed < some x →
      e'.st.committed = some x ∧ e'.st.snap = m ∧ e'.st.lastPurged = some x ∧
      expand e'.st.logIds =
        (if x ∈ expand e.st.logIds then (expand e.st.logIds).filter (fun y => decide (x.index ≤ y.index)) else [x]) ∧
      e'.st.ms.effective =
        if x ∈ expand e.st.logIds ∧ nextIndex m.mem.logId < nextIndex e.st.ms.effective.logId then e.st.ms.effective
        else m.mem) := by
  have hr' : e.handleInstall dbg now tx v m = .ok e' := hr
  unfold Eng.handleInstall at hr'
  rw [bind_ok] at hr'
  obtain ⟨⟨ok, e1⟩, he1, hr'⟩ := hr'
  have hv : v.leaderId.node = e.cfg.id → v ≤ e.st.vote.data := by
    intro hn
    by_cases hle : e.st.vote.data ≤ v
    · exact absurd hn (ho hle).1
    · exact le_of_lt (not_le.1 hle)
  obtain ⟨hinv, hok, hnok, hb⟩ := Eng.inv_updateVote h hv he1
  cases ok with
  | false =>
    have hle : ¬ e.st.vote.data ≤ v := fun hle => by simpa using hok.2 hle
    have := hnok rfl; subst this
    simp only [Bool.false_eq_true, if_false, pure_ok] at hr'
    subst hr'
    exact ⟨fun _ => rfl, fun hx => absurd hx hle, fun hx => absurd hx hle⟩
  | true =>
    have hle := hok.1 rfl
    obtain ⟨hnd, hcm, hso⟩ := ho hle
    have hbe := hb rfl hcm hnd
    simp only [if_true, bind_ok, pure_ok] at hr'
    obtain ⟨lv, hlv, ⟨cond, e2⟩, he2, hr'⟩ := hr'
    have hlv' := Eng.followingHandler_ok hlv
    rw [toCommitted_eq hbe.fol.com] at hlv'
    subst hlv'
    have hst : e'.st = e2.st := by rw [← hr']; rfl
    refine ⟨fun hx => absurd hle hx, fun _ hc => ?_, fun _ x hx hlt => ?_⟩
    · have : e2 = e1 := by
        unfold Eng.fhInstall at he2
        rw [if_pos (by rw [hbe.com]; exact hc), pure_ok] at he2
        cases he2; rfl
      subst this
      rw [hst]
      refine ⟨hbe.L, hbe.com, hbe.snap, ?_, hbe.ms⟩
      have := congrArg LogV.lastPurged hbe.lv
      exact this
    · have hlt' : e1.st.committed < some x := by rw [hbe.com]; exact hlt
      have hso1 := hso x hx hlt
      have hso' : Eng.SnapOk e1 e1.st.vote.data m x := by
        rw [hbe.vote]
        refine ⟨hso1.leader, by rw [hbe.com]; exact hso1.ahead, by rw [hbe.L, hbe.floor]; exact hso1.agree, ?_,
          by rw [hbe.L, hbe.ms, hbe.com]; exact hso1.conflict, by rw [hbe.L, hbe.ms]; exact hso1.inside,
          by rw [hbe.L, hbe.ms, hbe.com]; exact hso1.beyond⟩
        intro a _ ha hi
        rw [hbe.acc] at ha
        split at ha
        · next heq => exact hso1.acc a heq ha hi
        · cases ha
      have := Eng.fhInstall_shape hinv hbe.fol hx hlt' hso' he2
      rw [hst]
      have hL : e1.st.lv.L = e.st.lv.L := hbe.L
      rw [hL, hbe.ms] at this
      exact this

/-- a snapshot inside the log: the logs after it stay -/
example : ∃ e', f2.input true 3 (.snapReq 9 v2 ⟨some (lid 1 2 2), ⟨some (lid 1 2 0), m3⟩, 5⟩) = .ok e' ∧
    InputOk f2 (.snapReq 9 v2 ⟨some (lid 1 2 2), ⟨some (lid 1 2 0), m3⟩, 5⟩) ∧
    f2.st.committed = some (lid 1 2 1) ∧ expand e'.st.logIds = [lid 1 2 2, lid 1 2 3] :=
  ⟨_, afterR_ok (by decide +kernel), okB_ok (lead := []) (by decide +kernel), by decide +kernel, by decide +kernel⟩

/-- a snapshot beyond the log: nothing stays -/
example : ∃ e', f2.input true 3 (.snapReq 9 v3 ⟨some (lid 2 3 5), ⟨some (lid 1 2 0), m3⟩, 5⟩) = .ok e' ∧
    InputOk f2 (.snapReq 9 v3 ⟨some (lid 2 3 5), ⟨some (lid 1 2 0), m3⟩, 5⟩) ∧
    expand e'.st.logIds = [lid 2 3 5] ∧ e'.st.ms.effective = ⟨some (lid 1 2 0), m3⟩ :=
  ⟨_, afterR_ok (by decide +kernel), okB_ok (lead := []) (by decide +kernel), by decide +kernel, by decide +kernel⟩

/-! ## C30 -/

theorem memOf_stored : Spec.memOf = Ent.stored? := by
  funext x
  unfold Spec.memOf Ent.stored? Ent.membership?
  cases x.payload <;> rfl

theorem mems_of_runs (g : Gh) (cs : List Cmd) (h : g.Oks cs) :
    (g.runs cs).mems = Spec.memsAfter g.base g.snapMem g.store.entries cs := by
  induction cs generalizing g with
  | nil => show g.base :: g.store.entries.filterMap (fun x => x.stored?) = g.base :: g.store.entries.filterMap Spec.memOf; rw [memOf_stored]
  | cons c cs ih =>
    have := ih (g.run c) h.2
    cases c with
    | sm s => cases s <;> exact this
    | purge u =>
      refine Eq.trans this ?_
      have hb : (g.run (.purge u)).base = if (g.store.entries.getLast?.any fun x => decide (u.index ≤ x.id.index)) then
          ((g.store.entries.filter fun x => decide (x.id.index ≤ u.index)).filterMap Spec.memOf).getLast?.getD g.base
          else g.snapMem := by
        show (if nextIndex g.store.lastLogId ≤ u.index then g.snapMem else _) = _
        have hok : nextIndex g.store.purged ≤ u.index := h.1.1
        have hiff : nextIndex g.store.lastLogId ≤ u.index ↔
            ¬ (g.store.entries.getLast?.any fun x => decide (u.index ≤ x.id.index)) = true := by
          unfold LogStore.lastLogId
          cases hl : g.store.entries.getLast? with
          | none => simpa using hok
          | some y => simp; omega
        by_cases hx : nextIndex g.store.lastLogId ≤ u.index
        · rw [if_pos hx, if_neg (hiff.1 hx)]
        · rw [if_neg hx, if_pos (by by_contra hn; exact hx (hiff.2 hn)), memOf_stored]
      rw [hb]
      rfl
    | _ => exact this

/-- In every execution the effective membership is the last one the node can find: the last of the log,
or the one at the purged position (the snapshot's after an installation). The committed membership is
that one or the one before it, and it is that one if it is at or below the committed position.
Missing from C30: a snapshot beyond the log whose membership is older than one of the dropped log
(excluded by `SnapOk.beyond`, see `C30_phantom`); and the committed membership need not be committed
(see `C30_committed_is_not`). -/
theorem C30_effective_is_last_partial (h0 : EInv g0 e0) (h : Eng.Run dbg e0 e) :
    (Spec.memsAfter g0.base g0.snapMem g0.store.entries e.out).getLast? = some e.st.ms.effective ∧
    (e.st.ms.committed = e.st.ms.effective ∨
      (Spec.memsAfter g0.base g0.snapMem g0.store.entries e.out).dropLast.getLast? = some e.st.ms.committed) ∧
    (nextIndex e.st.ms.effective.logId ≤ nextIndex e.st.committed → e.st.ms.committed = e.st.ms.effective) := by
  have hi := h.inv h0
  rw [← mems_of_runs _ _ hi.lm.oks]
  exact ⟨hi.lm.mem.eff, hi.lm.mem.com, hi.lm.mem.ce⟩

/-- a membership of the cluster after nodes 2 and 3 left -/
def m1x : Membership := ⟨[[1, 2, 3], [1]], [(1, 0), (2, 0), (3, 0)]⟩

/-- a new membership is appended, committed later, and then purged with the log -/
example : ∃ e, Eng.Run true f0 e ∧ e.st.ms.effective = ⟨some (lid 1 2 2), m1x⟩ ∧ e.st.ms.committed = ⟨some (lid 1 2 0), m3⟩ ∧
    (Spec.memsAfter Gh.empty.base Gh.empty.snapMem [] e.out).length = 3 :=
  ⟨runTo f0 [(1, [lid 1 2 0, lid 1 2 1], i1),
      (2, [lid 1 2 0, lid 1 2 1, lid 1 2 2], .appendReq 8 v2 (some (lid 1 2 1)) [⟨lid 1 2 2, .membership m1x⟩] (some (lid 1 2 1)))],
    run_of_allOk .refl (by decide +kernel), by decide +kernel, by decide +kernel, by decide +kernel⟩

/-- entries of leader 2 with a membership at index 2; only the first is committed -/
def w30 : List (Nat × List LogId × Input) := [
  (1, [lid 1 2 0, lid 1 2 1, lid 1 2 2], .appendReq 7 v2 none
    [⟨lid 1 2 0, .membership m3⟩, ⟨lid 1 2 1, .blank⟩, ⟨lid 1 2 2, .membership m1x⟩] (some (lid 1 2 0)))]
/-- the state after that -/
def s30 : Eng := runTo f0 w30
theorem s30_run : Eng.Run true f0 s30 := run_of_allOk .refl (by decide +kernel)
/-- the snapshot of leader 3, who never had the entry at index 2 of leader 2 -/
def b30 : SnapMeta := ⟨some (lid 2 3 5), ⟨some (lid 1 2 0), m3⟩, 5⟩

/-- C30 and C21 are false for the code: a snapshot beyond the log drops the whole log, but the node goes
on to use the membership of a dropped entry. -/
theorem C30_phantom : ∃ e', s30.input true 3 (.snapReq 9 v3 b30) = .ok e' ∧
    expand e'.st.logIds = [lid 2 3 5] ∧ e'.st.snap = b30 ∧
    e'.st.ms.effective = ⟨some (lid 1 2 2), m1x⟩ ∧ b30.mem = ⟨some (lid 1 2 0), m3⟩ ∧
    (Spec.memsAfter Gh.empty.base Gh.empty.snapMem [] e'.out).getLast? = some b30.mem :=
  ⟨_, afterR_ok (by decide +kernel), by decide +kernel, by decide +kernel, by decide +kernel, rfl, by decide +kernel⟩

/-- The committed membership need not be committed: two membership entries in one request. -/
theorem C30_committed_is_not : ∃ e, Eng.Run true f0 e ∧ e.st.ms.committed.logId = some (lid 1 2 0) ∧
    e.st.committed = none :=
  ⟨runTo f0 [(1, [lid 1 2 0, lid 1 2 1, lid 1 2 2], .appendReq 7 v2 none
    [⟨lid 1 2 0, .membership m3⟩, ⟨lid 1 2 1, .blank⟩, ⟨lid 1 2 2, .membership m1x⟩] none)],
    run_of_allOk .refl (by decide +kernel), by decide +kernel, by decide +kernel⟩

/-! ## C33 -/

/-- what the start of an election leaves -/
theorem elect_st (hr : e.elect dbg now = .ok e') :
    e'.st.logIds = e.st.logIds ∧ e'.st.ms = e.st.ms ∧ e'.st.vote.data = ⟨⟨e.st.vote.data.leaderId.term + 1, e.cfg.id⟩, false⟩ ∧
    e'.cfg = e.cfg ∧ e'.out = e.out ++ [.saveVote e'.st.vote.data, .sendVote e'.st.vote.data e.st.lastLogId] := by
  unfold Eng.elect at hr
  simp only [bind_ok] at hr
  obtain ⟨⟨ok, e2⟩, he2, _, _, hr⟩ := hr
  rw [pure_ok] at hr
  have hlt := Eng.vote_lt_new (v := e.st.vote.data) e.cfg.id
  unfold Eng.updateVote at he2
  rw [if_pos (show e.st.vote.data ≤ Vote.new (e.st.vote.data.leaderId.term + 1) e.cfg.id from le_of_lt hlt)] at he2
  simp only [bind_ok, pure_ok] at he2
  obtain ⟨e3, he3, e4, he4, he2⟩ := he2
  cases he2
  unfold Eng.storeVote at he3
  rw [if_pos (show e.st.vote.data < Vote.new (e.st.vote.data.leaderId.term + 1) e.cfg.id from hlt)] at he3
  simp only [bind_ok, pure_ok] at he3
  obtain ⟨st, hst, he3⟩ := he3
  have hio : ∃ io, st = { e.st with vote := e.st.vote.update now 0 (Vote.new (e.st.vote.data.leaderId.term + 1) e.cfg.id), io := io } :=
    ⟨_, acceptIo_ok hst⟩
  obtain ⟨io, hio⟩ := hio
  have h2 : e2.st.logIds = e.st.logIds ∧ e2.st.ms = e.st.ms ∧
      e2.st.vote.data = Vote.new (e.st.vote.data.leaderId.term + 1) e.cfg.id ∧ e2.cfg = e.cfg ∧
      e2.out = e.out ++ [.saveVote (Vote.new (e.st.vote.data.leaderId.term + 1) e.cfg.id)] := by
    unfold Eng.updateInternal at he4
    have hnl : e3.st.isLeader e3.cfg.id = false := by
      rw [← he3]
      show st.isLeader _ = false
      rw [hio]
      unfold RState.isLeader
      show (_ && false) = false
      simp
    rw [if_neg (by rw [hnl]; simp)] at he4
    split at he4
    · rw [pure_ok] at he4
      rw [← he4, ← he3, hio]
      exact ⟨rfl, rfl, rfl, rfl, rfl⟩
    · unfold Eng.becomeFollowing at he4
      simp only [bind_ok, pure_ok] at he4
      obtain ⟨_, _, he4⟩ := he4
      rw [← he4, ← he3, hio]
      exact ⟨rfl, rfl, rfl, rfl, rfl⟩
  obtain ⟨a1, a2, a3, a4, a5⟩ := h2
  rw [← hr]
  refine ⟨a1, a2, a3, a4, ?_⟩
  show e2.out ++ [.sendVote _ _] = e.out ++ [.saveVote e2.st.vote.data, .sendVote e2.st.vote.data _]
  rw [a5, a3]; simp

/-- a node that never had a log or a vote -/
def Pristine (e : Eng) : Prop := e.st.lastLogId = none ∧ e.st.vote.data = ⟨⟨0, 0⟩, false⟩

theorem not_initialized : e.st.isInitialized = false ↔ Pristine e := by
  unfold RState.isInitialized Pristine
  simp

/-- On a node that is not pristine, or for a membership without this node as a voter, `initialize`
changes nothing and answers with an error. -/
theorem C33_refused {tx : Nat} {m : Membership} (hn : ¬ (Pristine e ∧ m.isVoter e.cfg.id = true))
    (hr : e.input dbg now (.init tx m) = .ok e') :
    e' = { e with out := e.out ++ [.respond none tx (.init false)] } := by
  simp only [Eng.input, Eng.coreInit, bind_ok, pure_ok] at hr
  obtain ⟨⟨ok, e1⟩, he1, hr⟩ := hr
  have : ok = false ∧ e1 = e := by
    unfold Eng.initCluster at he1
    split at he1
    · rw [pure_ok] at he1; cases he1; exact ⟨rfl, rfl⟩
    · next h1 =>
      split at he1
      · rw [pure_ok] at he1; cases he1; exact ⟨rfl, rfl⟩
      · next h2 => exact absurd ⟨not_initialized.1 (by simpa using h1), by simpa using h2⟩ hn
  obtain ⟨rfl, rfl⟩ := this
  rw [← hr]; rfl

/-- On a pristine node, for a membership with this node as a voter, `initialize` writes the membership as
the first log, starts an election and answers with success once the log is stored. -/
theorem C33_accepted {tx : Nat} {m : Membership} (h : EInv g0 e) (hp : Pristine e) (hm : m.isVoter e.cfg.id = true)
    (hr : e.input dbg now (.init tx m) = .ok e') :
    expand e'.st.logIds = [⟨⟨0, 0⟩, 0⟩] ∧ e'.st.ms.effective = ⟨some ⟨⟨0, 0⟩, 0⟩, m⟩ ∧
    e'.st.vote.data = ⟨⟨1, e.cfg.id⟩, false⟩ ∧
    e'.out = e.out ++ [.append ⟨⟨0, 0⟩, true⟩ [⟨⟨⟨0, 0⟩, 0⟩, .membership m⟩], .saveVote ⟨⟨1, e.cfg.id⟩, false⟩,
      .sendVote ⟨⟨1, e.cfg.id⟩, false⟩ (some ⟨⟨0, 0⟩, 0⟩), .respond (some (.logFlushed (some ⟨⟨0, 0⟩, 0⟩))) tx (.init true)] := by
  simp only [Eng.input, Eng.coreInit, bind_ok, pure_ok] at hr
  obtain ⟨⟨ok, e1⟩, he1, hr⟩ := hr
  unfold Eng.initCluster at he1
  rw [if_neg (by rw [not_initialized.2 hp]; simp), if_neg (by simp [hm])] at he1
  simp only [bind_ok, pure_ok] at he1
  obtain ⟨v, hv, e2, he2, e3, he3, he1⟩ := he1
  cases he1
  have hv := Eng.followingHandler_ok hv
  have hv' : v = ⟨⟨0, 0⟩, true⟩ := hv
  have hle : e.st.vote.data ≤ ⟨⟨0, 0⟩, true⟩ := by rw [hp.2]; decide
  have hlm1 : LM g0 { e with st := { e.st with vote := e.st.vote.update now 0 ⟨⟨0, 0⟩, true⟩ } } :=
    h.lm.state rfl (h.lm.log.memVote hle) (Eng.memJ_vote h.lm.mem _ rfl rfl)
  obtain ⟨d1, d2, d3, d4, d5, d6, d7, d8, d9, d10⟩ := Eng.lm_fhDoAppend hlm1 (by simp)
    (by intro x hx; simp at hx; subst hx; show 0 = nextIndex e.st.lastLogId; rw [hp.1]; rfl)
    (by simp [Cons]) (by intro l x hl; exact absurd (hl.symm.trans hp.1) (by simp))
    (by intro x hx; simp at hx; subst hx; exact le_refl _) (by rw [hv]; rfl) he2
  have hL0 : expand e.st.logIds = [] := by
    have : (expand e.st.logIds).getLast? = none := by rw [expand_getLast?]; exact hp.1
    exact List.getLast?_eq_none_iff.1 this
  have hfl : e2.st.ms.effective = ⟨some ⟨⟨0, 0⟩, 0⟩, m⟩ ∧
      e2.out = e.out ++ [.append ⟨⟨0, 0⟩, true⟩ [⟨⟨⟨0, 0⟩, 0⟩, .membership m⟩]] := by
    unfold Eng.fhDoAppend Eng.fhAppendMembership at he2
    rw [if_neg (by simp [Eng.lastTwo, Ent.stored?, Ent.membership?])] at he2
    simp only [bind_ok, pure_ok] at he2
    obtain ⟨_, _, _, _, _, _, e4, ⟨ms, hms, he4⟩, he2⟩ := he2
    have : Eng.lastTwo [(⟨⟨⟨0, 0⟩, 0⟩, .membership m⟩ : Ent)] = [⟨some ⟨⟨0, 0⟩, 0⟩, m⟩] := rfl
    rw [this] at hms
    simp only [Eng.appendMems, RState.MemState.append, bind_ok, pure_ok] at hms
    obtain ⟨ms1, ⟨_, _, _, _, hms1⟩, hms⟩ := hms
    rw [← he2, ← he4]
    refine ⟨?_, ?_⟩
    · show ms.effective = _
      rw [← hms, ← hms1]
    · show e.out ++ [.append v _] = _
      rw [hv']
  obtain ⟨b1, b2, b3, b4, b5⟩ := elect_st he3
  have hd : e2.st.vote.data = ⟨⟨0, 0⟩, true⟩ := by rw [d4]; rfl
  have hv3 : e1.st.vote.data = ⟨⟨1, e.cfg.id⟩, false⟩ := by rw [b3, hd, d3]
  have hl2 : e2.st.lastLogId = some ⟨⟨0, 0⟩, 0⟩ := d10
  have hl3 : e1.st.lastLogId = some ⟨⟨0, 0⟩, 0⟩ := by
    show e1.st.logIds.getLast? = _
    rw [b1]; exact hl2
  rw [← hr]
  refine ⟨?_, ?_, hv3, ?_⟩
  · show expand e1.st.logIds = _
    rw [b1]
    refine d2.trans ?_
    show expand e.st.logIds ++ _ = _
    rw [hL0]; rfl
  · show e1.st.ms.effective = _
    rw [b2]; exact hfl.1
  · show e1.out ++ [.respond _ tx _] = _
    rw [b5, hfl.2, hv3, hl2, hl3]; simp

theorem vote_default_le (v : Vote) : (⟨⟨0, 0⟩, false⟩ : Vote) ≤ v := by
  rw [Vote.le_def]
  rcases eq_or_lt_of_le (show (⟨0, 0⟩ : LeaderId) ≤ v.leaderId from by
    rw [LeaderId.le_def]
    rcases Nat.eq_zero_or_pos v.leaderId.term with h | h
    · exact Or.inr ⟨h.symm, Nat.zero_le _⟩
    · exact Or.inl h) with h | h
  · exact Or.inr ⟨h, by simp⟩
  · exact Or.inl h

/-- A node that was initialized, or that took part in any election or replication, refuses every later
`initialize`. -/
theorem C33_once {tx : Nat} {m : Membership} (h0 : EInv g0 e0) (hn : e0.st.vote.data ≠ ⟨⟨0, 0⟩, false⟩) (h : Eng.Run dbg e0 e)
    (hr : e.input dbg now (.init tx m) = .ok e') :
    e' = { e with out := e.out ++ [.respond none tx (.init false)] } := by
  refine C33_refused (fun hp => ?_) hr
  have hmono : ∀ x, Eng.Run dbg e0 x → e0.st.vote.data ≤ x.st.vote.data := by
    intro x hx
    induction hx with
    | refl => exact le_refl _
    | step now i hx ho hr ih => exact le_trans ih (C06_vote_forward (hx.inv h0) ho hr)
  have := hmono e h
  rw [hp.1.2] at this
  exact hn (le_antisymm this (vote_default_le _))

/-- `Membership::from` of the given nodes, `membership/membership.rs:36-43` -/
def membershipOf (nodes : List (NodeId × Nat)) : Membership := ⟨[BMap.keys nodes], nodes⟩

/-- the membership `initialize` builds is valid if it has any node -/
theorem C33_membership_valid {nodes : List (NodeId × Nat)} {me : NodeId} (hm : (membershipOf nodes).isVoter me = true) :
    (membershipOf nodes).ensureValid = .ok () := by
  have hne : BMap.keys nodes ≠ [] := by
    intro hx
    simp [membershipOf, Membership.isVoter, hx] at hm
  unfold Membership.ensureValid Membership.ensureNonEmptyConfig
  rw [if_neg (by simp [membershipOf, hne])]
  dsimp only
  unfold Membership.ensureVoterNodes
  have : ((membershipOf nodes).voterIds.find? fun v => !BMap.containsKey (membershipOf nodes).nodes v) = none := by
    rw [List.find?_eq_none]
    intro x hx
    obtain ⟨c, hc, hx⟩ := Membership.mem_jointIds.1 hx
    rw [show c = BMap.keys nodes by simpa [membershipOf] using hc] at hx
    have := (BMap.containsKey_iff (m := nodes)).2 hx
    show ¬ ((!BMap.containsKey nodes x) = true)
    rw [this]; simp
  rw [this]

example : Pristine f0 ∧ m3.isVoter f0.cfg.id = true ∧ EInv Gh.empty f0 ∧ ∃ e', f0.input true 1 (.init 5 m3) = .ok e' :=
  ⟨by unfold Pristine; decide +kernel, by decide +kernel, f0_inv, _, afterR_ok (by decide +kernel)⟩

/-! ## C40 -/

/-- the commands of an election -/
private def NoElection (c : Cmd) : Prop := (∀ v, c ≠ .saveVote v) ∧ ∀ v l, c ≠ .sendVote v l
private instance : Lets NoElection := ⟨fun c hc => ⟨fun v h => (by subst h; cases hc), fun v l h => (by subst h; cases hc)⟩⟩

theorem runs_vote {cs : List Cmd} (g : Gh) (h : ∀ v, .saveVote v ∉ cs) : (g.runs cs).vote = g.vote := by
  induction cs generalizing g with
  | nil => rfl
  | cons c cs ih =>
    refine (ih (g.run c) fun v hx => h v (List.mem_cons_of_mem _ hx)).trans ?_
    cases c with
    | saveVote v => exact absurd (List.mem_cons_self) (h v)
    | sm s => cases s <;> rfl
    | _ => rfl

/-- A node that is not a voter starts no election: neither when the timer ticks nor on the user's
request does it store a new vote or ask for votes, and its vote stays. -/
theorem C40_no_election (h : EInv g0 e) (hv : e.st.ms.effective.mem.isVoter e.cfg.id = false)
    (hi : i = .electCmd ∨ ∃ a b c, i = .tick a b c) (hr : e.input dbg now i = .ok e') :
    (∃ cs, e'.out = e.out ++ cs ∧ (∀ v, .saveVote v ∉ cs) ∧ ∀ v l, .sendVote v l ∉ cs) ∧
    e'.st.vote.data = e.st.vote.data ∧ (e'.candidate = e.candidate ∨ e'.candidate = none) := by
  have hmain : Emits NoElection e e' ∧ Keep e e' := by
    rcases hi with rfl | ⟨a, b, c, rfl⟩
    · simp only [Eng.input, Eng.coreElect] at hr
      rw [if_neg (by rw [hv]; simp), pure_ok] at hr
      rw [← hr]; exact ⟨Emits.refl _, Keep.refl _⟩
    · simp only [Eng.input, Eng.coreTick, bind_ok] at hr
      obtain ⟨e1, he1, e2, he2, hr⟩ := hr
      have : e1 = e := by
        unfold Eng.tickElection at he1
        split at he1
        · rw [pure_ok] at he1; exact he1.symm
        · rw [if_pos (by rw [hv]; rfl), pure_ok] at he1; exact he1.symm
      subst this
      have k1 := Eng.emits_tickHeartbeat (P := NoElection) e1 b c e2 he2
      have k2 := Eng.keep_tickHeartbeat e1 b c e2 he2
      split at hr
      · exact ⟨k1.trans (Eng.emits_leaderStepDown (P := NoElection) e2 e' hr), k2.trans (Eng.keep_leaderStepDown e2 e' hr)⟩
      · rw [pure_ok] at hr; rw [← hr]; exact ⟨k1, k2⟩
  obtain ⟨⟨cs, h1, h2⟩, h3⟩ := hmain
  refine ⟨⟨cs, h1, fun v hx => (h2 _ hx).1 v rfl, fun v l hx => (h2 _ hx).2 v l rfl⟩, ?_, h3⟩
  rcases hi with rfl | ⟨a, b, c, rfl⟩
  · simp only [Eng.input, Eng.coreElect] at hr
    rw [if_neg (by rw [hv]; simp), pure_ok] at hr
    rw [← hr]
  · have h' := Eng.inv_input (i := .tick a b c) h trivial hr
    rw [← h'.pj.gv, ← h.pj.gv, h1, Gh.runs_append]
    exact runs_vote _ fun v hx => (h2 _ hx).1 v rfl

/-- an executed list of inputs -/
inductive Hist (dbg : Bool) (e0 : Eng) : List Input → Eng → Prop
  | nil : Hist dbg e0 [] e0
  | snoc {is : List Input} {e e' : Eng} (now : Nat) (i : Input) : Hist dbg e0 is e → InputOk e i →
      e.input dbg now i = .ok e' → Hist dbg e0 (is ++ [i]) e'

theorem Hist.run {is : List Input} (h : Hist dbg e0 is e) : Eng.Run dbg e0 e := by
  induction h with
  | nil => exact .refl
  | snoc now i _ ho hr ih => exact .step now i ih ho hr

theorem grantAll_snoc {ns : List NodeId} {p q r : VecProgress Bool} {n : NodeId} (h : grantAll p ns = some q)
    (hr : q.update n true = some r) : grantAll p (ns ++ [n]) = some r := by
  induction ns generalizing p with
  | nil => cases h; simp [grantAll, hr]
  | cons m ns ih =>
    simp only [List.cons_append, grantAll] at h ⊢
    cases hu : p.update m true with
    | none => rw [hu] at h; cases h
    | some p1 => rw [hu] at h; exact ih h

/-- the votes counted for candidate `c` by the nodes `ns` -/
def Counted (is : List Input) (c : Candidate) (ns : List NodeId) : Prop :=
  grantAll (VecProgress.new c.mem.configs [] false) ns = some c.progress ∧
  ∀ n ∈ ns, ∃ last, Input.voteResp n c.vote last true c.vote ∈ is

/-- a candidate with its sender matched has that vote -/
theorem sender_eq {sender : Vote} {c : Candidate} (h : EInv g0 e) (hc : e.candidate = some c) (hm : e.voteMatch sender = true) :
    sender = c.vote := by
  have hk := h.pj.cand c hc
  unfold Eng.voteMatch at hm
  rw [hk.nl, hc] at hm
  split at hm
  · simp at hm
  · simpa using Eq.symm (by simpa using hm : c.vote = sender)

/-- a grant counts -/
theorem counted_grant {is : List Input} {c c1 : Candidate} {ns : List NodeId} {n : NodeId} {last : Option LogId}
    (h : Counted is c ns) (hg : Eng.grantBy c n = .ok c1) :
    Counted (is ++ [.voteResp n c.vote last true c.vote]) c1 (ns ++ [n]) ∧ c1.vote = c.vote ∧ c1.mem = c.mem := by
  unfold Eng.grantBy at hg
  simp only [bind_ok, unwrap_ok, pure_ok] at hg
  obtain ⟨p, hp, hg⟩ := hg
  subst hg
  refine ⟨⟨grantAll_snoc h.1 hp, ?_⟩, rfl, rfl⟩
  intro m hm
  rcases List.mem_append.1 hm with hm | hm
  · obtain ⟨l, hl⟩ := h.2 m hm
    exact ⟨l, List.mem_append_left _ hl⟩
  · rw [List.mem_singleton] at hm; subst hm
    exact ⟨last, List.mem_append_right _ (by simp)⟩

/-- Every vote a candidate counts is the answer of a node that granted this candidate's vote. -/
theorem C40_counted {is : List Input} {c : Candidate} (h0 : EInv g0 e0) (hn : e0.candidate = none) (h : Hist dbg e0 is e)
    (hc : e.candidate = some c) : ∃ ns, Counted is c ns := by
  induction h generalizing c with
  | nil => rw [hn] at hc; cases hc
  | @snoc is e e' now i h ho hr ih =>
    have mono : ∀ {c ns}, Counted is c ns → Counted (is ++ [i]) c ns := by
      intro c ns hh
      refine ⟨hh.1, fun n hn => ?_⟩
      obtain ⟨l, hl⟩ := hh.2 n hn
      exact ⟨l, List.mem_append_left _ hl⟩
    rcases Eng.input_cand hr with hk | ⟨mem, c', _, ⟨v, l, hf⟩, h1⟩ | ⟨n, last, c', c1, sender, hi, hm, hc', hg, h1⟩
    · rcases hk with hk | hk
      · obtain ⟨ns, hh⟩ := ih (hk ▸ hc)
        exact ⟨ns, mono hh⟩
      · rw [hk] at hc; cases hc
    · rw [h1] at hc; cases hc
      rw [hf]
      exact ⟨[], rfl, by simp⟩
    · rcases h1 with ⟨h1, _⟩ | ⟨h1, _⟩
      · rw [h1] at hc; cases hc
        obtain ⟨ns, hh⟩ := ih hc'
        have hs := sender_eq (h.run.inv h0) hc' hm
        subst hs
        rw [hi]
        exact ⟨_, (counted_grant hh hg).1⟩
      · rw [h1] at hc; cases hc

theorem update_ids {p q : VecProgress Bool} {n : NodeId} {b : Bool} (h : p.update n b = some q) :
    (∃ x ∈ p.vector, x.1 = n) ∧ ∀ x ∈ q.vector, ∃ y ∈ p.vector, y.1 = x.1 := by
  unfold VecProgress.update at h
  split at h
  · cases h
  · next idx hidx =>
    have hn : ∃ x ∈ p.vector, x.1 = n := by
      have := List.findIdx?_eq_some_iff_getElem.1 hidx
      obtain ⟨hlt, h1, _⟩ := this
      exact ⟨_, List.getElem_mem hlt, by simpa using h1⟩
    refine ⟨hn, ?_⟩
    split at h
    · cases h
    · next prev hp =>
      have hset : ∀ x ∈ p.vector.set idx (n, b), ∃ y ∈ p.vector, y.1 = x.1 := by
        intro x hx
        rcases List.mem_or_eq_of_mem_set hx with hx | hx
        · exact ⟨x, hx, rfl⟩
        · subst hx; exact hn
      dsimp only at h
      split at h
      · cases h; exact hset
      · split at h
        · cases h; exact hset
        · split at h
          · cases h
            intro x hx
            exact hset x (VecProgress.moveUp_mem _ _ x hx)
          · cases h; exact hset

/-- A candidate counts only voters of its membership. -/
theorem C40_only_voters {c : Candidate} {ns : List NodeId} (h : grantAll (VecProgress.new c.mem.configs [] false) ns = some c.progress) :
    ∀ n ∈ ns, c.mem.isVoter n = true := by
  have gen : ∀ (ns : List NodeId) (p q : VecProgress Bool), (∀ x ∈ p.vector, c.mem.isVoter x.1 = true) →
      grantAll p ns = some q → ∀ n ∈ ns, c.mem.isVoter n = true := by
    intro ns
    induction ns with
    | nil => simp
    | cons m ns ih =>
      intro p q hp hq n hn
      simp only [grantAll] at hq
      cases hu : p.update m true with
      | none => rw [hu] at hq; cases hq
      | some p1 =>
        rw [hu] at hq
        obtain ⟨⟨x, hx, hxm⟩, h2⟩ := update_ids hu
        rcases List.mem_cons.1 hn with rfl | hn
        · rw [← hxm]; exact hp x hx
        · refine ih p1 q (fun y hy => ?_) hq n hn
          obtain ⟨z, hz, hzy⟩ := h2 y hy
          rw [← hzy]; exact hp z hz
  refine gen ns _ _ ?_ h
  intro x hx
  simp only [VecProgress.new, List.map_nil, List.append_nil, List.mem_map] at hx
  obtain ⟨m, hm, hx⟩ := hx
  obtain ⟨cf, h1, h2⟩ := Membership.mem_jointIds.1 hm
  rw [← hx]
  simp only [Membership.isVoter, List.any_eq_true]
  exact ⟨cf, h1, by simpa using h2⟩

/-- A candidate becomes the leader only when nodes that are a majority of every config of its membership
have granted its vote. -/
theorem C40_elected_by_quorum {is : List Input} {c : Candidate} {n : NodeId} {v : Vote} {last : Option LogId}
    {granted : Bool} {sender : Vote} (h0 : EInv g0 e0) (hn : e0.candidate = none)
    (h : Hist dbg e0 is e) (hc : e.candidate = some c) (hvs : ValidSets c.mem.configs [])
    (ho : InputOk e (.voteResp n v last granted sender)) (hr : e.input dbg now (.voteResp n v last granted sender) = .ok e')
    (hl : e'.leader.isSome) :
    ∃ ns : List NodeId, Spec.JointQuorum (c.mem.configs.map List.toFinset) ns.toFinset ∧
      ∀ m ∈ ns, ∃ last', Input.voteResp m c.vote last' true c.vote ∈ is ++ [.voteResp n v last granted sender] := by
  have hinv := h.run.inv h0
  have hcand := hinv.pj.cand c hc
  have hinv' := Eng.inv_input hinv ho hr
  obtain ⟨ns, hns⟩ := C40_counted h0 hn h hc
  obtain ⟨l, hl⟩ := Option.isSome_iff_exists.1 hl
  have hlead := hinv'.pj.lead l hl
  simp only [Eng.input] at hr
  split at hr
  · next hm =>
    rw [Bool.and_eq_true] at hm
    have hs := sender_eq hinv hc hm.2
    subst hs
    unfold Eng.handleVoteResp at hr
    rw [hc] at hr
    dsimp only at hr
    split at hr
    · next hg =>
      rw [Bool.and_eq_true, beq_iff_eq] at hg
      obtain ⟨rfl, rfl⟩ := hg
      rw [bind_ok] at hr
      obtain ⟨c1, hc1, hr⟩ := hr
      obtain ⟨hco, hv1, hm1⟩ := counted_grant (last := last) hns hc1
      split at hr
      · next hgr =>
        refine ⟨ns ++ [n], ?_, ?_⟩
        · rw [← hm1]
          rw [← hm1] at hvs
          exact (C13_vote_count_exact hvs hco.1).1 hgr
        · intro m hm
          have := hco.2 m hm
          rw [hv1] at this
          exact this
      · rw [pure_ok] at hr
        rw [← hr] at hl
        exact absurd (hl.symm.trans hcand.nl) (by simp)
    · exfalso
      rw [bind_ok] at hr
      obtain ⟨⟨ok, e2⟩, he2, hr⟩ := hr
      rw [pure_ok] at hr
      have hif : ∀ e1 : Eng, e1.leader = none → e1.st.vote.data = c.vote → e1.cfg = e.cfg →
          e1.updateVote dbg now v = .ok (ok, e2) → False := by
        intro e1 h1 h2 h3 h4
        have h5 : e2.leader = some l := by rw [← hl, ← hr]
        unfold Eng.updateVote at h4
        split at h4
        · next hle =>
          simp only [bind_ok, pure_ok] at h4
          obtain ⟨e3, he3, e4, he4, h4⟩ := h4
          cases h4
          have hd : e3.st.vote.data = v ∧ e3.leader = none ∧ e3.cfg = e.cfg := by
            unfold Eng.storeVote at he3
            split at he3
            · simp only [bind_ok, pure_ok] at he3
              obtain ⟨st, hst, he3⟩ := he3
              have := acceptIo_ok hst
              rw [← he3, this]
              exact ⟨rfl, h1, h3⟩
            · next hnl =>
              simp only [bind_ok, pure_ok] at he3
              obtain ⟨vt, hvt, he3⟩ := he3
              have : vt.data = e1.st.vote.data := by
                unfold Leased.touch at hvt
                simp only [bind_ok, pure_ok] at hvt
                obtain ⟨_, _, hvt⟩ := hvt
                rw [← hvt]
              rw [← he3]
              refine ⟨?_, h1, h3⟩
              show vt.data = v
              rw [this]; exact le_antisymm hle (not_lt.1 hnl)
          unfold Eng.updateInternal at he4
          split at he4
          · next hil =>
            rw [RState.isLeader, Bool.and_eq_true, RState.isLeading, Bool.and_eq_true, hd.1, hd.2.2] at hil
            have hnode : v.leaderId.node = e.cfg.id := by simpa using hil.1.2
            have hvo : VoteOk e v := ho
            have hle2 := hvo hnode
            rw [← hcand.vote, ← h2] at hle2
            have heq := le_antisymm hle hle2
            have hcm : v.committed = true := hil.2
            rw [← heq, h2, hcand.vote, hcand.com] at hcm
            cases hcm
          · split at he4
            · rw [pure_ok] at he4; rw [← he4, hd.2.1] at h5; cases h5
            · unfold Eng.becomeFollowing at he4
              simp only [bind_ok, pure_ok] at he4
              obtain ⟨_, _, he4⟩ := he4
              rw [← he4] at h5; cases h5
        · rw [pure_ok] at h4
          cases h4
          rw [h1] at h5; cases h5
      split at he2
      · refine hif _ ?_ ?_ ?_ he2
        · exact hcand.nl
        · exact hcand.vote.symm
        · rfl
      · refine hif _ ?_ ?_ ?_ he2
        · exact hcand.nl
        · exact hcand.vote.symm
        · rfl
  · rw [pure_ok] at hr
    rw [← hr] at hl
    exact absurd (hl.symm.trans hcand.nl) (by simp)

/-- a candidate of three voters: two answers are enough -/
example : ∃ e e', Hist true f0 [.init 5 m3, .voteResp 1 ⟨⟨1, 1⟩, false⟩ (some (lid 0 0 0)) true ⟨⟨1, 1⟩, false⟩] e ∧
    e.candidate.isSome ∧ InputOk e (.voteResp 3 ⟨⟨1, 1⟩, false⟩ none true ⟨⟨1, 1⟩, false⟩) ∧
    e.input true 3 (.voteResp 3 ⟨⟨1, 1⟩, false⟩ none true ⟨⟨1, 1⟩, false⟩) = .ok e' ∧ e'.leader.isSome :=
  ⟨after 2 (after 1 f0 (.init 5 m3)) (.voteResp 1 ⟨⟨1, 1⟩, false⟩ (some (lid 0 0 0)) true ⟨⟨1, 1⟩, false⟩), _,
    .snoc (is := [.init 5 m3]) 2 _ (.snoc (is := []) 1 (.init 5 m3) .nil trivial (after_ok (by decide +kernel)))
      (okB_ok (lead := []) (by decide +kernel)) (after_ok (by decide +kernel)),
    by decide +kernel, okB_ok (lead := []) (by decide +kernel), afterR_ok (by decide +kernel), by decide +kernel⟩

/-- a learner whose timer has long expired -/
example : ∃ e e', Eng.Run true (Eng.fresh { cfg with id := 9 } 0) e ∧ EInv Gh.empty (Eng.fresh { cfg with id := 9 } 0) ∧
    e.st.ms.effective = ⟨some (lid 1 2 0), m3⟩ ∧ e.st.ms.effective.mem.isVoter e.cfg.id = false ∧
    e.input true 1000 (.tick true true 10) = .ok e' :=
  ⟨runTo (Eng.fresh { cfg with id := 9 } 0) [(1, [lid 1 2 0, lid 1 2 1], i1)], _, run_of_allOk .refl (by decide +kernel), Eng.fresh_inv _ _,
    by decide +kernel, by decide +kernel, afterR_ok (by decide +kernel)⟩

end Openraft.Props
