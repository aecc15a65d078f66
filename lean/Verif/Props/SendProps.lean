import Verif.Engine.Sends
import Verif.Props.CalmProps

/-!
# C54: what a leader asks its replication tasks to send
-/

set_option autoImplicit false

namespace Openraft.Props
open Openraft.Engine Openraft.Runtime Openraft.Runtime.Demo
open Openraft.Engine.Demo (lid m3 v2)
open Openraft.Repl (Inflight)

/-! ## What may be asked for -/

/-- What a replication task may be asked to send by a node with these log ids in its log (`held`, which begins with the last
purged one), which may purge up to `upto` and whose snapshot ends with `snap`, to a member of which it knows the logs up to
`matching`, with at most `max` entries in a request:
* its snapshot, if some of the logs that the member needs are to be purged;
* a non-empty range of entries that it has, all of them above what it may purge, none of them known to be on the member. -/
def Askable (held : List LogId) (upto snap matching : Option LogId) (max : Nat) : Inflight → Prop
  | .none => False
  | .snapshot x => x = snap ∧ upto ≠ none
  | .logs p q => ∃ x, q = some x ∧ (∀ i, nextIndex p ≤ i + 1 → i ≤ x.index → ∃ y ∈ held, y.index = i) ∧
      x ∈ held ∧ (∀ y, p = some y → y ∈ held) ∧ nextIndex p ≤ x.index ∧ x.index + 1 ≤ nextIndex p + max ∧
      nextIndex upto ≤ nextIndex p ∧ nextIndex matching ≤ nextIndex p

theorem askable_of_req {dbg : Bool} {s : RState} {g : Gh} {max : Nat} {en : Repl.Entry} {q : Inflight} (h : LogJ s.lv g)
    (hq : Req dbg s.view max en q) (he : dbg = false → EntOk (nextIndex s.lastLogId) en) :
    Askable (LogIdList.expand s.logIds) s.purgeUpto s.snap.lastLogId en.matching max q := by
  have hln : s.view.lastNext = nextIndex s.lastLogId := by
    unfold Repl.LogView.lastNext RState.view; simp
  have hup : nextIndex s.view.purgeUpto = nextIndex s.purgeUpto := rfl
  cases q with
  | none => exact hq
  | snapshot x =>
    obtain ⟨h1, h2⟩ := hq
    refine ⟨h1, ?_⟩
    rintro h3
    rw [hup, h3] at h2
    simp at h2
  | logs p q =>
    obtain ⟨i, h1, h2, h3, h4, h5, h6, rfl, rfl⟩ := hq
    have hE : EntOk (nextIndex s.lastLogId) en := by
      cases dbg with
      | false => exact he rfl
      | true => rw [← hln]; exact h5 rfl
    have hi := h4 hE.1
    have hl := hE.2
    have hpn : s.purgedNext ≤ nextIndex s.purgeUpto := h.ord1
    rw [hup] at h1 h2
    rw [hln] at h6 ⊢
    obtain ⟨j, hj⟩ : ∃ j, j = min (i + max) (nextIndex s.lastLogId) := ⟨_, rfl⟩
    rw [← hj] at h6 ⊢
    have hij : i < j := by omega
    obtain ⟨x, hx, hxi⟩ := h.exists_index (i := j - 1) (show s.purgedNext ≤ _ by omega) (show j - 1 < nextIndex s.lastLogId by omega)
    have e2 : s.view.prevLogId j = some x := by
      unfold Repl.LogView.prevLogId
      rw [if_neg (by omega)]
      exact getLogId_view h hx hxi (by omega)
    have e1 : nextIndex (s.view.prevLogId i) = i ∧ ∀ y, s.view.prevLogId i = some y → y ∈ s.lv.L := by
      unfold Repl.LogView.prevLogId
      split
      · next h0 => subst h0; exact ⟨rfl, fun y hy => by cases hy⟩
      · next h0 =>
        obtain ⟨y, hy, hyi⟩ := h.exists_index (i := i - 1) (show s.purgedNext ≤ _ by omega) (show i - 1 < nextIndex s.lastLogId by omega)
        rw [getLogId_view h hy hyi (by omega)]
        refine ⟨?_, fun z hz => by cases hz; exact hy⟩
        show y.index + 1 = i
        omega
    refine ⟨x, e2, fun k hk1 hk2 => ?_, hx, e1.2, ?_, ?_, ?_, ?_⟩
    · rw [e1.1] at hk1
      exact h.exists_index (i := k) (show s.purgedNext ≤ _ by omega) (show k < nextIndex s.lastLogId by omega)
    · rw [e1.1]; omega
    · rw [e1.1]; omega
    · rw [e1.1]; exact h2
    · rw [e1.1]; exact h3

/-- what is said of a `Replicate` command that a node adds -/
def AskOk (n : Runtime.Node) (t : NodeId) (q : Inflight) : Prop :=
  ∃ l, n.eng.leader = some l ∧ t ≠ n.eng.cfg.id ∧ (l.progress.ent t).inflight = q ∧
    Askable (LogIdList.expand n.eng.st.logIds) n.eng.st.purgeUpto n.eng.st.snap.lastLogId (l.progress.ent t).matching n.eng.cfg.maxPayload q

theorem askOk_of_sent {dbg : Bool} {n : Runtime.Node} {e : Eng} {g : Gh} (hJ : LogJ n.eng.st.lv g) (h : Sent dbg e n.eng)
    (hn : dbg = false → Ln n.eng) (hlast : ∀ l, n.eng.leader = some l → l.lastLogId = n.eng.st.lastLogId) :
    ∀ t q, Cmd.replicate t q ∈ n.eng.out.drop e.out.length → AskOk n t q ∧ ∃ l, n.eng.leader = some l ∧ t ∈ Eng.progIds l := by
  obtain ⟨cs, h1, h2, _⟩ := h
  intro t q hm
  rw [h1, List.drop_left] at hm
  obtain ⟨l, a, b, c, d, f⟩ := h2 t q hm
  refine ⟨⟨l, a, c, d, askable_of_req hJ f fun hd => ?_⟩, l, a, b⟩
  have := ((hn hd).lead l a).ent t
  rw [hlast l a] at this; exact this

theorem sent_step {dbg : Bool} {cfg : Cfg} {old : List Resp} {n n' : Runtime.Node} {ev : Ev} (h : Life dbg cfg old n) (ho : EvOk n ev)
    (hr : n.step dbg ev = .ok n') : Sent dbg n.eng n'.eng := by
  obtain ⟨⟨g0, a0, s0, c0, P, S, hi⟩, _⟩ := h.inv
  by_cases hrun : ev = .run
  · subst hrun
    rcases run_view hr with rfl | ⟨c, n1, h1, _, h2, rfl⟩
    · exact Sent.quiet (Emits.refl _)
    · refine Sent.quiet (Eng.emits_same ?_ ?_)
      · show n1.eng.cfg = _
        obtain ⟨p, x, h3, _⟩ := (exec_frame h2).eng
        rw [h3]
      · show n1.eng.out = _
        exact exec_out h2
  · obtain ⟨_, _, he | ⟨now, i, _, hok, _, hin⟩⟩ := hi.view ho hrun hr
    · rw [he]; exact Sent.quiet (Emits.refl _)
    · exact Eng.sent_input hi.flow.inv hok hin

theorem life_logJ {dbg : Bool} {cfg : Cfg} {old : List Resp} {n : Runtime.Node} (h : Life dbg cfg old n) :
    ∃ g, EInv g n.eng := by
  obtain ⟨⟨g0, a0, s0, c0, P, S, hi⟩, _⟩ := h.inv
  exact ⟨g0, hi.flow.inv⟩

/-- **C54**, release builds: in every life of a node in which the messages meet what their senders guarantee, every `Replicate`
command that an event adds asks for something the node has when the event is handled, and is what the leader's progress has in
flight for that member. -/
theorem C54_request {cfg : Cfg} {old : List Resp} {n n' : Runtime.Node} {ev : Ev} {t : NodeId} {q : Inflight}
    (h : SafeLife cfg old n) (ho : EvOk n ev) (hs : EvSafe n ev) (hr : n.step false ev = .ok n')
    (hq : Cmd.replicate t q ∈ n'.eng.out.drop n.eng.out.length) :
    AskOk n' t q ∧ (n'.eng.st.ms.effective.mem.isVoter t = true ∨ n'.eng.st.ms.effective.mem.contains t = true) := by
  have h' : SafeLife cfg old n' := .step ev h ho hs hr
  obtain ⟨g, hg⟩ := life_logJ h'.life
  obtain ⟨h1, l, h2, h3⟩ := askOk_of_sent hg.lm.log (sent_step h.life ho hr) (fun _ => h'.ln) (fun l hl => (hg.pj.lead l hl).last) t q hq
  exact ⟨h1, ((h'.ln.lead l h2).prog t).1 h3⟩

/-- **C54**, debug builds: there the progress is checked before a request is made, so the claim holds for all lives. -/
theorem C54_request_debug {cfg : Cfg} {old : List Resp} {n n' : Runtime.Node} {ev : Ev} {t : NodeId} {q : Inflight}
    (h : Life true cfg old n) (ho : EvOk n ev) (hr : n.step true ev = .ok n')
    (hq : Cmd.replicate t q ∈ n'.eng.out.drop n.eng.out.length) : AskOk n' t q := by
  have h' : Life true cfg old n' := .step ev h ho hr
  obtain ⟨g, hg⟩ := life_logJ h'
  exact (askOk_of_sent hg.lm.log (sent_step h ho hr) (fun hd => by cases hd) (fun l hl => (hg.pj.lead l hl).last) t q hq).1

/-- **C54** for a node that restarts as the leader it was. -/
theorem C54_restart {cfg : Cfg} {old : List Resp} {n n' : Runtime.Node} {k now : Nat} {t : NodeId} {q : Inflight}
    (h : SafeLife cfg old n) (hf : Fits (n.crashDisk k) n.sm.reboot) (hr : restart false now cfg (n.crashDisk k) n.sm = .ok n')
    (hq : Cmd.replicate t q ∈ n'.eng.out) : AskOk n' t q := by
  have h' : SafeLife cfg _ n' := .crash k now h hf hr
  obtain ⟨g, hg⟩ := life_logJ h'.life
  obtain ⟨⟨g0, a0, s0, c0, P, S, hi⟩, _⟩ := h.life.inv
  obtain ⟨st, store, s2, h1, h2, _, _⟩ := restart_startup hr
  obtain ⟨st', store', s2', hi', hld⟩ := initialState_ok now (hi.crash_ok k) hf
  rw [h1] at hi'
  cases hi'
  obtain ⟨base, hst⟩ := hld.startOk (cfg := cfg) (hi.crash_ok k) hf
  exact (askOk_of_sent hg.lm.log (Eng.sent_startup hst h2) (fun _ => h'.ln) (fun l hl => (hg.pj.lead l hl).last) t q (by simpa using hq)).1

/-! ## The hypotheses can be met -/

/-- the `Replicate` commands added after the first `k` commands -/
def asked (n : Runtime.Node) (k : Nat) : List (NodeId × Inflight) :=
  (n.eng.out.drop k).filterMap fun c => match c with | .replicate t q => some (t, q) | _ => none

theorem asked_mem {n : Runtime.Node} {k : Nat} {t : NodeId} {q : Inflight} (h : (t, q) ∈ asked n k) : Cmd.replicate t q ∈ n.eng.out.drop k := by
  obtain ⟨c, h1, h2⟩ := List.mem_filterMap.1 h
  split at h2
  · cases h2; exact h1
  · cases h2

/-- a leader (node 1) of three nodes; node 3 has its log, node 2 has not answered yet -/
def ledEvs : List (List LogId × Ev) := twoEvs.take 126
def led : Runtime.Node := runTo false (Node.fresh Demo.cfg 0) ledEvs
theorem led_safe : SafeLife Demo.cfg [] led := safe_of_allSafe (.fresh 0 _) (by decide +kernel) (by decide +kernel)

-- a client's write: node 3 is sent the entry
example : AskOk (after false led (.write 36 51 (.normal 8))) 3 (.logs (some (lid 2 1 3)) (some (lid 2 1 4))) :=
  (C54_request (n' := after false led (.write 36 51 (.normal 8))) led_safe (ev := .write 36 51 (.normal 8)) trivial trivial
    (after_ok (by decide +kernel)) (asked_mem (by decide +kernel))).1

/-- the leader builds a snapshot and purges its log up to index 2; node 2 cannot be reached -/
def shipEvs : List (List LogId × Ev) := [([], .msg 201 .snapshotCmd), ([], .run), ([], .sm), ([], .build 0), ([], .note 202), ([], .run), ([], .run),
  ([], .msg 203 (.purgeCmd 2)), ([], .msg 204 (.replProgress ⟨⟨⟨2, 1⟩, true⟩, some (lid 1 2 0)⟩ 2 .failed)), ([], .run)]
def ship : Runtime.Node := runTo false led shipEvs
theorem ship_safe : SafeLife Demo.cfg [] ship := safe_of_allSafe led_safe (by decide +kernel) (by decide +kernel)

-- node 2 is sent the snapshot
example : AskOk (after false ship (.msg 205 .initiate)) 2 (.snapshot (some (lid 2 1 3))) ∧ ship.eng.st.lastPurged = some (lid 2 1 2) :=
  ⟨(C54_request (n' := after false ship (.msg 205 .initiate)) ship_safe (ev := .msg 205 .initiate) (evB_ok (lead := []) (by decide +kernel))
    (safeB_ok (by decide +kernel)) (after_ok (by decide +kernel)) (asked_mem (by decide +kernel))).1, by decide +kernel⟩

-- the same write in a debug build
example : AskOk (after true (runTo true (Node.fresh Demo.cfg 0) ledEvs) (.write 36 51 (.normal 8))) 3 (.logs (some (lid 2 1 3)) (some (lid 2 1 4))) :=
  C54_request_debug (n := runTo true (Node.fresh Demo.cfg 0) ledEvs) (n' := after true (runTo true (Node.fresh Demo.cfg 0) ledEvs) (.write 36 51 (.normal 8)))
    (Life.run (fresh_life true) (run_of_allOk .refl (by decide +kernel))) (ev := .write 36 51 (.normal 8)) trivial
    (after_ok (by decide +kernel)) (asked_mem (by decide +kernel))

/-- the leader restarts -/
def again : Runtime.Node := reborn false 300 Demo.cfg led 0

-- it asks for its log from the start, as it does not know what the others have
example : AskOk again 3 (.logs none (some (lid 2 1 3))) :=
  C54_restart (n' := again) led_safe (Runtime.Demo.fitsB_ok (by decide +kernel)) (reborn_ok (by decide +kernel)) (asked_mem (k := 0) (by decide +kernel))

end Openraft.Props
