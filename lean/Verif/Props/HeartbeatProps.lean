import Verif.Rt.Heartbeat
import Verif.Props.ClockProps

/-!
# C60: the heartbeat workers send the heartbeats of their leader

All runs of the workers (`Hb.run`): broadcasts, rebuilds, the end of the core, and the steps of every worker that was ever spawned, in any order.
-/

set_option autoImplicit false

namespace Openraft.Props
open Openraft.Engine (Session Input Eng AppendResp)
open Openraft.Rt
open Openraft.Engine.Demo (lid)

/-- **C60.** A worker sends only heartbeats of the session it was spawned for, each at most once. -/
def C60_statement : Prop := ∀ (s : Session) (evs : List HbEv), ∀ w ∈ ((Hb.init s).run evs).workers,
  (∀ p ∈ w.sent, p.2.session = w.session) ∧ (w.sent.map (·.1)).Nodup

/-- **C60, what is sent.** Every heartbeat that a worker sends was broadcast by the core, and a worker sends them in the order of the
broadcasts: it may leave some out, it does not go back. -/
theorem C60_broadcast (s : Session) (evs : List HbEv) : ∀ w ∈ ((Hb.init s).run evs).workers,
    (∀ p ∈ w.sent, some p.2 ∈ ((Hb.init s).run evs).ch.sent) ∧ (w.sent.map (·.1)).Pairwise (· ≤ ·) := by
  intro w hw
  have k := (HbInv.run s evs).1.ok w hw
  exact ⟨fun p hp => List.mem_of_getElem? (k.sent p hp).1.2, List.pairwise_map.2 k.order⟩

/-- **C60, what is reported.** Every `HeartbeatProgress` that the core gets is about a heartbeat that was broadcast with this session and
time and was sent by a worker of this target. -/
theorem C60_reported (s : Session) (evs : List HbEv) : ∀ x ∈ ((Hb.init s).run evs).notes,
    ∃ w ∈ ((Hb.init s).run evs).workers, ∃ p ∈ w.sent, x = .hbProgress p.2.session w.target p.2.time ∧
      some p.2 ∈ ((Hb.init s).run evs).ch.sent := by
  intro x hx
  obtain ⟨w, hw, p, hp, h⟩ := (HbInv.run s evs).1.notes x hx
  exact ⟨w, hw, p, hp, h, (C60_broadcast s evs w hw).1 p hp⟩

/-- **C60, what is left.** As long as the core is there, a worker that was not told to stop sends only heartbeats of its session, which is
the last one, but for at most one that was broadcast before the worker was spawned; and no worker sends a broadcast more than twice.

Missing for C60: the one that is older, and the second time; they occur (`C60_false`, `C60_twice`). -/
theorem C60_session_partial (s : Session) (evs : List HbEv) (hc : ((Hb.init s).run evs).ch.closed = false) :
    ∀ w ∈ ((Hb.init s).run evs).workers,
      (w.stop = false → w.session = ((Hb.init s).run evs).session ∧
        (w.sent.filter fun p => decide (p.2.session ≠ w.session)).length ≤ 1) ∧
      ∀ v, (w.sent.filter fun p => p.1 == v).length ≤ 2 := by
  intro w hw
  have hi := (HbInv.run s evs).1
  have k := hi.ok w hw
  have o := hi.open_ hc w hw
  refine ⟨fun hs => ⟨(k.session hs).1, ?_⟩, o.two⟩
  refine Nat.le_trans ?_ o.stale
  unfold HbWorker.stale
  rw [← List.countP_eq_length_filter, ← List.countP_eq_length_filter]
  refine List.countP_mono_left fun p hp hne => ?_
  by_contra hb
  have hne : p.2.session ≠ w.session := of_decide_eq_true hne
  have hb : w.born < p.1 := by simpa using hb
  exact hne ((k.session hs).2 p.1 hb p.2 (k.sent p hp).1)

/-- As long as the core is there, a worker that was not told to stop goes on. -/
theorem C60_alive (s : Session) (evs : List HbEv) : ((Hb.init s).run evs).ch.closed = false →
    ∀ w ∈ ((Hb.init s).run evs).workers, w.stop = false → w.at_ ≠ .gone := by
  induction evs using List.reverseRecOn with
  | nil => intro _ w hw; cases hw
  | append_singleton evs ev ih =>
    have hr : (Hb.init s).run (evs ++ [ev]) = ((Hb.init s).run evs).step ev := by simp [Hb.run]
    rw [hr]
    generalize (Hb.init s).run evs = h at ih
    have hupd : h.ch.closed = false → ∀ (i : Nat) (f : HbWorker → HbWorker),
        (∀ w, ((f w).stop = false → w.stop = false) ∧ (w.stop = false → w.at_ ≠ .gone → (f w).at_ ≠ .gone)) →
        ∀ w ∈ (h.upd i f).workers, w.stop = false → w.at_ ≠ .gone := by
      intro hc i f hf w hw hs
      obtain ⟨j, hj⟩ := List.mem_iff_getElem?.1 hw
      simp only [Hb.upd, List.getElem?_modify] at hj
      cases hg : h.workers[j]? with
      | none => rw [hg] at hj; cases hj
      | some w0 =>
        rw [hg] at hj
        have k := ih hc w0 (List.mem_of_getElem? hg)
        by_cases hij : i = j
        · have : f w0 = w := by simpa [hij] using hj
          subst this
          exact (hf w0).2 ((hf w0).1 hs) (k ((hf w0).1 hs))
        · have : w0 = w := by simpa [hij] using hj
          subst this
          exact k hs
    cases ev with
    | broadcast t c =>
      intro hc
      cases hcl : h.ch.closed
      · simp only [Hb.step, hcl, Bool.false_eq_true, if_false]
        exact ih hcl
      · simp [Hb.step, hcl] at hc
    | rebuild s' ts =>
      intro hc
      cases hcl : h.ch.closed
      · simp only [Hb.step, hcl, Bool.false_eq_true, if_false]
        intro w hw hs
        rcases List.mem_append.1 hw with hw | hw
        · obtain ⟨w0, _, rfl⟩ := List.mem_map.1 hw
          cases hs
        · obtain ⟨t, _, rfl⟩ := List.mem_map.1 hw
          intro hk; cases hk
      · simp [Hb.step, hcl] at hc
    | drop => intro hc; cases hc
    | wake i =>
      intro hc
      refine hupd hc i _ fun w => ?_
      unfold HbWorker.wake
      split
      · exact ⟨id, fun _ _ hk => by cases hk⟩
      · exact ⟨id, fun _ => id⟩
    | quit i =>
      intro hc
      refine hupd hc i _ fun w => ?_
      unfold HbWorker.quit
      split
      · next h1 => exact ⟨id, fun h2 => by rw [h1.2] at h2; cases h2⟩
      · exact ⟨id, fun _ => id⟩
    | read i =>
      intro hc
      refine hupd hc i _ fun w => ?_
      unfold HbWorker.read
      split
      · split <;> exact ⟨id, fun _ _ hk => by cases hk⟩
      · exact ⟨id, fun _ => id⟩
    | answer i r =>
      intro hc
      have hc : h.ch.closed = false := hc
      refine hupd hc i (·.answered h.ch.closed r) fun w => ?_
      rw [hc]
      unfold HbWorker.answered
      split
      · exact ⟨id, fun _ _ hk => by cases hk⟩
      · exact ⟨id, fun _ => id⟩

/-- **C60, the latest is sent.** As long as the core is there, a worker that was not told to stop sends what is broadcast next, once the request
under way has ended, whatever its answer, and the worker gets to run. -/
theorem C60_latest (s : Session) (evs : List HbEv) (hc : ((Hb.init s).run evs).ch.closed = false) {i : Nat} {w : HbWorker}
    (hw : ((Hb.init s).run evs).workers[i]? = some w) (hs : w.stop = false) (t : Nat) (c : Option LogId) (r : Option AppendResp) :
    ∃ w', ((Hb.init s).run (evs ++ [.broadcast t c, .read i, .answer i r, .wake i, .read i])).workers[i]? = some w' ∧
      w'.at_ = .sends ⟨t, ((Hb.init s).run evs).session, c⟩ := by
  have k := (HbInv.run s evs).1.ok w (List.mem_of_getElem? hw)
  have ha := C60_alive s evs hc w (List.mem_of_getElem? hw) hs
  have hsplit : (Hb.init s).run (evs ++ [.broadcast t c, .read i, .answer i r, .wake i, .read i]) =
      ((((((Hb.init s).run evs).step (.broadcast t c)).step (.read i)).step (.answer i r)).step (.wake i)).step (.read i) := by simp [Hb.run]
  rw [hsplit]
  generalize (Hb.init s).run evs = h at hc hw k
  have hver : (h.ch.send (some ⟨t, h.session, c⟩)).ver = h.ch.ver + 1 := by simp [Watch.ver, Watch.send]
  have hclo : (h.ch.send (some ⟨t, h.session, c⟩)).closed = false := hc
  have hval : (h.ch.send (some ⟨t, h.session, c⟩)).val = some ⟨t, h.session, c⟩ := Watch.val_send ..
  have hne : w.seen ≠ h.ch.ver + 1 := by have := k.seen; omega
  simp only [Hb.step, hc, Bool.false_eq_true, if_false, Hb.upd]
  generalize h.ch.send (some ⟨t, h.session, c⟩) = ch at hver hclo hval
  rw [hclo]
  rw [List.getElem?_modify_eq, List.getElem?_modify_eq, List.getElem?_modify_eq, List.getElem?_modify_eq, hw]
  refine ⟨_, rfl, ?_⟩
  have h1 : ((w.read ch).answered false r).at_ = .waits ∧ ((w.read ch).answered false r).seen = w.seen := by
    cases hat : w.at_ with
    | waits => simp [HbWorker.read, HbWorker.answered, hat]
    | reads => simp [HbWorker.read, HbWorker.answered, hat, hval]
    | sends e => simp [HbWorker.read, HbWorker.answered, hat]
    | gone => exact absurd hat ha
  show (HbWorker.read _ (HbWorker.wake _ ((w.read ch).answered false r))).at_ = _
  generalize (w.read ch).answered false r = w' at h1
  have h2 : w'.wake ch = { w' with seen := ch.ver, at_ := .reads } := by
    unfold HbWorker.wake
    rw [if_pos ⟨h1.1, Or.inl (by rw [h1.2, hver]; exact hne)⟩]
  rw [h2]
  unfold HbWorker.read
  simp only [if_true, hval]

/-- **A report of another session changes nothing**, of another leadership or another membership. -/
theorem C60_ignored {dbg : Bool} {e e' : Eng} {now : Nat} {s : Session} {target : NodeId} {t : Nat}
    (hs : (s.vote.committed = true ∧ ∀ l, e.leader = some l → l.vote ≠ s.vote) ∨ s.mem ≠ e.st.ms.effective.logId)
    (hr : e.input dbg now (.hbProgress s target t) = .ok e') : e' = e := by
  have hm : e.sessionMatch s = false := by
    unfold Eng.sessionMatch
    rcases hs with ⟨h1, h2⟩ | h
    · have : e.voteMatch s.vote = false := by
        unfold Eng.voteMatch
        rw [if_pos h1]
        cases hl : e.leader with
        | none => rfl
        | some l => simpa using h2 l hl
      rw [this]; rfl
    · simp [h]
  have hr : e.coreHbProgress s target t = .ok e' := hr
  unfold Eng.coreHbProgress at hr
  rw [hm] at hr
  exact (Except.ok.inj hr).symm

/-! ## Concrete cases -/

/-- node 1 leads in term 1, and later in term 3 -/
def sA60 : Session := ⟨⟨⟨1, 1⟩, true⟩, some (lid 0 0 0)⟩
def sB60 : Session := ⟨⟨⟨3, 1⟩, true⟩, some (lid 0 0 0)⟩
/-- the heartbeats -/
def hA60 : HbEvent := ⟨10, sA60, some (lid 1 1 1)⟩
def hB60 : HbEvent := ⟨90, sB60, some (lid 3 1 5)⟩
/-- an answer -/
def ok60 : Option AppendResp := some .success

/-- term 1: workers for nodes 2 and 3, one heartbeat, both send it, node 2 answers. Term 3: the workers are replaced -/
def evs60 : List HbEv := [.rebuild sA60 [2, 3], .broadcast 10 (some (lid 1 1 1)), .wake 0, .wake 1, .read 1, .read 0, .answer 0 ok60, .answer 1 none,
  .rebuild sB60 [2, 3]]

/-- **C60 is false**: the worker for node 2 that the leader of term 3 spawned begins with the last heartbeat of term 1, of which the new receiver
has not seen the version. -/
theorem C60_false : ¬ C60_statement := by
  intro h
  have := (h sA60 (evs60 ++ [.wake 2, .read 2]) ⟨2, 1, .sends hA60, false, sB60, 1, [(1, hA60)]⟩ (by decide +kernel)).1 (1, hA60) (by decide)
  revert this
  decide

/-- **A heartbeat is sent twice**: it is broadcast between `changed` and the read, and is then a change again. -/
theorem C60_twice : ∃ w ∈ ((Hb.init sA60).run [.rebuild sA60 [2], .broadcast 10 none, .wake 0, .broadcast 20 none, .read 0, .answer 0 ok60, .wake 0,
    .read 0]).workers, w.sent = [(2, ⟨20, sA60, none⟩), (2, ⟨20, sA60, none⟩)] :=
  ⟨⟨2, 2, .sends ⟨20, sA60, none⟩, false, sA60, 0, [(2, ⟨20, sA60, none⟩), (2, ⟨20, sA60, none⟩)]⟩, by decide +kernel, rfl⟩

/-- `k` rounds of a worker that gets no answer -/
def hbAgain (k : Nat) : List HbEv := (List.replicate k [HbEv.wake 0, .read 0, .answer 0 none]).flatten

/-- one round -/
theorem hbAgain_once {h : Hb} {n : Nat} {l : List (Nat × HbEvent)} {e : HbEvent} (h1 : h.ch = ⟨none, [some e], true⟩)
    (h2 : h.workers = [⟨2, n, .waits, true, sA60, 0, l⟩]) :
    (h.run (hbAgain 1)).ch = h.ch ∧ (h.run (hbAgain 1)).workers = [⟨2, 1, .waits, true, sA60, 0, l ++ [(1, e)]⟩] := by
  obtain ⟨ch, ws, s, ns⟩ := h
  cases h1
  cases h2
  refine ⟨rfl, ?_⟩
  simp [hbAgain, Hb.run, Hb.step, Hb.upd, HbWorker.wake, HbWorker.read, HbWorker.answered, Watch.ver, Watch.val]

/-- **After the core has ended a worker may send the last heartbeat any number of times**: `changed` returns at once, with an error that is
ignored, and `select!` takes either of two branches that are ready. -/
theorem C60_after_end (k : Nat) : ∃ w, ((Hb.init sA60).run ([.rebuild sA60 [2], .broadcast 10 none, .drop] ++ hbAgain k)).workers = [w] ∧
    w.stop = true ∧ w.sent = List.replicate k (1, ⟨10, sA60, none⟩) := by
  have key : ((Hb.init sA60).run ([.rebuild sA60 [2], .broadcast 10 none, .drop] ++ hbAgain k)).ch = ⟨none, [some ⟨10, sA60, none⟩], true⟩ ∧
      ∃ n, ((Hb.init sA60).run ([.rebuild sA60 [2], .broadcast 10 none, .drop] ++ hbAgain k)).workers =
        [⟨2, n, .waits, true, sA60, 0, List.replicate k (1, ⟨10, sA60, none⟩)⟩] := by
    induction k with
    | zero => exact ⟨rfl, 0, rfl⟩
    | succ k ih =>
      obtain ⟨h1, n, h2⟩ := ih
      have hs : (Hb.init sA60).run ([.rebuild sA60 [2], .broadcast 10 none, .drop] ++ hbAgain (k + 1)) =
          ((Hb.init sA60).run ([.rebuild sA60 [2], .broadcast 10 none, .drop] ++ hbAgain k)).run (hbAgain 1) := by
        unfold hbAgain Hb.run
        rw [List.replicate_succ', List.flatten_append, ← List.append_assoc, List.foldl_append]
        rfl
      obtain ⟨k1, k2⟩ := hbAgain_once h1 h2
      rw [hs, k1, k2, h1, List.replicate_succ']
      exact ⟨rfl, 1, rfl⟩
  obtain ⟨_, n, h⟩ := key
  exact ⟨_, h, rfl, rfl⟩

/-- what the core is told: the answer of node 2 in term 1, its answer to the same heartbeat in term 3, its answer to the next one -/
example : ((Hb.init sA60).run (evs60 ++ [.wake 2, .read 2, .answer 2 ok60, .broadcast 90 (some (lid 3 1 5)), .wake 2, .read 2, .answer 2 ok60])).notes =
    [.hbProgress sA60 2 10, .hbProgress sA60 2 10, .hbProgress sB60 2 90] := rfl
/-- the worker of that run: one heartbeat of another session -/
example : ((Hb.init sA60).run (evs60 ++ [.wake 2, .read 2, .answer 2 ok60, .broadcast 90 (some (lid 3 1 5)), .wake 2, .read 2, .answer 2 ok60])).workers[2]? =
    some ⟨2, 2, .waits, false, sB60, 1, [(1, hA60), (2, hB60)]⟩ := by decide +kernel
/-- a worker that still sends the old heartbeat, and the next broadcast -/
example : ∃ w', ((Hb.init sA60).run ((evs60 ++ [.wake 3, .read 3]) ++ [.broadcast 90 none, .read 3, .answer 3 none, .wake 3, .read 3])).workers[3]? = some w' ∧
    w'.at_ = .sends ⟨90, sB60, none⟩ :=
  C60_latest sA60 _ (by decide +kernel) (i := 3) (w := ⟨3, 1, .sends hA60, false, sB60, 1, [(1, hA60)]⟩) (by decide +kernel) rfl 90 none none

/-- what is left, of that run: the worker of node 2 in term 3 sent one heartbeat of another session -/
example : ((((Hb.init sA60).run (evs60 ++ [.wake 2, .read 2])).workers.filter fun w => !w.stop).map fun w =>
    (w.target, (w.sent.filter fun p => decide (p.2.session ≠ w.session)).length)) = [(2, 1), (3, 0)] := by decide +kernel
/-- the leader of `w24` ignores the report about a heartbeat of term 7, which it did not send -/
example : ∀ e', s24.input false 12 (.hbProgress ⟨⟨⟨7, 1⟩, true⟩, ss24.mem⟩ 3 11) = .ok e' → e' = s24 :=
  fun _ h => C60_ignored (Or.inl ⟨rfl, by decide +kernel⟩) h

end Openraft.Props
