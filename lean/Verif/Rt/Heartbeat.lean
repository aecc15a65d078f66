import Verif.Rt.Watch
import Verif.Engine.Acked

/-!
# The heartbeat workers

`core/heartbeat/{handle,worker,event}.rs`: `RaftCore` publishes the last heartbeat on a watch channel; a worker for every target
sends it. The workers are replaced when the replication streams are rebuilt.

Simplifications: the core broadcasts in the session of the last rebuild (`send_heartbeat`, `engine/handler/leader_handler/mod.rs:99-107`, and
`rebuild_replication_streams` take both from the same leader; commands are executed in order); the targets of a rebuild are any list.
`changed` and `borrow_watched` are two steps, since a broadcast may come in between on another thread. The receiver that is
cloned for a new worker never looked at the channel, so it has seen the version 0 (`tokio::sync::watch::Receiver::clone` keeps the version seen).
Fields marked "record" are not in the code.
-/

set_option autoImplicit false

namespace Openraft.Rt
open Openraft.Engine (Session Input AppendResp hbWorker)

/-- `HeartbeatEvent`, `core/heartbeat/event.rs:11-34` -/
structure HbEvent where
  time : Nat
  session : Session
  committed : Option LogId
deriving DecidableEq, Repr

/-- where the loop of a worker is, `core/heartbeat/worker.rs:63-113` -/
inductive HbPlace where
  /-- in `select!`, lines 67-73 -/
  | waits
  /-- `changed` has returned, line 75 -/
  | reads
  /-- the request is sent, line 92 -/
  | sends (e : HbEvent)
  | gone
deriving DecidableEq, Repr

/-- `HeartbeatWorker`, `core/heartbeat/worker.rs:23-46`. `stop`: the sender of `rx_shutdown` was dropped. Records: the session of the rebuild and the version of the
channel when it was spawned, and what it sent with the version of the channel. -/
structure HbWorker where
  target : NodeId
  seen : Nat
  at_ : HbPlace
  stop : Bool
  session : Session
  born : Nat
  sent : List (Nat × HbEvent)
deriving DecidableEq, Repr

/-- `HeartbeatWorkersHandle`, `core/heartbeat/handle.rs:22-40`, with all workers that were ever spawned, the session of the last rebuild and the
notifications that were sent -/
structure Hb where
  ch : Watch (Option HbEvent)
  workers : List HbWorker
  session : Session
  notes : List Input

/-- `HeartbeatWorkersHandle::new`, `core/heartbeat/handle.rs:45-55` -/
def Hb.init (s : Session) : Hb := ⟨⟨none, [], false⟩, [], s, []⟩

/-- what happens -/
inductive HbEv where
  /-- `broadcast`, `core/heartbeat/handle.rs:57-60` -/
  | broadcast (time : Nat) (committed : Option LogId)
  /-- `shutdown` and `spawn_workers`, `core/raft_core.rs:839-842, 1770-1786` -/
  | rebuild (s : Session) (targets : List NodeId)
  /-- the core ends: the sender of the channel and those of all `rx_shutdown` are dropped -/
  | drop
  /-- a worker takes the branch `changed` of `select!`, which returns when there is a version it has not seen or the sender is gone;
  its error is ignored, line 72 -/
  | wake (i : Nat)
  /-- a worker takes the branch `rx_shutdown`, lines 68-71 -/
  | quit (i : Nat)
  /-- `borrow_watched` and the request, lines 75-92 -/
  | read (i : Nat)
  /-- the answer, an error or a timeout, lines 95-111 -/
  | answer (i : Nat) (r : Option AppendResp)

/-- change a worker -/
def Hb.upd (h : Hb) (i : Nat) (f : HbWorker → HbWorker) : Hb := { h with workers := h.workers.modify i f }

/-- `changed` returns -/
def HbWorker.wake (ch : Watch (Option HbEvent)) (w : HbWorker) : HbWorker :=
  if w.at_ = .waits ∧ (w.seen ≠ ch.ver ∨ ch.closed = true) then { w with seen := ch.ver, at_ := .reads } else w

/-- `rx_shutdown` is ready -/
def HbWorker.quit (w : HbWorker) : HbWorker := if w.at_ = .waits ∧ w.stop = true then { w with at_ := .gone } else w

/-- the value is read and sent; `None` is ignored -/
def HbWorker.read (ch : Watch (Option HbEvent)) (w : HbWorker) : HbWorker :=
  if w.at_ = .reads then
    match ch.val with
    | none => { w with at_ := .waits }
    | some e => { w with at_ := .sends e, sent := w.sent ++ [(ch.ver, e)] }
  else w

/-- the notification for an answer, `hbWorker` of `Engine/Acked.lean` -/
def HbWorker.note (w : HbWorker) (r : Option AppendResp) : Option Input :=
  match w.at_ with
  | .sends e => hbWorker e.session w.target e.time r
  | _ => none

/-- after an answer the loop goes on, unless the core is gone: then a notification cannot be sent -/
def HbWorker.answered (closed : Bool) (r : Option AppendResp) (w : HbWorker) : HbWorker :=
  match w.at_ with
  | .sends _ => { w with at_ := if closed && r.isSome then .gone else .waits }
  | _ => w

/-- one step -/
def Hb.step (h : Hb) : HbEv → Hb
  | .broadcast t c => if h.ch.closed then h else { h with ch := h.ch.send (some ⟨t, h.session, c⟩) }
  | .rebuild s ts =>
    if h.ch.closed then h
    else { h with session := s, workers := h.workers.map (fun w => { w with stop := true }) ++ ts.map fun t => ⟨t, 0, .waits, false, s, h.ch.ver, []⟩ }
  | .drop => { h with ch := { h.ch with closed := true }, workers := h.workers.map fun w => { w with stop := true } }
  | .wake i => h.upd i (·.wake h.ch)
  | .quit i => h.upd i (·.quit)
  | .read i => h.upd i (·.read h.ch)
  | .answer i r =>
    { h.upd i (·.answered h.ch.closed r) with
      notes := h.notes ++ if h.ch.closed then [] else ((h.workers[i]?).bind (·.note r)).toList }

/-- steps in a row -/
def Hb.run (h : Hb) (evs : List HbEv) : Hb := evs.foldl Hb.step h

/-! ## The invariant -/

/-- what was broadcast as number `v`, counted from one -/
def HbAt (ch : Watch (Option HbEvent)) (v : Nat) (e : HbEvent) : Prop := 0 < v ∧ ch.sent[v - 1]? = some (some e)

/-- how often a worker sent what was broadcast as number `v` -/
def HbWorker.times (w : HbWorker) (v : Nat) : Nat := (w.sent.filter fun p => p.1 == v).length
/-- how many heartbeats it sent that were broadcast before it was spawned -/
def HbWorker.stale (w : HbWorker) : Nat := (w.sent.filter fun p => decide (p.1 ≤ w.born)).length

/-- what is true of a worker -/
structure WOk (ch : Watch (Option HbEvent)) (s : Session) (w : HbWorker) : Prop where
  seen : w.seen ≤ ch.ver
  born : w.born ≤ ch.ver
  sent : ∀ p ∈ w.sent, HbAt ch p.1 p.2 ∧ p.1 ≤ ch.ver
  order : w.sent.Pairwise fun p q => p.1 ≤ q.1
  busy : ∀ e, w.at_ = .sends e → ∃ v, (v, e) ∈ w.sent
  session : w.stop = false → w.session = s ∧ ∀ v, w.born < v → ∀ e, HbAt ch v e → e.session = w.session

/-- what is also true as long as the core is there -/
structure WOpen (ch : Watch (Option HbEvent)) (w : HbWorker) : Prop where
  looked : w.seen = 0 ∨ w.born ≤ w.seen
  fresh : w.seen = 0 → w.sent = [] ∧ w.at_ ≠ .reads
  stale : w.stale ≤ 1
  reads : w.at_ = .reads → (w.stale = 0 ∨ w.born < ch.ver) ∧ (∀ p ∈ w.sent, p.1 ≤ w.seen) ∧ w.times w.seen ≤ 1
  two : ∀ v, w.times v ≤ 2
  one : ∀ v, w.seen < v → w.times v ≤ 1

/-- the invariant -/
structure HbInv (h : Hb) : Prop where
  ok : ∀ w ∈ h.workers, WOk h.ch h.session w
  open_ : h.ch.closed = false → ∀ w ∈ h.workers, WOpen h.ch w
  notes : ∀ x ∈ h.notes, ∃ w ∈ h.workers, ∃ p ∈ w.sent, x = .hbProgress p.2.session w.target p.2.time

theorem HbAt.send {ch : Watch (Option HbEvent)} {v : Nat} {e : HbEvent} {x : Option HbEvent} (h : HbAt ch v e) : HbAt (ch.send x) v e := by
  refine ⟨h.1, ?_⟩
  have := h.2
  show (ch.sent ++ [x])[v - 1]? = _
  rw [List.getElem?_append_left]
  · exact this
  · exact (List.getElem?_eq_some_iff.1 this).1

theorem HbAt.of_send {ch : Watch (Option HbEvent)} {v : Nat} {e : HbEvent} {x : Option HbEvent} (h : HbAt (ch.send x) v e) :
    HbAt ch v e ∨ x = some e := by
  have h2 : (ch.sent ++ [x])[v - 1]? = some (some e) := h.2
  by_cases hl : v - 1 < ch.sent.length
  · rw [List.getElem?_append_left hl] at h2
    exact Or.inl ⟨h.1, h2⟩
  · rw [List.getElem?_append_right (by omega)] at h2
    cases hk : v - 1 - ch.sent.length with
    | zero => rw [hk] at h2; exact Or.inr (by simpa using h2)
    | succ k => rw [hk] at h2; simp at h2

theorem HbAt.le {ch : Watch (Option HbEvent)} {v : Nat} {e : HbEvent} (h : HbAt ch v e) : v ≤ ch.ver := by
  have := (List.getElem?_eq_some_iff.1 h.2).1
  have h0 := h.1
  unfold Watch.ver
  omega

theorem HbAt.val {ch : Watch (Option HbEvent)} {e : HbEvent} (hf : ch.first = none) (h : ch.val = some e) : HbAt ch ch.ver e := by
  unfold Watch.val at h
  cases hl : ch.sent.getLast? with
  | none => rw [hl, hf] at h; cases h
  | some x =>
    rw [hl] at h
    have h : x = some e := h
    subst h
    rw [List.getLast?_eq_getElem?] at hl
    have hlt := (List.getElem?_eq_some_iff.1 hl).1
    exact ⟨by unfold Watch.ver; omega, hl⟩

theorem times_snoc (w : HbWorker) (q : Nat × HbEvent) (v : Nat) (x : HbPlace) :
    HbWorker.times { w with at_ := x, sent := w.sent ++ [q] } v = w.times v + if q.1 = v then 1 else 0 := by
  unfold HbWorker.times
  by_cases h : q.1 = v <;> simp [h]

theorem stale_snoc (w : HbWorker) (q : Nat × HbEvent) (x : HbPlace) :
    HbWorker.stale { w with at_ := x, sent := w.sent ++ [q] } = w.stale + if q.1 ≤ w.born then 1 else 0 := by
  unfold HbWorker.stale
  by_cases h : q.1 ≤ w.born <;> simp [h]

theorem times_none {w : HbWorker} {v : Nat} (h : ∀ p ∈ w.sent, p.1 < v) : w.times v = 0 := by
  unfold HbWorker.times
  rw [List.length_eq_zero_iff, List.filter_eq_nil_iff]
  intro p hp
  have := h p hp
  simp; omega

section
variable {ch : Watch (Option HbEvent)} {s : Session} {w : HbWorker}

theorem WOk.wake (h : WOk ch s w) : WOk ch s (w.wake ch) := by
  unfold HbWorker.wake
  split
  · exact ⟨Nat.le_refl _, h.born, h.sent, h.order, fun e he => (by cases he), h.session⟩
  · exact h

theorem WOk.quit (h : WOk ch s w) : WOk ch s w.quit := by
  unfold HbWorker.quit
  split
  · exact ⟨h.seen, h.born, h.sent, h.order, fun e he => (by cases he), h.session⟩
  · exact h

theorem WOk.read (hf : ch.first = none) (h : WOk ch s w) : WOk ch s (w.read ch) := by
  unfold HbWorker.read
  split
  · split
    · exact ⟨h.seen, h.born, h.sent, h.order, fun e he => (by cases he), h.session⟩
    · next e he =>
      have hat := HbAt.val hf he
      refine ⟨h.seen, h.born, ?_, ?_, ?_, h.session⟩
      · intro p hp
        rcases List.mem_append.1 hp with hp | hp
        · exact h.sent p hp
        · cases List.mem_singleton.1 hp; exact ⟨hat, Nat.le_refl _⟩
      · show (w.sent ++ [_]).Pairwise _
        rw [List.pairwise_append]
        refine ⟨h.order, List.pairwise_singleton _ _, fun a ha b hb => ?_⟩
        cases List.mem_singleton.1 hb
        exact (h.sent a ha).2
      · intro e' he'
        cases he'
        exact ⟨ch.ver, by simp⟩
  · exact h

theorem WOk.answered (h : WOk ch s w) (c : Bool) (r : Option AppendResp) : WOk ch s (w.answered c r) := by
  unfold HbWorker.answered
  split
  · refine ⟨h.seen, h.born, h.sent, h.order, fun e he => ?_, h.session⟩
    simp only at he
    split at he <;> cases he
  · exact h

theorem WOpen.wake (k : WOk ch s w) (hc : ch.closed = false) (h : WOpen ch w) : WOpen ch (w.wake ch) := by
  unfold HbWorker.wake
  split
  · next hw =>
    have hne : w.seen ≠ ch.ver := by
      rcases hw.2 with h1 | h1
      · exact h1
      · rw [hc] at h1; cases h1
    have hlt : w.seen < ch.ver := Nat.lt_of_le_of_ne k.seen hne
    refine ⟨Or.inr k.born, fun h0 => ?_, h.stale, fun _ => ⟨?_, fun p hp => (k.sent p hp).2, h.one _ hlt⟩, h.two, ?_⟩
    · have h0 : ch.ver = 0 := h0
      omega
    · rcases h.looked with h1 | h1
      · left
        show HbWorker.stale { w with seen := _, at_ := _ } = 0
        unfold HbWorker.stale
        rw [(h.fresh h1).1]; rfl
      · exact Or.inr (Nat.lt_of_le_of_lt h1 hlt)
    · intro v hv
      have hv : ch.ver < v := hv
      have : w.times v = 0 := times_none fun p hp => Nat.lt_of_le_of_lt (k.sent p hp).2 hv
      show w.times v ≤ 1
      omega
  · exact h

theorem WOpen.quit (h : WOpen ch w) : WOpen ch w.quit := by
  unfold HbWorker.quit
  split
  · exact ⟨h.looked, fun h0 => ⟨(h.fresh h0).1, fun k => by cases k⟩, h.stale, (fun k => by cases k), h.two, h.one⟩
  · exact h

theorem WOpen.read (k : WOk ch s w) (h : WOpen ch w) : WOpen ch (w.read ch) := by
  unfold HbWorker.read
  split
  · next ha =>
    obtain ⟨r1, r2, r3⟩ := h.reads ha
    have hs : w.seen ≠ 0 := fun h0 => (h.fresh h0).2 ha
    split
    · exact ⟨h.looked, fun h0 => absurd h0 hs, h.stale, (fun k => by cases k), h.two, h.one⟩
    · next e he =>
      have hz : w.seen < ch.ver → w.times ch.ver = 0 := fun hlt => times_none fun p hp => Nat.lt_of_le_of_lt (r2 p hp) hlt
      refine ⟨h.looked, fun h0 => absurd h0 hs, ?_, (fun k => by cases k), ?_, ?_⟩
      · rw [stale_snoc]
        have := h.stale
        show w.stale + (if ch.ver ≤ w.born then 1 else 0) ≤ 1
        rcases r1 with r1 | r1
        · rw [r1]; split <;> omega
        · rw [if_neg (by omega)]; omega
      · intro v
        rw [times_snoc]
        show w.times v + (if ch.ver = v then 1 else 0) ≤ 2
        have h2 := h.two v
        split
        · next hv =>
          subst hv
          rcases Nat.lt_or_ge w.seen ch.ver with h3 | h3
          · rw [hz h3]; omega
          · have : w.seen = ch.ver := Nat.le_antisymm k.seen h3
            rw [← this]; omega
        · omega
      · intro v hv
        rw [times_snoc]
        show w.times v + (if ch.ver = v then 1 else 0) ≤ 1
        have hv : w.seen < v := hv
        have h1 := h.one v hv
        split
        · next hv' => subst hv'; rw [hz hv]
        · omega
  · exact h

theorem WOpen.answered (h : WOpen ch w) (c : Bool) (r : Option AppendResp) : WOpen ch (w.answered c r) := by
  unfold HbWorker.answered
  split
  · refine ⟨h.looked, fun h0 => ⟨(h.fresh h0).1, ?_⟩, h.stale, ?_, h.two, h.one⟩
    · simp only; split <;> decide
    · intro he
      simp only at he
      split at he <;> cases he
  · exact h

end

theorem modify_mem {α : Type} {f : α → α} {l : List α} {i : Nat} {y : α} (h : y ∈ l.modify i f) : y ∈ l ∨ ∃ x ∈ l, y = f x := by
  induction l generalizing i with
  | nil => cases i <;> cases h
  | cons a l ih =>
    cases i with
    | zero =>
      simp only [List.modify_zero_cons, List.mem_cons] at h
      rcases h with rfl | h
      · exact Or.inr ⟨a, by simp, rfl⟩
      · exact Or.inl (by simp [h])
    | succ i =>
      simp only [List.modify_succ_cons, List.mem_cons] at h
      rcases h with rfl | h
      · exact Or.inl (by simp)
      · rcases ih h with h | ⟨x, hx, rfl⟩
        · exact Or.inl (by simp [h])
        · exact Or.inr ⟨x, by simp [hx], rfl⟩

theorem modify_mem' {α : Type} {f : α → α} {l : List α} {i : Nat} {x : α} (h : x ∈ l) : x ∈ l.modify i f ∨ f x ∈ l.modify i f := by
  induction l generalizing i with
  | nil => cases h
  | cons a l ih =>
    cases i with
    | zero =>
      simp only [List.modify_zero_cons, List.mem_cons] at h ⊢
      rcases h with rfl | h
      · exact Or.inr (Or.inl rfl)
      · exact Or.inl (Or.inr h)
    | succ i =>
      simp only [List.modify_succ_cons, List.mem_cons] at h ⊢
      rcases h with rfl | h
      · exact Or.inl (Or.inl rfl)
      · rcases ih (i := i) h with h | h
        · exact Or.inl (Or.inr h)
        · exact Or.inr (Or.inr h)

/-- a worker keeps its target and what it sent -/
structure Keeps (w w' : HbWorker) : Prop where
  target : w'.target = w.target
  sent : ∀ p ∈ w.sent, p ∈ w'.sent

theorem keeps_wake (ch : Watch (Option HbEvent)) (w : HbWorker) : Keeps w (w.wake ch) := by
  unfold HbWorker.wake; split <;> exact ⟨rfl, fun p hp => hp⟩
theorem keeps_quit (w : HbWorker) : Keeps w w.quit := by
  unfold HbWorker.quit; split <;> exact ⟨rfl, fun p hp => hp⟩
theorem keeps_read (ch : Watch (Option HbEvent)) (w : HbWorker) : Keeps w (w.read ch) := by
  unfold HbWorker.read
  split
  · split
    · exact ⟨rfl, fun p hp => hp⟩
    · exact ⟨rfl, fun p hp => List.mem_append_left _ hp⟩
  · exact ⟨rfl, fun p hp => hp⟩
theorem keeps_answered (c : Bool) (r : Option AppendResp) (w : HbWorker) : Keeps w (w.answered c r) := by
  unfold HbWorker.answered; split <;> exact ⟨rfl, fun p hp => hp⟩

/-- where a notification comes from -/
def NoteOk (ws : List HbWorker) (x : Input) : Prop := ∃ w ∈ ws, ∃ p ∈ w.sent, x = .hbProgress p.2.session w.target p.2.time

theorem NoteOk.modify {ws : List HbWorker} {x : Input} {f : HbWorker → HbWorker} (i : Nat) (hf : ∀ w, Keeps w (f w)) (h : NoteOk ws x) :
    NoteOk (ws.modify i f) x := by
  obtain ⟨w, hw, p, hp, rfl⟩ := h
  rcases modify_mem' (f := f) (i := i) hw with h1 | h1
  · exact ⟨w, h1, p, hp, rfl⟩
  · exact ⟨f w, h1, p, (hf w).sent p hp, by rw [(hf w).target]⟩

theorem HbInv.upd {h : Hb} (hi : HbInv h) (i : Nat) {f : HbWorker → HbWorker} (hk : ∀ w, Keeps w (f w))
    (h1 : ∀ w ∈ h.workers, WOk h.ch h.session w → WOk h.ch h.session (f w))
    (h2 : h.ch.closed = false → ∀ w ∈ h.workers, WOk h.ch h.session w → WOpen h.ch w → WOpen h.ch (f w)) : HbInv (h.upd i f) := by
  refine ⟨fun w hw => ?_, fun hc w hw => ?_, fun x hx => NoteOk.modify i hk (hi.notes x hx)⟩
  · rcases modify_mem hw with hw | ⟨w0, hw0, rfl⟩
    · exact hi.ok w hw
    · exact h1 w0 hw0 (hi.ok w0 hw0)
  · rcases modify_mem hw with hw | ⟨w0, hw0, rfl⟩
    · exact hi.open_ hc w hw
    · exact h2 hc w0 hw0 (hi.ok w0 hw0) (hi.open_ hc w0 hw0)

theorem HbInv.step {h : Hb} (hf : h.ch.first = none) (hi : HbInv h) (ev : HbEv) : HbInv (h.step ev) ∧ (h.step ev).ch.first = none := by
  cases ev with
  | wake i => exact ⟨hi.upd i (keeps_wake _) (fun w _ k => k.wake) (fun hc w _ k o => o.wake k hc), hf⟩
  | quit i => exact ⟨hi.upd i keeps_quit (fun w _ k => k.quit) (fun _ w _ _ o => o.quit), hf⟩
  | read i => exact ⟨hi.upd i (keeps_read _) (fun w _ k => k.read hf) (fun _ w _ k o => o.read k), hf⟩
  | answer i r =>
    have h1 := hi.upd i (keeps_answered h.ch.closed r) (fun w _ k => k.answered _ r) (fun _ w _ _ o => o.answered _ r)
    refine ⟨⟨h1.ok, h1.open_, ?_⟩, hf⟩
    intro x hx
    rcases List.mem_append.1 (show x ∈ h.notes ++ _ from hx) with hx | hx
    · exact h1.notes x hx
    · split at hx
      · cases hx
      · refine NoteOk.modify i (keeps_answered _ r) ?_
        cases hw : h.workers[i]? with
        | none => rw [hw] at hx; cases hx
        | some w =>
          rw [hw] at hx
          have hx : w.note r = some x := by simpa using hx
          unfold HbWorker.note at hx
          split at hx
          · next e he =>
            obtain ⟨v, hv⟩ := (hi.ok w (List.mem_of_getElem? hw)).busy e he
            refine ⟨w, List.mem_of_getElem? hw, (v, e), hv, ?_⟩
            cases r with
            | none => cases hx
            | some r => exact (Option.some.inj hx).symm
          · cases hx
  | drop =>
    refine ⟨⟨fun w hw => ?_, fun hc => (by cases hc), fun x hx => ?_⟩, hf⟩
    · obtain ⟨w0, hw0, rfl⟩ := List.mem_map.1 hw
      have k := hi.ok w0 hw0
      exact ⟨k.seen, k.born, k.sent, k.order, k.busy, fun k => by cases k⟩
    · obtain ⟨w, hw, p, hp, rfl⟩ := hi.notes x hx
      exact ⟨_, List.mem_map.2 ⟨w, hw, rfl⟩, p, hp, rfl⟩
  | broadcast t c =>
    cases hcl : h.ch.closed with
    | true => simp only [Hb.step, hcl]; exact ⟨hi, hf⟩
    | false =>
      simp only [Hb.step, hcl, Bool.false_eq_true, if_false]
      refine ⟨⟨fun w hw => ?_, fun hc w hw => ?_, hi.notes⟩, hf⟩
      · have k := hi.ok w hw
        have hver : (h.ch.send (some ⟨t, h.session, c⟩)).ver = h.ch.ver + 1 := by simp [Watch.ver, Watch.send]
        refine ⟨by rw [hver]; exact Nat.le_succ_of_le k.seen, by rw [hver]; exact Nat.le_succ_of_le k.born,
          fun p hp => ⟨(k.sent p hp).1.send, by rw [hver]; exact Nat.le_succ_of_le (k.sent p hp).2⟩, k.order, k.busy, fun hs => ?_⟩
        obtain ⟨k1, k2⟩ := k.session hs
        refine ⟨k1, fun v hv e he => ?_⟩
        rcases he.of_send with he | he
        · exact k2 v hv e he
        · cases he; exact k1.symm
      · have o := hi.open_ hc w hw
        have hver : (h.ch.send (some ⟨t, h.session, c⟩)).ver = h.ch.ver + 1 := by simp [Watch.ver, Watch.send]
        refine ⟨o.looked, o.fresh, o.stale, fun ha => ?_, o.two, o.one⟩
        obtain ⟨r1, r2⟩ := o.reads ha
        exact ⟨r1.imp id fun h => by rw [hver]; omega, r2⟩
  | rebuild s ts =>
    cases hcl : h.ch.closed with
    | true => simp only [Hb.step, hcl]; exact ⟨hi, hf⟩
    | false =>
      simp only [Hb.step, hcl, Bool.false_eq_true, if_false]
      refine ⟨⟨fun w hw => ?_, fun hc w hw => ?_, fun x hx => ?_⟩, hf⟩
      · rcases List.mem_append.1 hw with hw | hw
        · obtain ⟨w0, hw0, rfl⟩ := List.mem_map.1 hw
          have k := hi.ok w0 hw0
          exact ⟨k.seen, k.born, k.sent, k.order, k.busy, fun k => by cases k⟩
        · obtain ⟨t, _, rfl⟩ := List.mem_map.1 hw
          refine ⟨Nat.zero_le _, Nat.le_refl _, fun p hp => (by cases hp), List.Pairwise.nil, fun e he => (by cases he), fun _ => ⟨rfl, fun v hv e he => ?_⟩⟩
          have h1 : v ≤ h.ch.ver := he.le
          have h2 : h.ch.ver < v := hv
          omega
      · rcases List.mem_append.1 hw with hw | hw
        · obtain ⟨w0, hw0, rfl⟩ := List.mem_map.1 hw
          have o := hi.open_ hc w0 hw0
          exact ⟨o.looked, o.fresh, o.stale, o.reads, o.two, o.one⟩
        · obtain ⟨t, _, rfl⟩ := List.mem_map.1 hw
          exact ⟨Or.inl rfl, fun _ => ⟨rfl, fun k => by cases k⟩, by simp [HbWorker.stale], (fun k => by cases k), fun v => by simp [HbWorker.times],
            fun v _ => by simp [HbWorker.times]⟩
      · obtain ⟨w, hw, p, hp, rfl⟩ := hi.notes x hx
        exact ⟨_, List.mem_append_left _ (List.mem_map.2 ⟨w, hw, rfl⟩), p, hp, rfl⟩

theorem HbInv.run (s : Session) (evs : List HbEv) : HbInv ((Hb.init s).run evs) ∧ ((Hb.init s).run evs).ch.first = none := by
  have gen : ∀ (evs : List HbEv) (h : Hb), HbInv h → h.ch.first = none → HbInv (h.run evs) ∧ (h.run evs).ch.first = none := by
    intro evs
    induction evs with
    | nil => exact fun h h1 h2 => ⟨h1, h2⟩
    | cons ev evs ih => exact fun h h1 h2 => ih _ (h1.step h2 ev).1 (h1.step h2 ev).2
  exact gen evs _ ⟨fun w hw => (by cases hw), fun _ w hw => (by cases hw), fun x hx => (by cases hx)⟩ rfl

end Openraft.Rt
