import Verif.Engine.MemInv
import Verif.Pure.ProgressLemmas

/-!
# Engine functions that leave log, membership and vote alone
-/

set_option autoImplicit false

namespace Openraft.VecProgress
variable {α : Type} [LinearOrder α]

/-- a predicate holds for every value of a progress vector and for the granted value -/
def All (P : α → Prop) (p : VecProgress α) : Prop := (∀ e ∈ p.vector, P e.2) ∧ P p.granted

theorem moveUp_mem (v : List (NodeId × α)) (i : Nat) : ∀ e ∈ (moveUp v i).1, e ∈ v := by
  induction i generalizing v with
  | zero => intro e h; exact h
  | succ i ih =>
    intro e he
    rw [moveUp] at he
    split at he
    · next a b ha hb =>
      split at he
      · have h1 := ih _ e he
        rcases List.mem_or_eq_of_mem_set h1 with h2 | h2
        · rcases List.mem_or_eq_of_mem_set h2 with h3 | h3
          · exact h3
          · subst h3; exact List.mem_of_getElem? hb
        · subst h2; exact List.mem_of_getElem? ha
      · exact he
    · exact he

theorem scanLoop_mem (configs : List (List NodeId)) (g : α) (v : List (NodeId × α)) (n i : Nat) :
    scanLoop configs g v n i = g ∨ ∃ e ∈ v, scanLoop configs g v n i = e.2 := by
  induction n generalizing i with
  | zero => left; rfl
  | succ n ih =>
    rw [scanLoop]
    split
    · left; rfl
    · next id prog hv =>
      split
      · left; rfl
      · split
        · right; exact ⟨_, List.mem_of_getElem? hv, rfl⟩
        · exact ih (i + 1)

theorem All.update {P : α → Prop} {p p' : VecProgress α} {id : NodeId} {x : α} (h : p.All P) (hx : P x)
    (hu : p.update id x = some p') : p'.All P := by
  have hset : ∀ idx, ∀ e ∈ p.vector.set idx (id, x), P e.2 := by
    intro idx e he
    rcases List.mem_or_eq_of_mem_set he with h1 | h1
    · exact h.1 e h1
    · subst h1; exact hx
  unfold VecProgress.update at hu
  split at hu
  · cases hu
  · next idx hidx =>
    split at hu
    · cases hu
    · next prev hprev =>
      simp only at hu
      split at hu
      · cases hu; exact ⟨hset idx, h.2⟩
      · split at hu
        · cases hu; exact ⟨hset idx, h.2⟩
        · split at hu
          · cases hu
            have hv : ∀ e ∈ (moveUp (p.vector.set idx (id, x)) idx).1, P e.2 :=
              fun e he => hset idx e (moveUp_mem _ _ e he)
            refine ⟨hv, ?_⟩
            show P (scan _ _ _ _ _)
            unfold scan
            rcases scanLoop_mem p.configs p.granted (moveUp (p.vector.set idx (id, x)) idx).1
              (p.voterCount - (moveUp (p.vector.set idx (id, x)) idx).2)
              (moveUp (p.vector.set idx (id, x)) idx).2 with h1 | ⟨e, he, h1⟩
            · rw [h1]; exact h.2
            · rw [h1]; exact hv e he
          · cases hu; exact ⟨hset idx, h.2⟩

theorem All.new {P : α → Prop} (configs : List (List NodeId)) (learners : List NodeId) {d : α} (hd : P d) :
    (VecProgress.new configs learners d).All P := by
  refine ⟨?_, hd⟩
  intro e he
  simp only [VecProgress.new, List.mem_append, List.mem_map] at he
  rcases he with ⟨_, _, rfl⟩ | ⟨_, _, rfl⟩ <;> exact hd

theorem All.upgrade {P : α → Prop} {p : VecProgress α} (h : p.All P) (configs : List (List NodeId))
    (learners : List NodeId) {d : α} (hd : P d) : (p.upgrade configs learners d).All P := by
  have : ∀ (l : List (NodeId × α)) (q : VecProgress α), (∀ e ∈ l, P e.2) → q.All P →
      (l.foldl (fun np e => (np.update e.1 e.2).getD np) q).All P := by
    intro l
    induction l with
    | nil => intro q _ hq; exact hq
    | cons a l ih =>
      intro q hl hq
      rw [List.foldl_cons]
      refine ih _ (fun e he => hl e (by simp [he])) ?_
      cases hu : q.update a.1 a.2 with
      | none => exact hq
      | some q' => exact hq.update (hl a (by simp)) hu
  exact this _ _ h.1 (All.new configs learners hd)

end Openraft.VecProgress

namespace Openraft.Engine
open Openraft.Repl (Panic dassert Inflight)
open LogIdList

/-- two leaders that differ only in timing, transfer and inflight data -/
def LSame : Option Leader → Option Leader → Prop
  | none, none => True
  | some a, some b => b.vote = a.vote ∧ b.lastLogId = a.lastLogId ∧ b.progress.vp = a.progress.vp ∧
      b.noopLogId = a.noopLogId
  | _, _ => False

theorem LSame.refl (a : Option Leader) : LSame a a := by cases a <;> simp [LSame]

theorem LSame.trans {a b c : Option Leader} (h1 : LSame a b) (h2 : LSame b c) : LSame a c := by
  cases a <;> cases b <;> cases c <;> simp_all [LSame]

/-- `e'` differs from `e` only in data that no invariant of the log, the membership, the vote or the
leader's role reads, and in commands without effect on these -/
structure Frame (e e' : Eng) : Prop where
  cfg : e'.cfg = e.cfg
  lv : e'.st.lv = e.st.lv
  ms : e'.st.ms = e.st.ms
  acc : e'.st.io.prog.accepted = e.st.io.prog.accepted
  srv : e.leader.isSome → e'.st.server = e.st.server
  cand : e'.candidate = e.candidate
  lead : LSame e.leader e'.leader
  out : ∃ cs, e'.out = e.out ++ cs ∧ ∀ c ∈ cs, c.inert = true

theorem Frame.refl (e : Eng) : Frame e e :=
  ⟨rfl, rfl, rfl, rfl, fun _ => rfl, rfl, LSame.refl _, [], by simp, by simp⟩

theorem Frame.trans {a b c : Eng} (h1 : Frame a b) (h2 : Frame b c) : Frame a c := by
  obtain ⟨cs1, o1, i1⟩ := h1.out
  obtain ⟨cs2, o2, i2⟩ := h2.out
  have hl : a.leader.isSome → b.leader.isSome := by
    have := h1.lead
    intro ha
    cases hb : b.leader with
    | none => rw [hb] at this; cases hx : a.leader <;> simp_all [LSame]
    | some _ => rfl
  refine ⟨h2.cfg.trans h1.cfg, h2.lv.trans h1.lv, h2.ms.trans h1.ms, h2.acc.trans h1.acc,
    fun ha => (h2.srv (hl ha)).trans (h1.srv ha), h2.cand.trans h1.cand, h1.lead.trans h2.lead,
    cs1 ++ cs2, by rw [o2, o1, List.append_assoc], ?_⟩
  intro c hc
  rcases List.mem_append.1 hc with h | h
  · exact i1 c h
  · exact i2 c h

theorem Frame.push (e : Eng) {c : Cmd} (h : c.inert = true) : Frame e (e.push c) :=
  ⟨rfl, rfl, rfl, rfl, fun _ => rfl, rfl, LSame.refl _, [c], rfl, by simpa using h⟩

namespace Eng

/-- `update_server_state_if_changed` on a node without a leader -/
theorem frame_updateServer {e : Eng} (h : e.leader = none) : Frame e e.updateServerState :=
  ⟨rfl, rfl, rfl, rfl, fun hl => (by rw [h] at hl; cases hl), rfl, LSame.refl _, [], by simp [updateServerState], by simp⟩

theorem frame_triggerSnapshot (e : Eng) : Frame e e.triggerSnapshot := by
  unfold triggerSnapshot
  split
  · exact Frame.refl e
  · exact ⟨rfl, rfl, rfl, rfl, fun _ => rfl, rfl, LSame.refl _, [.sm .build], rfl, by simp [Cmd.inert]⟩

theorem frame_maybeSnapshot (e : Eng) : Frame e e.maybeSnapshot := by
  unfold maybeSnapshot
  split
  · exact frame_triggerSnapshot e
  · exact Frame.refl e

theorem initLoop_inert {dbg : Bool} {me : NodeId} {v : Repl.LogView} {max : Nat} {ns : List NodeId}
    {ent ent' : NodeId → Repl.Entry} {out out' : List Cmd}
    (h : rhInitLoop dbg me v max ns ent out = .ok (ent', out')) (ho : ∀ c ∈ out, ∃ n req, c = .replicate n req) :
    ∀ c ∈ out', ∃ n req, c = .replicate n req := by
  induction ns generalizing ent out with
  | nil =>
    rw [rhInitLoop, pure_ok] at h
    cases h; exact ho
  | cons n ns ih =>
    rw [rhInitLoop] at h
    split at h
    · exact ih h ho
    · rw [bind_ok] at h
      obtain ⟨⟨sent, en⟩, _, h⟩ := h
      simp only at h
      split at h
      · rw [bind_ok] at h
        obtain ⟨req, _, h⟩ := h
        refine ih h ?_
        intro c hc
        rcases List.mem_append.1 hc with h1 | h1
        · exact ho c h1
        · simp at h1; exact ⟨_, _, h1⟩
      · exact ih h ho

theorem frame_rhInitiate {dbg : Bool} {e e' : Eng} {l : Leader} (hl : LSame e.leader (some l))
    (h : rhInitiate dbg e l = .ok e') : Frame e e' := by
  unfold rhInitiate at h
  rw [bind_ok] at h
  obtain ⟨⟨ent, cmds⟩, h1, h⟩ := h
  simp only [pure_ok] at h
  subst h
  have hi := initLoop_inert h1 (by simp)
  refine ⟨rfl, rfl, rfl, rfl, fun _ => rfl, rfl, hl.trans (by simp [LSame]), cmds, rfl, ?_⟩
  intro c hc
  obtain ⟨n, req, rfl⟩ := hi c hc
  rfl

theorem frame_rhRebuildStreams {e : Eng} {l : Leader} (hl : LSame e.leader (some l)) :
    Frame e (rhRebuildStreams e l) :=
  ⟨rfl, rfl, rfl, rfl, fun _ => rfl, rfl, hl.trans (by simp [LSame, rhRebuildStreams, Eng.push]), _, rfl,
    by simp [Cmd.inert]⟩

theorem frame_updateConflicting {dbg : Bool} {e e' : Eng} {l : Leader} {n : NodeId} {c : LogId}
    (hl : e.leader = some l) (h : rhUpdateConflicting dbg e l n c = .ok e') : Frame e e' := by
  simp only [rhUpdateConflicting, bind_ok, pure_ok] at h
  obtain ⟨_, _, _, _, h⟩ := h
  subst h
  exact ⟨rfl, rfl, rfl, rfl, fun _ => rfl, rfl, by rw [hl]; simp [LSame], [], by simp, by simp⟩

theorem frame_failed {e e' : Eng} {l : Leader} {n : NodeId} (hl : e.leader = some l)
    (h : rhFailed e l n = .ok e') : Frame e e' := by
  simp only [rhFailed, bind_ok, pure_ok] at h
  obtain ⟨_, _, h⟩ := h
  subst h
  exact ⟨rfl, rfl, rfl, rfl, fun _ => rfl, rfl, by rw [hl]; simp [LSame], [], by simp, by simp⟩

theorem frame_updateClock {e e' : Eng} {l : Leader} {n : NodeId} {t : Nat} (hl : e.leader = some l)
    (h : rhUpdateClock e l n t = .ok e') : Frame e e' := by
  simp only [rhUpdateClock, bind_ok, pure_ok] at h
  obtain ⟨_, _, h⟩ := h
  subst h
  exact ⟨rfl, rfl, rfl, rfl, fun _ => rfl, rfl, by rw [hl]; simp [LSame], [], by simp, by simp⟩

theorem frame_lhHeartbeat (e : Eng) (l : Leader) : Frame e (lhHeartbeat e l) := Frame.push e rfl

theorem frame_lhTransfer {e : Eng} {l : Leader} (hl : e.leader = some l) (t : NodeId) : Frame e (lhTransfer e l t) :=
  ⟨rfl, rfl, rfl, rfl, fun _ => rfl, rfl, by rw [hl]; simp [LSame, lhTransfer, Eng.push], _, rfl, by simp [Cmd.inert]⟩

theorem leaderHandler_ok {dbg : Bool} {e : Eng} {r : Option Leader} (h : e.leaderHandler dbg = .ok r) : r = e.leader := by
  unfold leaderHandler at h
  split at h
  · next hn => rw [pure_ok] at h; rw [hn, ← h]
  · next l hn =>
    rw [bind_ok] at h
    obtain ⟨_, _, h⟩ := h
    rw [pure_ok] at h; rw [hn, ← h]

theorem frame_coreHeartbeat {dbg : Bool} {e e' : Eng} (h : e.coreHeartbeat dbg = .ok e') : Frame e e' := by
  unfold coreHeartbeat at h
  rw [bind_ok] at h
  obtain ⟨r, hr, h⟩ := h
  split at h
  · rw [pure_ok] at h; subst h; exact Frame.refl e
  · split at h
    · rw [pure_ok] at h; subst h; exact Frame.refl e
    · rw [pure_ok] at h; subst h; exact frame_lhHeartbeat e _

theorem frame_tickHeartbeat {dbg : Bool} {now : Nat} {en : Bool} {iv : Nat} {e e' : Eng}
    (h : e.tickHeartbeat dbg now en iv = .ok e') : Frame e e' := by
  unfold tickHeartbeat at h
  split at h
  · rw [pure_ok] at h; subst h; exact Frame.refl e
  · split at h
    · obtain ⟨e1, hf, h⟩ : ∃ e1, Frame e e1 ∧ { e1 with leader := e1.leader.map fun l =>
          { l with nextHeartbeat := now + iv } } = e' := by
        simp only at h
        split at h <;> (rw [bind_ok] at h; obtain ⟨e1, h1, h⟩ := h; rw [pure_ok] at h)
        · exact ⟨e1, frame_coreHeartbeat h1, h⟩
        · rw [pure_ok] at h1; subst h1; exact ⟨_, Frame.refl e, h⟩
      subst h
      refine hf.trans ⟨rfl, rfl, rfl, rfl, fun _ => rfl, rfl, ?_, [], by simp, by simp⟩
      cases e1.leader <;> simp [LSame]
    · rw [pure_ok] at h; subst h; exact Frame.refl e

end Eng
end Openraft.Engine
