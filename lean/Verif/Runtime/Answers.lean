import Verif.Runtime.InvRun
import Verif.Engine.VoteFlow

/-!
# What a running node has on disk when it answers
-/

set_option autoImplicit false

namespace Openraft.Runtime
open Openraft.Engine
open Openraft.Repl (Panic)

/-- The durable state if the node crashes when `k` of the writes that were submitted and not reported
have become durable: writes are serialized (`storage/v2/raft_log_storage.rs:41-45`), so it is a prefix
of them. -/
def Node.crashDisk (n : Node) (k : Nat) : Disk := (n.pend.take k).foldl Disk.write n.disk

/-! ## start -/

namespace RInv
variable {g0 : Gh} {a0 : IOId} {s0 c0 : Option LogId} {P S : List Cmd} {n n' : Node} {dbg : Bool}

/-- a node that starts -/
theorem boot {e : Eng} {d : Disk} {sm : Sm} (hf : Flow g0 a0 s0 e) (hs : d.store = g0.store) (hv : d.vote = g0.vote)
    (hc : d.committed = c0) (hp : LeI g0.store.purged sm.snap.lastLogId) (hfl : ∀ f, e.st.io.prog.flushed = some f → f ≤ a0) (ha : sm.applied = g0.com)
    (hsn : sm.snap.lastLogId ≤ sm.applied) (hs0 : sm.snap.lastLogId = s0) (his : e.st.io.snapshot ≤ sm.snap.lastLogId)
    (hia : e.st.io.applied = g0.com) (z : Start g0 a0 s0 c0) : RInv g0 a0 s0 c0 [] [] (Node.boot e d sm) := by
  refine ⟨hf, Nat.zero_le _, rfl, ⟨hs, rfl, hs, hv, fun v h => (by cases h), ?_, hc⟩,
    ⟨fun f h => ⟨hfl f h, fun c hc => (by cases hc)⟩, fun f h => (by cases h), fun f m h => (by cases h), fun m f h => (by cases h)⟩,
    ⟨ha, ⟨[], [], rfl, ha.symm⟩, hsn, his, ?_, ⟨[], [], rfl, hia.symm⟩, fun m h => (by cases h), fun m h => (by cases h),
      fun f m h => (by cases h), fun l es h => (by cases h), Or.inl hs0⟩, fun v h => (by cases h), z⟩
  · show LeI d.store.purged _
    rw [hs]; exact hp
  · show e.st.io.applied ≤ sm.applied
    rw [hia, ha]

/-! ## crash points -/

theorem take_ops (S : List Cmd) (k : Nat) : ∃ S1 S2, S = S1 ++ S2 ∧ (S.filterMap opOf).take k = S1.filterMap opOf := by
  induction S generalizing k with
  | nil => exact ⟨[], [], rfl, by simp⟩
  | cons c S ih =>
    cases hc : opOf c with
    | none =>
      obtain ⟨S1, S2, h1, h2⟩ := ih k
      exact ⟨c :: S1, S2, by rw [h1]; rfl, by rw [List.filterMap_cons_none hc, List.filterMap_cons_none hc]; exact h2⟩
    | some op =>
      cases k with
      | zero => exact ⟨[], c :: S, rfl, by simp⟩
      | succ k =>
        obtain ⟨S1, S2, h1, h2⟩ := ih k
        refine ⟨c :: S1, S2, by rw [h1]; rfl, ?_⟩
        rw [List.filterMap_cons_some hc, List.filterMap_cons_some hc, List.take_succ_cons, h2]

/-- the durable state is the one after some of the executed commands -/
theorem crash (h : RInv g0 a0 s0 c0 P S n) (k : Nat) : ∃ S1 S2, S = S1 ++ S2 ∧
    (n.crashDisk k).store = (g0.runs (P ++ S1)).store ∧ (n.crashDisk k).vote = (g0.runs (P ++ S)).vote := by
  obtain ⟨S1, S2, h1, h2⟩ := take_ops S k
  refine ⟨S1, S2, h1, ?_, ?_⟩
  · unfold Node.crashDisk
    rw [h.d.pend, h2, Gh.runs_append]
    exact store_runs _ _ _ h.d.store
  · unfold Node.crashDisk
    rw [write_vote]; exact h.disk_vote

/-- the durable position of the state machine covers entries by index too -/
theorem kept_below (h : RInv g0 a0 s0 c0 P S n) : (g0.runs (P ++ S)).Below n.sm.kept := by
  have hv : ∀ x, ComVal g0 (P ++ S) x → (g0.runs (P ++ S)).Below x := by
    rintro x ⟨a, b, h1, rfl⟩
    have ho := h.oks
    rw [h1] at ho ⊢
    exact h.z.com.val h.z.row ho
  unfold Sm.kept
  split
  · exact hv _ h.s.cur
  · rcases h.s.snapV with h1 | h1
    · rw [h1]; exact h.z.snap.runs h.z.row h.oks h.flow.snap0
    · exact hv _ h1

/-- every entry of the log is durable in the log or in the state machine, if all writes not yet durable
are covered by the state machine -/
theorem durable (h : RInv g0 a0 s0 c0 P S n) (hall : ∀ d ∈ S, ∀ io, d.hard = some io → Covered n.sm.kept d) (k : Nat) {e : Ent}
    (he : e ∈ n.rd.entries) :
    e ∈ (n.crashDisk k).store.entries ∨ (some e.id ≤ n.sm.kept ∧ e.id.index < nextIndex n.sm.kept) := by
  obtain ⟨S1, S2, h1, h2, _⟩ := h.crash k
  have hbe := h.kept_below
  rw [h.d.rd] at he
  have he' := he
  rw [h1, ← List.append_assoc, Gh.runs_append] at he
  rw [h2]
  rcases Gh.mem_runs he with h3 | ⟨v, es, h3, h4⟩
  · exact Or.inl h3
  · right
    have hne : es ≠ [] := by rintro rfl; cases h4
    have hcov := hall (.append v es) (by rw [h1]; exact List.mem_append_right _ h3) (IOId.newLog v (some (es.getLast hne).id))
      (by simp [Cmd.hard, List.getLast?_eq_some_getLast hne])
    have h5 := hcov e h4
    exact ⟨h5, hbe e.id (List.mem_map_of_mem he') h5⟩

/-- a step that sends an answer -/
theorem sent_step {ev : Ev} (hr : n.step dbg ev = .ok n') : n'.sent = n.sent ∨
    ∃ w tx r, ev = .run ∧ n.head = some (.respond w tx r) ∧ n.ready (.respond w tx r) = true ∧
      n' = { n with sent := n.sent ++ [(n.done, tx, r)], done := n.done + 1 } := by
  cases ev with
  | msg now i =>
    left
    simp only [Node.step] at hr
    split at hr
    · simp only [out_bind, lift_ok, out_pure] at hr
      obtain ⟨e, _, rfl⟩ := hr; rfl
    · rw [out_pure] at hr; rw [← hr]
  | write now tx p =>
    left
    simp only [Node.step] at hr
    split at hr
    · simp only [out_bind, lift_ok, out_pure] at hr
      obtain ⟨⟨o, e⟩, _, rfl⟩ := hr; cases o <;> rfl
    · rw [out_pure] at hr; rw [← hr]
  | change now tx c r =>
    left
    simp only [Node.step] at hr
    split at hr
    · simp only [out_bind, lift_ok, out_pure] at hr
      obtain ⟨⟨o, e⟩, _, rfl⟩ := hr; cases o <;> rfl
    · rw [out_pure] at hr; rw [← hr]
  | note now =>
    left
    simp only [Node.step] at hr
    split at hr
    · split at hr
      · rw [out_pure] at hr; rw [← hr]
      · next x xs _ =>
        have ha : ∀ (es : List Ent) (m : Node), (m.answer es).sent = m.sent := by
          intro es
          induction es with
          | nil => intro m; rfl
          | cons e es ih => intro m; unfold Node.answer; rw [ih]; split <;> rfl
        cases x <;> simp only [Node.handle, out_bind, lift_ok, out_pure] at hr <;>
          (obtain ⟨e, _, rfl⟩ := hr; first | rfl | exact ha _ _)
    · rw [out_pure] at hr; rw [← hr]
  | flush =>
    left
    simp only [Node.step, out_pure] at hr
    subst hr; unfold Node.flush1; split <;> rfl
  | sm =>
    left
    simp only [Node.step, Node.smStep] at hr
    split at hr
    · rw [out_pure] at hr; rw [← hr]
    · split at hr
      · rw [out_pure] at hr; rw [← hr]
      · cases hr
    · rw [out_pure] at hr; rw [← hr]
    · rw [out_pure] at hr; rw [← hr]
  | build k =>
    left
    simp only [Node.step, out_pure] at hr
    subst hr; unfold Node.buildDone; split <;> rfl
  | run =>
    simp only [Node.step, Node.run1] at hr
    cases hc : n.head with
    | none => rw [hc] at hr; simp only [out_pure] at hr; left; rw [← hr]
    | some c =>
      rw [hc] at hr
      dsimp only at hr
      split at hr
      · next hrdy =>
        simp only [out_bind, out_pure] at hr
        obtain ⟨n1, hx, rfl⟩ := hr
        have hsub : ∀ {n1 : Node} {io : IOId}, n.submit dbg io = .ok n1 → n1.sent = n.sent := by
          intro n1 io h
          simp only [Node.submit, out_bind, lift_ok, out_pure] at h
          obtain ⟨p, _, rfl⟩ := h; rfl
        cases c with
        | respond w tx r =>
          right
          simp only [Node.exec, out_pure] at hx
          subst hx
          exact ⟨w, tx, r, rfl, rfl, hrdy, rfl⟩
        | updateIO w io =>
          left
          simp only [Node.exec, out_bind, out_pure] at hx
          obtain ⟨m1, hm, rfl⟩ := hx; exact hsub (n1 := m1) hm
        | append v es =>
          left
          simp only [Node.exec, out_bind, out_pure] at hx
          obtain ⟨l, _, m1, hm, rfl⟩ := hx; exact hsub (n1 := m1) hm
        | saveVote v =>
          left
          simp only [Node.exec, out_bind, out_pure] at hx
          obtain ⟨m1, hm, rfl⟩ := hx; exact hsub (n1 := m1) hm
        | purge u => left; simp only [Node.exec, out_pure] at hx; subst hx; rfl
        | truncate u => left; simp only [Node.exec, out_pure] at hx; subst hx; rfl
        | saveCommitted u => left; simp only [Node.exec, out_pure] at hx; subst hx; rfl
        | sendVote v l =>
          left
          simp only [Node.exec, out_bind, out_pure] at hx
          obtain ⟨_, _, rfl⟩ := hx; rfl
        | transfer v l x =>
          left
          simp only [Node.exec, out_bind, out_pure] at hx
          obtain ⟨_, _, rfl⟩ := hx; rfl
        | replCommitted c => left; simp only [Node.exec, out_pure] at hx; subst hx; rfl
        | heartbeat c v x => left; simp only [Node.exec, out_pure] at hx; subst hx; rfl
        | apply p u =>
          left
          simp only [Node.exec, out_bind, out_pure] at hx
          obtain ⟨_, _, _, _, rfl⟩ := hx; rfl
        | replicate t r =>
          left
          simp only [Node.exec] at hx
          split at hx
          · rw [out_pure] at hx; subst hx; rfl
          · cases hx
        | rebuild ts =>
          left
          simp only [Node.exec, Node.rebuild, out_bind] at hx
          obtain ⟨_, _, hx⟩ := hx
          split at hx
          · rw [out_pure] at hx; subst hx; rfl
          · cases hx
        | sm c =>
          left
          cases c with
          | install m io =>
            simp only [Node.exec, out_bind, out_pure] at hx
            obtain ⟨m1, hm, rfl⟩ := hx; exact hsub (n1 := m1) hm
          | _ => simp only [Node.exec, out_pure] at hx; subst hx; rfl
      · rw [out_pure] at hr; left; rw [← hr]

end RInv

namespace RInv
variable {g0 : Gh} {a0 : IOId} {s0 c0 : Option LogId} {P S : List Cmd} {n n' : Node} {dbg : Bool}

/-- an answer carries the vote on disk -/
theorem sent_vote (h : RInv g0 a0 s0 c0 P S n) {w : Option Cond} {tx : Nat} {r : Resp} {v : Vote}
    (hc : n.head = some (.respond w tx r)) (hv : voteOf r = some v) : n.disk.vote = v := by
  rw [h.disk_vote]
  have := (h.head hc).2.1
  cases r with
  | vote v' l g => cases hv; exact this.2
  | append r' v' u =>
    cases r' with
    | success => cases hv; exact this.2.2.1
    | higherVote v'' => cases hv; exact this.1
    | conflict => cases hv
  | snapshot v' => cases hv; exact this.1
  | init b => cases hv

end RInv
end Openraft.Runtime
