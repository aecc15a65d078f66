import Verif.Engine.Build
import Verif.Runtime.Streams

/-!
# One snapshot is built at a time: a running node

A build passes through four places: the command queue, the queue of the state machine worker, the builder
task, and the channel of notifications. The mark in the engine is set exactly while there is a build in one
of them.
-/

set_option autoImplicit false

namespace Openraft.Runtime
open Openraft.Engine
open Openraft.Repl (Panic dassert)

variable {n n' : Node} {dbg : Bool}

/-- the order to the worker to build a snapshot -/
def isBuildSm : SmCmd → Bool
  | .build => true
  | _ => false

/-- the report that a snapshot is built -/
def isBuiltNote : Note → Bool
  | .built _ => true
  | _ => false

/-- builds that the worker has been told to make and that are not yet reported to the engine -/
def Node.handed (n : Node) : Nat := n.smq.countP isBuildSm + n.builds.length + n.rx.countP isBuiltNote

/-- the mark of the engine is exact -/
structure BuildInv (n : Node) : Prop where
  done : n.done ≤ n.eng.out.length
  due : n.eng.due + n.handed = ((n.eng.out.take n.done).countP Cmd.isBuild : Int)

/-- the number of builds that wait or run -/
theorem BuildInv.mark (h : BuildInv n) :
    (n.eng.out.drop n.done).countP Cmd.isBuild + n.handed = if n.eng.st.io.building then 1 else 0 := by
  have h1 := h.due
  have h2 : n.eng.out.countP Cmd.isBuild = (n.eng.out.take n.done).countP Cmd.isBuild + (n.eng.out.drop n.done).countP Cmd.isBuild := by
    rw [← List.countP_append, List.take_append_drop]
  unfold Eng.due at h1
  rw [h2] at h1
  push_cast at h1
  split at h1 <;> rename_i hb
  · rw [if_pos hb]; omega
  · rw [if_neg hb]; omega

theorem handed_exec {c : Cmd} (h : n.exec dbg c = .ok n') : n'.handed = n.handed + if c.isBuild then 1 else 0 := by
  have hsub : ∀ {io : IOId} {n1 : Node}, n.submit dbg io = .ok n1 → n1.smq = n.smq ∧ n1.builds = n.builds ∧ n1.rx = n.rx := by
    intro io n1 h1; rw [submit_ok h1]; exact ⟨rfl, rfl, rfl⟩
  have hnote : ∀ ops : List DiskOp, (ops.flatMap DiskOp.note).countP isBuiltNote = 0 := by
    intro ops
    rw [List.countP_eq_zero]
    intro x hx
    obtain ⟨op, _, hx⟩ := List.mem_flatMap.1 hx
    cases op <;> simp [DiskOp.note] at hx
    subst hx; simp [isBuiltNote]
  cases c with
  | updateIO v io =>
    simp only [Node.exec, out_bind, out_pure] at h
    obtain ⟨n1, h1, rfl⟩ := h
    obtain ⟨h2, h3, h4⟩ := hsub h1
    simp [Node.handed, h2, h3, h4, isBuiltNote, Cmd.isBuild]
  | append v es =>
    simp only [Node.exec, out_bind, out_pure] at h
    obtain ⟨_, _, n1, h1, rfl⟩ := h
    obtain ⟨h2, h3, h4⟩ := hsub h1
    simp [Node.handed, Node.write, h2, h3, h4, Cmd.isBuild]
  | saveVote v =>
    simp only [Node.exec, out_bind, out_pure] at h
    obtain ⟨n1, h1, rfl⟩ := h
    obtain ⟨h2, h3, h4⟩ := hsub h1
    simp [Node.handed, Node.saveVote, h2, h3, h4, isBuiltNote, Cmd.isBuild, hnote, List.countP_append]
  | purge u => simp only [Node.exec, out_pure] at h; subst h; rfl
  | truncate s => simp only [Node.exec, out_pure] at h; subst h; rfl
  | saveCommitted c => simp only [Node.exec, out_pure] at h; subst h; rfl
  | sendVote v l => simp only [Node.exec, out_bind, out_pure] at h; obtain ⟨_, _, rfl⟩ := h; rfl
  | transfer v l t => simp only [Node.exec, out_bind, out_pure] at h; obtain ⟨_, _, rfl⟩ := h; rfl
  | replCommitted c => simp only [Node.exec, out_pure] at h; subst h; rfl
  | heartbeat v m c => simp only [Node.exec, out_pure] at h; subst h; rfl
  | apply a u =>
    simp only [Node.exec, out_bind, out_pure] at h
    obtain ⟨_, _, _, _, rfl⟩ := h
    simp [Node.handed, isBuildSm, Cmd.isBuild]
  | replicate t i =>
    simp only [Node.exec] at h
    split at h
    · rw [out_pure] at h; subst h; rfl
    · cases h
  | rebuild ts =>
    simp only [Node.exec, Node.rebuild, out_bind] at h
    obtain ⟨_, _, h⟩ := h
    split at h
    · rw [out_pure] at h; subst h; rfl
    · cases h
  | sm c =>
    cases c with
    | install m io =>
      simp only [Node.exec, out_bind, out_pure] at h
      obtain ⟨n1, h1, rfl⟩ := h
      obtain ⟨h2, h3, h4⟩ := hsub h1
      simp [Node.handed, isBuildSm, Cmd.isBuild, h2, h3, h4]
    | build =>
      simp only [Node.exec, out_pure] at h; subst h
      simp [Node.handed, isBuildSm, Cmd.isBuild]; omega
    | apply f l =>
      simp only [Node.exec, out_pure] at h; subst h
      simp [Node.handed, isBuildSm, Cmd.isBuild]
  | respond w tx r => simp only [Node.exec, out_pure] at h; subst h; rfl

/-- a new engine state -/
theorem BuildInv.grow (h : BuildInv n) (hd : n'.done = n.done) (hg : n.eng.out <+: n'.eng.out)
    (hx : n'.eng.due + n'.handed = n.eng.due + n.handed) : BuildInv n' := by
  obtain ⟨cs, hcs⟩ := hg
  refine ⟨?_, ?_⟩
  · rw [hd, ← hcs, List.length_append]; have := h.done; omega
  · rw [hx, hd, ← hcs, List.take_append_of_le_length h.done]; exact h.due

theorem handed_answer (es : List Ent) (n : Node) : (n.answer es).handed = n.handed ∧ (n.answer es).eng = n.eng ∧ (n.answer es).done = n.done := by
  induction es generalizing n with
  | nil => exact ⟨rfl, rfl, rfl⟩
  | cons e es ih =>
    unfold Node.answer
    cases BMap.get n.clients e.id.index with
    | none => exact ih n
    | some tx => exact ih { n with clients := BMap.remove n.clients e.id.index, replies := n.replies ++ [(tx, some e)] }

theorem BuildInv.step {ev : Ev} (h : BuildInv n) (hr : n.step dbg ev = .ok n') : BuildInv n' := by
  cases ev with
  | run =>
    rcases run_view hr with rfl | ⟨c, n1, h1, _, h2, rfl⟩
    · exact h
    · obtain ⟨p, x, h3, _⟩ := (exec_frame h2).eng
      have h4 := handed_exec h2
      have h5 := (exec_frame h2).done
      have h6 : n1.eng.out = n.eng.out := by rw [h3]
      have h7 : n1.eng.due = n.eng.due := by rw [h3]; rfl
      have hlt : n.done < n.eng.out.length := by
        unfold Node.head at h1
        exact (List.getElem?_eq_some_iff.1 h1).1
      refine ⟨?_, ?_⟩
      · show n1.done + 1 ≤ n1.eng.out.length
        rw [h5, h6]; omega
      · show n1.eng.due + (n1.handed : Int) = ((n1.eng.out.take (n1.done + 1)).countP Cmd.isBuild : Int)
        rw [h5, h6, h7, h4, take_succ_head h1, List.countP_append]
        have := h.due
        simp only [List.countP_cons, List.countP_nil]
        push_cast
        omega
  | flush =>
    simp only [Node.step, out_pure] at hr
    subst hr
    unfold Node.flush1
    split
    · exact h
    · next op ops hp =>
      refine h.grow rfl (List.prefix_refl _) ?_
      have : op.note.countP isBuiltNote = 0 := by cases op <;> rfl
      simp [Node.handed, List.countP_append, this]
  | sm =>
    simp only [Node.step, Node.smStep] at hr
    split at hr
    · rw [out_pure] at hr; subst hr; exact h
    · next first last q hq =>
      split at hr
      · rw [out_pure] at hr; subst hr
        refine h.grow rfl (List.prefix_refl _) ?_
        simp [Node.handed, hq, isBuildSm, isBuiltNote]
      · cases hr
    · next m io q hq =>
      rw [out_pure] at hr; subst hr
      refine h.grow rfl (List.prefix_refl _) ?_
      simp [Node.handed, hq, isBuildSm, isBuiltNote]
    · next q hq =>
      rw [out_pure] at hr; subst hr
      refine h.grow rfl (List.prefix_refl _) ?_
      simp only [Node.handed, hq, List.countP_cons, isBuildSm, List.length_append, List.length_singleton]
      push_cast
      simp; omega
  | build k =>
    simp only [Node.step, out_pure] at hr
    subst hr
    unfold Node.buildDone
    split
    · exact h
    · next m hm =>
      refine h.grow rfl (List.prefix_refl _) ?_
      obtain ⟨hk, _⟩ := List.getElem?_eq_some_iff.1 hm
      simp [Node.handed, isBuiltNote, List.length_eraseIdx, hk]; omega
  | msg now i =>
    simp only [Node.step] at hr
    split at hr
    · next hc =>
      simp only [out_bind, lift_ok, out_pure] at hr
      obtain ⟨e, he, rfl⟩ := hr
      have hb : i.isBuilt = false := by
        simp only [Bool.and_eq_true] at hc
        cases i <;> first | rfl | simp [external] at hc
      exact h.grow rfl (Eng.grow_input _ _ _ he).2 (congrArg (· + (n.handed : Int)) (Eng.bld_input _ _ hb _ he))
    · rw [out_pure] at hr; subst hr; exact h
  | write now tx p =>
    simp only [Node.step] at hr
    split at hr
    · simp only [out_bind, lift_ok, out_pure] at hr
      obtain ⟨⟨i, e⟩, he, rfl⟩ := hr
      have h1 := (Eng.grow_writeEntry _ _ _ he).2
      have h2 := Eng.bld_writeEntry _ _ _ he
      cases i <;> exact h.grow rfl h1 (congrArg (· + (n.handed : Int)) h2)
    · rw [out_pure] at hr; subst hr; exact h
  | change now tx c r =>
    simp only [Node.step] at hr
    split at hr
    · simp only [out_bind, lift_ok, out_pure] at hr
      obtain ⟨⟨i, e⟩, he, rfl⟩ := hr
      have hin : n.eng.input dbg now (.change c r) = .ok e := by
        simp only [Eng.input, he]; rfl
      have h1 := (Eng.grow_input _ _ _ hin).2
      have h2 := Eng.bld_input _ _ rfl _ hin
      cases i <;> exact h.grow rfl h1 (congrArg (· + (n.handed : Int)) h2)
    · rw [out_pure] at hr; subst hr; exact h
  | note now =>
    simp only [Node.step] at hr
    split at hr
    · split at hr
      · rw [out_pure] at hr; subst hr; exact h
      · next x xs hx =>
        cases x with
        | localIO io =>
          simp only [Node.handle, out_bind, lift_ok, out_pure] at hr
          obtain ⟨e, he, rfl⟩ := hr
          have h2 : e.due = n.eng.due := Eng.bld_input _ _ rfl _ he
          refine h.grow rfl (Eng.grow_input _ _ _ he).2 ?_
          simp [Node.handed, hx, isBuiltNote, h2]
        | selfVote v =>
          simp only [Node.handle, out_bind, lift_ok, out_pure] at hr
          obtain ⟨e, he, rfl⟩ := hr
          have h2 : e.due = n.eng.due := Eng.bld_input _ _ rfl _ he
          refine h.grow rfl (Eng.grow_input _ _ _ he).2 ?_
          simp [Node.handed, hx, isBuiltNote, h2]
        | built m =>
          simp only [Node.handle, out_bind, lift_ok, out_pure] at hr
          obtain ⟨e, he, rfl⟩ := hr
          have h2 := Eng.bld_built he
          have h3 := h.mark
          have h4 : n.eng.st.io.building = true := by
            simp only [Node.handed, hx, isBuiltNote, List.countP_cons] at h3
            cases hb : n.eng.st.io.building with
            | true => rfl
            | false => rw [hb] at h3; simp at h3
          refine h.grow rfl (Eng.grow_input _ _ _ he).2 ?_
          simp only [Node.handed, hx, isBuiltNote, List.countP_cons, h2, h4]
          push_cast
          omega
        | installed io m =>
          simp only [Node.handle, out_bind, lift_ok, out_pure] at hr
          obtain ⟨e, he, rfl⟩ := hr
          have h2 : e.due = n.eng.due := Eng.bld_input _ _ rfl _ he
          refine h.grow rfl (Eng.grow_input _ _ _ he).2 ?_
          simp [Node.handed, hx, isBuiltNote, h2]
        | applied last es =>
          simp only [Node.handle, out_bind, lift_ok, out_pure] at hr
          obtain ⟨e, he, rfl⟩ := hr
          have h2 : e.due = n.eng.due := Eng.bld_input _ _ rfl _ he
          obtain ⟨k1, k2, k3⟩ := handed_answer es { n with rx := xs, eng := e }
          refine h.grow k3 ?_ ?_
          · rw [k2]; exact (Eng.grow_input _ _ _ he).2
          · rw [k1, k2]
            simp [Node.handed, hx, isBuiltNote, h2]
    · rw [out_pure] at hr; subst hr; exact h

theorem BuildInv.fresh (cfg : Cfg) (now : Nat) (persist : Bool) : BuildInv (Node.fresh cfg now persist) := ⟨Nat.zero_le _, rfl⟩

theorem BuildInv.restart {cfg : Cfg} {now : Nat} {d : Disk} {s : Sm} (hr : restart dbg now cfg d s = .ok n) : BuildInv n := by
  unfold Runtime.restart at hr
  simp only [out_bind, lift_ok, out_pure] at hr
  obtain ⟨⟨st, store, s2⟩, h1, e, h2, rfl⟩ := hr
  have hb : st.io.building = false := by
    unfold initialState at h1
    simp only [out_bind, out_pure] at h1
    obtain ⟨_, _, _, _, _, _, h1⟩ := h1
    cases h1; rfl
  have h3 : e.due = _ := Eng.bld_startup _ _ h2
  refine ⟨Nat.zero_le _, ?_⟩
  show e.due + 0 = 0
  rw [h3]
  simp [Eng.due, hb]

theorem Life.build {cfg : Cfg} {old : List Resp} (h : Life dbg cfg old n) : BuildInv n := by
  induction h with
  | fresh now persist => exact BuildInv.fresh _ _ _
  | step ev _ _ hs ih => exact ih.step hs
  | crash k now _ _ hr _ => exact BuildInv.restart hr

end Openraft.Runtime
