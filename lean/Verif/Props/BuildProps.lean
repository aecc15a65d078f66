import Verif.Runtime.Builds
import Verif.Props.RestartProps

/-!
# C47: one snapshot is built at a time
-/

set_option autoImplicit false

namespace Openraft.Props
open Openraft.Engine Openraft.Runtime Openraft.Runtime.Demo
open Openraft.Engine.Demo (lid m3 v2)

/-- The builds of snapshots that are under way: commands that wait, orders that the state machine worker has not yet handled,
builders that run, and reports that the engine has not yet seen. -/
def underWay (n : Node) : Nat :=
  ((n.eng.out.drop n.done).filter fun c => match c with | .sm .build => true | _ => false).length +
  (n.smq.filter fun c => match c with | .build => true | _ => false).length +
  n.builds.length +
  (n.rx.filter fun x => match x with | .built _ => true | _ => false).length

theorem underWay_eq {n : Node} : underWay n = (n.eng.out.drop n.done).countP Cmd.isBuild + n.handed := by
  unfold underWay Node.handed
  rw [← List.countP_eq_length_filter, ← List.countP_eq_length_filter, ← List.countP_eq_length_filter]
  have h1 : (fun c : Cmd => match c with | .sm .build => true | _ => false) = Cmd.isBuild := by
    funext c; cases c with
    | sm c => cases c <;> rfl
    | _ => rfl
  have h2 : (fun c : SmCmd => match c with | .build => true | _ => false) = isBuildSm := by funext c; cases c <;> rfl
  have h3 : (fun x : Note => match x with | .built _ => true | _ => false) = isBuiltNote := by funext c; cases c <;> rfl
  rw [h1, h2, h3]
  omega

/-- **C47.** In every life of a node, over any number of crashes, release and debug builds: at most one snapshot is being built,
and the mark by which the engine refuses to start another one is set exactly while it is. So the mark is never left behind. -/
theorem C47_one_build {dbg : Bool} {cfg : Cfg} {old : List Resp} {n : Node} (h : Life dbg cfg old n) :
    underWay n ≤ 1 ∧ (n.eng.st.io.building = true ↔ underWay n = 1) := by
  have h1 := h.build.mark
  rw [← underWay_eq] at h1
  rw [h1]
  cases n.eng.st.io.building <;> simp

/-- **C47**, the request: a node that is asked to build a snapshot starts to build one if none is being built, and does nothing
otherwise. -/
theorem C47_request {dbg : Bool} {cfg : Cfg} {old : List Resp} {n n' : Node} {now : Nat} (h : Life dbg cfg old n)
    (hi : n.idle = true) (hr : n.step dbg (.msg now .snapshotCmd) = .ok n') :
    underWay n' = 1 ∧ (underWay n = 1 → n' = n) ∧ (underWay n = 0 → n'.eng.out = n.eng.out ++ [.sm .build]) := by
  have h0 := (C47_one_build h).2
  have h1 := (C47_one_build (h.step _ (by trivial) hr)).2
  simp only [Node.step, hi, external, Bool.and_self, if_true, out_bind, lift_ok, out_pure, Eng.input] at hr
  obtain ⟨e, he, rfl⟩ := hr
  rw [pure_ok] at he
  unfold Eng.triggerSnapshot at he
  split at he
  · next hb =>
    subst he
    exact ⟨h1.1 hb, fun _ => rfl, fun hz => by rw [h0.1 hb] at hz; cases hz⟩
  · next hb =>
    subst he
    exact ⟨h1.1 rfl, fun hz => absurd (h0.2 hz) hb, fun _ => rfl⟩

/-- **C47**, the end: when the engine handles the report of a build, no build is under way any more. -/
theorem C47_end {dbg : Bool} {cfg : Cfg} {old : List Resp} {n n' : Node} {now : Nat} {m : SnapMeta} {xs : List Note}
    (h : Life dbg cfg old n) (hi : n.idle = true) (hx : n.rx = .built m :: xs) (hr : n.step dbg (.note now) = .ok n') :
    underWay n' = 0 ∧ n'.eng.st.io.building = false := by
  obtain ⟨h1, h2⟩ := C47_one_build (h.step _ (by trivial) hr)
  simp only [Node.step, hi, if_true, hx, Node.handle, out_bind, lift_ok, out_pure] at hr
  obtain ⟨e, he, rfl⟩ := hr
  have hb : e.st.io.building = false := Eng.building_built he
  refine ⟨?_, hb⟩
  rcases Nat.lt_or_ge (underWay { n with rx := xs, eng := e }) 1 with h3 | h3
  · omega
  · have := h2.2 (by omega)
    rw [hb] at this; cases this

/-- the node of `aheadEvs` after some steps -/
def buildAt (k : Nat) : Node := runTo true (Node.fresh Demo.cfg 0 true) (aheadEvs.take k)

theorem buildAt_life {k : Nat} (h : allOk true (Node.fresh Demo.cfg 0 true) (aheadEvs.take k) = true) : Life true Demo.cfg [] (buildAt k) :=
  (Life.fresh 0 true).run (run_of_allOk .refl h)

-- a build waits in the queue of commands, in the one of the worker, runs, is reported, is over
example : ([15, 16, 17, 18, 19].map fun k => (underWay (buildAt k), (buildAt k).builds.length, (buildAt k).rx.length)) =
    [(1, 0, 0), (1, 0, 0), (1, 1, 0), (1, 0, 1), (0, 0, 0)] := by decide +kernel
-- while it runs, the mark is set
example : (buildAt 17).eng.st.io.building = true := (C47_one_build (buildAt_life (by decide +kernel))).2.2 (by decide +kernel)
-- a second request while it runs changes nothing; the first one started it
example : after true (buildAt 17) (.msg 5 .snapshotCmd) = buildAt 17 :=
  (C47_request (buildAt_life (by decide +kernel)) (by decide +kernel) (after_ok (by decide +kernel))).2.1 (by decide +kernel)
example : (after true (buildAt 14) (.msg 5 .snapshotCmd)).eng.out = (buildAt 14).eng.out ++ [.sm .build] :=
  (C47_request (buildAt_life (by decide +kernel)) (by decide +kernel) (after_ok (by decide +kernel))).2.2 (by decide +kernel)
-- the report ends it
example : underWay (after true (buildAt 18) (.note 5)) = 0 :=
  (C47_end (m := ⟨some (lid 1 2 1), ⟨some (lid 1 2 0), m3⟩, 0⟩) (xs := []) (buildAt_life (by decide +kernel)) (by decide +kernel)
    (by decide +kernel) (after_ok (by decide +kernel))).1

end Openraft.Props
