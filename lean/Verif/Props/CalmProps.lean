import Verif.Runtime.Streams
import Verif.Props.AbortProps

/-!
# C34, C42, C45, C46: when the execution of commands cannot abort a node, and where memberships come from
-/

set_option autoImplicit false

namespace Openraft.Props
open Openraft.Engine Openraft.Runtime Openraft.Runtime.Demo
open Openraft.Engine.Demo (lid m3 v2)

/-! ## C34, C42, C45: the execution of queued commands -/

/-- **C42** for `Replicate`, release and debug builds: in every life of a node, a `Replicate` command finds the task of its
target when it is executed, however long it waited: only a later `RebuildReplicationStreams` can remove a task, and
commands are executed in order. -/
theorem C42_replicate {dbg : Bool} {cfg : Cfg} {old : List Resp} {n : Node} {t : NodeId} {i : Repl.Inflight}
    (h : Life dbg cfg old n) (hc : n.head = some (.replicate t i)) : t ∈ n.repl ∧ ∃ n', n.step dbg .run = .ok n' := by
  have hm := h.str.exec hc
  refine ⟨hm, ?_⟩
  have he : n.exec dbg (.replicate t i) = .ok n := by
    simp only [Node.exec]
    rw [if_pos (by rw [List.contains_iff_mem]; exact hm)]; rfl
  show ∃ n', n.run1 dbg = .ok n'
  unfold Node.run1
  rw [hc]
  simp only
  split
  · simp only [out_bind, out_pure]
    exact ⟨_, n, he, rfl⟩
  · exact ⟨n, rfl⟩

/-- **C34**, the part that holds, release and debug builds: in a life in which no snapshot is installed while an `Apply` command
waits, the log id at which the range of an `Apply` command starts is in the log when the command is executed, and the range
is not empty. Missing: lives in which a snapshot is installed in the meantime (`C34_apply_aborts`). -/
theorem C34_calm_partial {dbg : Bool} {cfg : Cfg} {old : List Resp} {n : Node} {a : Option LogId} {u : LogId}
    (h : ApplyLife dbg cfg old n) (hc : n.head = some (.apply a u)) :
    (∃ f, n.eng.st.getLogId (nextIndex a) = some f ∧ f.index = nextIndex a ∧ nextIndex a ≤ u.index) ∧
      ∃ n', n.step dbg .run = .ok n' := by
  obtain ⟨⟨g0, a0, s0, c0, P, S, hi⟩, _⟩ := h.life.inv
  refine ⟨h.ready.exec hi hc, ?_⟩
  obtain ⟨n1, h1⟩ := h.ready.exec_total (dbg := dbg) hi hc
  show ∃ n', n.run1 dbg = .ok n'
  unfold Node.run1
  rw [hc]
  simp only
  split
  · simp only [out_bind, out_pure]
    exact ⟨_, n1, h1, rfl⟩
  · exact ⟨n, rfl⟩

/-- **C42**, the part that holds, for a release build: in a life in which no snapshot is installed while an `Apply` command
waits, in which the node keeps leading and loses no member while a `RebuildReplicationStreams` waits, and in which every
voter of every membership has a node record, executing the next command does not abort the node.
Missing: the other lives (`C34_apply_aborts`, `C42_rebuild_aborts`), and debug builds. -/
theorem C42_calm_partial {cfg : Cfg} {old : List Resp} {n : Node} (h : CalmLife cfg old n) : ∃ n', n.step false .run = .ok n' :=
  h.run_total

/-- **C45** for every event, under the premises of `C42_calm_partial`: nothing that happens aborts the node. -/
theorem C45_calm_partial {cfg : Cfg} {old : List Resp} {n : Node} {ev : Ev} (h : CalmLife cfg old n) (ho : EvOk n ev)
    (hs : EvSafe n ev) : ∃ n', n.step false ev = .ok n' := by
  by_cases hne : ev = .run
  · subst hne; exact h.run_total
  · exact C45_no_abort_partial h.safe ho hs hne

/-- decide `Mw` -/
def mwB (m : Membership) : Bool := m.voterIds.all fun i => m.contains i

theorem mwB_ok {m : Membership} (h : mwB m = true) : Mw m := by
  intro i hi
  exact List.all_eq_true.1 h i (by unfold Membership.voterIds; rw [Membership.mem_jointIds, ← Membership.isVoter_iff]; exact hi)

/-- decide `EntsOk Mw` -/
def entsB (es : List Ent) : Bool := es.all fun x => match x.membership? with | some m => mwB m | none => true

theorem entsB_ok {es : List Ent} (h : entsB es = true) : EntsOk Mw es := by
  intro x hx m hm
  have := List.all_eq_true.1 h x hx
  rw [hm] at this
  exact mwB_ok this

/-- decide `EvM Mw`, `ApplyCalm` and `RebuildCalm` -/
def calmB (n : Node) (ev : Ev) : Bool :=
  (match ev with
    | .msg _ (.appendReq _ _ _ es _) => entsB es
    | .msg _ (.snapReq _ _ _) | .msg _ (.init _ _) | .msg _ (.write _) | .msg _ (.change _ _) => false
    | .write _ _ (.membership _) => false
    | _ => true) &&
  !(n.pending.any fun c => match c with | .rebuild ts => !ts.isEmpty | _ => false)  ||
  (match ev with | .run | .flush | .note _ | .sm => true | _ => false) &&
    (after false n ev).eng.leader.isSome && decide ((after false n ev).eng.st.ms.effective.mem = n.eng.st.ms.effective.mem)

theorem calmB_ok {n : Node} {ev : Ev} (h : calmB n ev = true) :
    EvM Mw n ev ∧ ApplyCalm n ev ∧ RebuildCalm n (after false n ev) := by
  unfold calmB at h
  rw [Bool.or_eq_true] at h
  rcases h with h | h
  · rw [Bool.and_eq_true] at h
    obtain ⟨h1, h2⟩ := h
    refine ⟨?_, ?_, ?_⟩
    · cases ev with
      | msg now i =>
        cases i with
        | appendReq tx v prev es lc => exact ⟨entsB_ok h1, fun _ _ => trivial⟩
        | snapReq tx v m => cases h1
        | init tx m => cases h1
        | write p => cases h1
        | change c r => cases h1
        | _ => trivial
      | write now tx p =>
        cases p with
        | membership m => cases h1
        | blank => intro m hm; rw [List.mem_singleton] at hm; cases hm
        | normal d => intro m hm; rw [List.mem_singleton] at hm; cases hm
      | change now tx c r => exact evM_change
      | _ => trivial
    · intro now tx v m he
      subst he
      cases h1
    · rintro ⟨ts, hm, hne⟩
      rw [Bool.not_eq_true', List.any_eq_false] at h2
      have := h2 _ hm
      simp only [Bool.not_eq_true, Bool.not_eq_false'] at this
      rw [List.isEmpty_iff] at this
      exact absurd this hne
  · simp only [Bool.and_eq_true, decide_eq_true_eq] at h
    obtain ⟨⟨h1, h2⟩, h3⟩ := h
    refine ⟨?_, ?_, fun _ => ⟨h2, fun i hi => by rw [h3]; exact hi⟩⟩
    · cases ev <;> trivial
    · intro now tx v m he
      subst he
      cases h1

/-- all steps of a run are calm -/
def allCalm (n : Node) : List (List LogId × Ev) → Bool
  | [] => true
  | (_, ev) :: evs => calmB n ev && allCalm (after false n ev) evs

theorem calm_of_allCalm {cfg : Cfg} {old : List Resp} {n : Node} {evs : List (List LogId × Ev)} (h0 : CalmLife cfg old n)
    (h : allOk false n evs = true) (hs : allSafe n evs = true) (hc : allCalm n evs = true) :
    CalmLife cfg old (runTo false n evs) := by
  induction evs generalizing n with
  | nil => exact h0
  | cons x evs ih =>
    obtain ⟨lead, ev⟩ := x
    simp only [allOk, Bool.and_eq_true, decide_eq_true_eq] at h
    simp only [allSafe, Bool.and_eq_true] at hs
    simp only [allCalm, Bool.and_eq_true] at hc
    obtain ⟨k1, k2, k3⟩ := calmB_ok hc.1
    exact ih (.step ev h0 (evB_ok h.1.1) (safeB_ok hs.1) k1 k2 (after_ok h.1.2) k3) h.2 hs.2 hc.2

-- a follower that becomes a leader, replicates, and is replaced: the whole run is calm
theorem twoR_calm : CalmLife Demo.cfg [] twoR :=
  calm_of_allCalm (.fresh 0 _) (by decide +kernel) (by decide +kernel) (by decide +kernel)

/-- the states of this run before a rebuild, a `Replicate` and an `Apply` command are executed -/
def calmAt (k : Nat) : Node := runTo false (Node.fresh Demo.cfg 0) (twoEvs.take k)

/-- does the queue begin with a rebuild that has targets -/
def headRebuild (n : Node) : Bool := match n.head with | some (.rebuild ts) => !ts.isEmpty | _ => false

theorem calmAt42 : CalmLife Demo.cfg [] (calmAt 42) :=
  calm_of_allCalm (.fresh 0 _) (by decide +kernel) (by decide +kernel) (by decide +kernel)
theorem calmAt45 : CalmLife Demo.cfg [] (calmAt 45) :=
  calm_of_allCalm (.fresh 0 _) (by decide +kernel) (by decide +kernel) (by decide +kernel)
theorem calmAt75 : CalmLife Demo.cfg [] (calmAt 75) :=
  calm_of_allCalm (.fresh 0 _) (by decide +kernel) (by decide +kernel) (by decide +kernel)

-- a rebuild is executed
example : headRebuild (calmAt 42) = true ∧ ∃ n', (calmAt 42).step false .run = .ok n' :=
  ⟨by decide +kernel, C42_calm_partial calmAt42⟩
-- a `Replicate` command
example : ∃ t i, (calmAt 45).head = some (.replicate t i) ∧ t ∈ (calmAt 45).repl := by
  have h : (match (calmAt 45).head with | some (.replicate _ _) => true | _ => false) = true := by decide +kernel
  split at h
  · next t i hc => exact ⟨t, i, hc, (C42_replicate calmAt45.safe.life hc).1⟩
  · cases h
-- an `Apply` command: entry 2 of the log
example : ∃ f, (calmAt 75).eng.st.getLogId 2 = some f ∧ f.index = 2 := by
  obtain ⟨⟨f, h1, h2, _⟩, _⟩ := C34_calm_partial (a := some (lid 1 2 1)) (u := lid 2 1 2) calmAt75.apply (by decide +kernel)
  exact ⟨f, h1, h2⟩
-- the replaced leader after the run
example : ∃ n', twoR.step false (.msg 90 (.voteReq 11 ⟨⟨9, 2⟩, false⟩ (some (lid 3 3 4)))) = .ok n' :=
  C45_calm_partial twoR_calm (evB_ok (lead := []) (by decide +kernel)) (safeB_ok (by decide +kernel))

/-! ## C46: where memberships come from -/

/-- the memberships of log entries -/
def entMems (es : List Ent) : List Membership := es.filterMap fun x => match x.payload with | .membership m => some m | _ => none

/-- The memberships that an event names: those of the entries and snapshots that it brings, of the initial cluster, and the
one that a change of the effective membership leads to. -/
def evMems (n : Node) : Ev → List Membership
  | .msg _ (.appendReq _ _ _ es _) => entMems es
  | .msg _ (.snapReq _ _ m) => [m.mem.mem]
  | .msg _ (.init _ m) => [m]
  | .msg _ (.write (.membership m)) | .write _ _ (.membership m) => [m]
  | .msg _ (.change c r) | .change _ _ c r =>
    match n.eng.st.ms.effective.mem.change c r with
    | .ok m => [m]
    | .error _ => []
  | _ => []

/-- the life of a node over crashes, with all the memberships that were named to it -/
inductive NLife (dbg : Bool) (cfg : Cfg) : List Membership → Node → Prop
  | fresh (now : Nat) (persist : Bool) : NLife dbg cfg [] (Node.fresh cfg now persist)
  | step {ms : List Membership} {n n' : Node} (ev : Ev) : NLife dbg cfg ms n → n.step dbg ev = .ok n' → NLife dbg cfg (ms ++ evMems n ev) n'
  | crash {ms : List Membership} {n n' : Node} (k now : Nat) : NLife dbg cfg ms n →
      restart dbg now cfg (n.crashDisk k) n.sm = .ok n' → NLife dbg cfg ms n'

/-- the memberships that a node uses and stores -/
def usedMems (n : Node) : List Membership :=
  [n.eng.st.ms.effective.mem, n.eng.st.ms.committed.mem, n.sm.mem.mem, n.sm.snap.mem.mem] ++ entMems n.rd.entries ++
    entMems n.disk.store.entries ++ n.builds.map (·.mem.mem)

theorem mem_entMems {es : List Ent} {m : Membership} : m ∈ entMems es ↔ ∃ x ∈ es, x.membership? = some m := by
  unfold entMems
  rw [List.mem_filterMap]
  constructor
  · rintro ⟨x, hx, h⟩
    refine ⟨x, hx, ?_⟩
    unfold Ent.membership?
    split at h
    · next hp => cases h; rw [hp]
    · cases h
  · rintro ⟨x, hx, h⟩
    refine ⟨x, hx, ?_⟩
    unfold Ent.membership? at h
    split at h
    · next hp => cases h; rw [hp]
    · cases h

theorem NLife.from {dbg : Bool} {cfg : Cfg} {ms : List Membership} {n : Node} (h : NLife dbg cfg ms n) :
    ∀ M : Membership → Prop, M ⟨[], []⟩ → (∀ m ∈ ms, M m) → NodeM M n := by
  induction h with
  | fresh now persist => intro M h0 _; exact NodeM.fresh h0 _ _ _
  | @step ms n n' ev _ hr ih =>
    intro M h0 hm
    refine (ih M h0 fun m k => hm m (List.mem_append_left _ k)).step ?_ hr
    have hev : ∀ m ∈ evMems n ev, M m := fun m k => hm m (List.mem_append_right _ k)
    have hch : ∀ c r, (∀ m, n.eng.st.ms.effective.mem.change c r = .ok m → M m) → ∀ m, n.eng.changeApply c r = some m → M m := by
      intro c r hc m hm
      unfold Eng.changeApply at hm
      split at hm
      · split at hm
        · next hx => cases hm; exact hc _ hx
        · cases hm
      · cases hm
    have hpay : ∀ p, (∀ m, p = .membership m → M m) → PaysOk M [p] := by
      intro p hp m hm
      rw [List.mem_singleton] at hm
      exact hp m hm.symm
    cases ev with
    | msg now i =>
      cases i with
      | appendReq tx v prev es lc =>
        exact ⟨fun x hx m hxm => hev m (mem_entMems.2 ⟨x, hx, hxm⟩), fun _ _ => trivial⟩
      | snapReq tx v m => exact ⟨hev _ (List.mem_singleton.2 rfl), trivial⟩
      | init tx m => exact hev _ (List.mem_singleton.2 rfl)
      | write p => exact hpay p fun m hp => hev _ (by subst hp; exact List.mem_singleton.2 rfl)
      | change c r => exact hch c r fun m hx => hev m (by simp only [evMems]; rw [hx]; exact List.mem_singleton.2 rfl)
      | _ => trivial
    | write now tx p => exact hpay p fun m hp => hev _ (by subst hp; exact List.mem_singleton.2 rfl)
    | change now tx c r => exact hch c r fun m hx => hev m (by simp only [evMems]; rw [hx]; exact List.mem_singleton.2 rfl)
    | _ => trivial
  | crash k now _ hr ih => intro M h0 hm; exact (ih M h0 hm).restart hr

/-- **C46**: every membership that a node uses, has in its log, in its state machine or in a snapshot was named to it by an
event of its life, over any number of crashes, or is the empty one it starts with. No message is assumed to be well formed. -/
theorem C46_memberships {dbg : Bool} {cfg : Cfg} {ms : List Membership} {n : Node} (h : NLife dbg cfg ms n) :
    ∀ m ∈ usedMems n, m = ⟨[], []⟩ ∨ m ∈ ms := by
  have hn := h.from (fun m => m = ⟨[], []⟩ ∨ m ∈ ms) (Or.inl rfl) fun m hm => Or.inr hm
  intro m hm
  simp only [usedMems, List.mem_append, List.mem_cons, List.not_mem_nil, or_false, List.mem_map] at hm
  rcases hm with ((hm | hm) | hm) | ⟨x, hx, rfl⟩
  · rcases hm with rfl | rfl | rfl | rfl
    · exact hn.eng.eff
    · exact hn.eng.com
    · exact hn.sm
    · exact hn.snap
  · obtain ⟨x, hx, hxm⟩ := mem_entMems.1 hm
    exact hn.rd x hx m hxm
  · obtain ⟨x, hx, hxm⟩ := mem_entMems.1 hm
    exact hn.disk x hx m hxm
  · exact hn.builds x hx

/-- **C46**, what it is used for: if the memberships of messages and of the initial cluster have a record of each of their
voters, then all memberships of the node have; those that the node makes itself out of changes always have. -/
theorem C46_voters_known {dbg : Bool} {cfg : Cfg} {ms : List Membership} {n : Node} (h : NLife dbg cfg ms n)
    (hms : ∀ m ∈ ms, ∀ i, m.isVoter i = true → m.contains i = true) :
    ∀ m ∈ usedMems n, ∀ i, m.isVoter i = true → m.contains i = true := by
  intro m hm
  rcases C46_memberships h m hm with rfl | hm
  · intro i hi; cases hi
  · exact hms m hm

/-- **C46**: a change of membership never makes a membership with an unknown voter. -/
theorem C46_change {m m' : Membership} {c : ChangeMembers} {retain : Bool} (h : m.change c retain = .ok m') :
    ∀ i, m'.isVoter i = true → m'.contains i = true := mw_change h

/-- all memberships named in a run -/
def namedBy (dbg : Bool) (n : Node) : List (List LogId × Ev) → List Membership
  | [] => []
  | (_, ev) :: evs => evMems n ev ++ namedBy dbg (after dbg n ev) evs

theorem nlife_of_allOk {dbg : Bool} {cfg : Cfg} {ms : List Membership} {n : Node} {evs : List (List LogId × Ev)}
    (h0 : NLife dbg cfg ms n) (h : allOk dbg n evs = true) : NLife dbg cfg (ms ++ namedBy dbg n evs) (runTo dbg n evs) := by
  induction evs generalizing ms n with
  | nil => simpa [namedBy, runTo] using h0
  | cons x evs ih =>
    obtain ⟨lead, ev⟩ := x
    simp only [allOk, Bool.and_eq_true, decide_eq_true_eq] at h
    have := ih (.step ev h0 (after_ok h.1.2)) h.2
    rwa [List.append_assoc] at this

theorem nlife_of_fresh {dbg : Bool} {cfg : Cfg} {n : Node} {evs : List (List LogId × Ev)}
    (h0 : NLife dbg cfg [] n) (h : allOk dbg n evs = true) : NLife dbg cfg (namedBy dbg n evs) (runTo dbg n evs) :=
  nlife_of_allOk h0 h

/-- the leader of `leadEvs` adds node 4 as a learner -/
def growEvs : List (List LogId × Ev) := leadEvs ++ settle ++
  [([], .msg 35 (.replProgress ⟨vl26, some (lid 1 2 0)⟩ 3 (.matching (some (lid 2 1 2)))))] ++ settle ++
  [([], .change 36 52 (.addNodes [(4, 4)]) true)] ++ settle

/-- the node after that -/
def grows : Node := runTo false (Node.fresh Demo.cfg 0) growEvs

theorem grows_life : NLife false Demo.cfg (namedBy false (Node.fresh Demo.cfg 0) growEvs) grows :=
  nlife_of_fresh (.fresh 0 _) (by decide +kernel)

-- the message of the first leader named one membership, the change another one; the node uses the second one
example : namedBy false (Node.fresh Demo.cfg 0) growEvs = [m3, { m3 with nodes := m3.nodes ++ [(4, 4)] }] ∧
    grows.eng.st.ms.effective.mem = { m3 with nodes := m3.nodes ++ [(4, 4)] } ∧ grows.eng.st.ms.committed.mem = m3 := by decide +kernel
example : ∃ ms, NLife false Demo.cfg ms grows ∧ ∀ m ∈ usedMems grows, m = ⟨[], []⟩ ∨ m ∈ ms :=
  ⟨_, grows_life, C46_memberships grows_life⟩

end Openraft.Props
