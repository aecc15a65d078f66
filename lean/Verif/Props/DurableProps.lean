import Verif.Runtime.VoteLife
import Verif.Props.RuntimeProps
import Verif.Props.EngineProps

/-!
# What is durable: C06, C07, C32, C43 over any number of crashes

`Life dbg cfg old n`: a node with configuration `cfg` that began with nothing stored, took any allowed steps, crashed
any number of times, each time with any number of its pending writes kept, and is now in state `n`; `old` are the
answers it sent before its last crash.
-/

set_option autoImplicit false

namespace Openraft.Props
open Openraft Openraft.Engine Openraft.Runtime Openraft.Engine.Demo Openraft.Runtime.Demo
open LogIdList

variable {dbg : Bool} {cfg : Cfg} {old : List Resp} {n n' : Node} {ev : Ev}

/-! ## a concrete life -/

/-- Leader 2 sends two entries and their commit; the node writes them, answers and applies them. -/
def lifeEvs : List (List LogId × Ev) :=
  [(lead2', .msg 1 (.appendReq 7 v2 none [⟨lid 1 2 0, .membership m3⟩, ⟨lid 1 2 1, .blank⟩] (some (lid 1 2 1))))] ++ runs 3 ++
  [([], .flush), ([], .note 3), ([], .note 3), ([], .note 4)]

/-- before the answer is sent -/
def lifeA : Node := runTo true (Node.fresh Demo.cfg 0) lifeEvs
/-- after the answer is sent -/
def lifeB : Node := Runtime.Demo.after true lifeA .run
/-- after the apply command was executed as well -/
def lifeC : Node := runTo true lifeB (runs 3 ++ [([], .sm), ([], .note 5)])

theorem lifeA_life : Life true Demo.cfg [] lifeA := (Life.fresh 0 false).run (run_of_allOk .refl (by decide +kernel))
theorem lifeB_step : lifeA.step true .run = .ok lifeB := Runtime.Demo.after_ok (by decide +kernel)
theorem lifeB_life : Life true Demo.cfg [] lifeB := lifeA_life.step .run trivial lifeB_step
theorem lifeC_life : Life true Demo.cfg [] lifeC := lifeB_life.run (run_of_allOk .refl (by decide +kernel))


/-- The node crashes with its last write (the committed position) lost, and starts again. -/
def lifeD : Node := reborn true 9 Demo.cfg lifeC 0
/-- The node crashes with its last write kept, and starts again. -/
def lifeE : Node := reborn true 9 Demo.cfg lifeC 1

theorem lifeD_fits : Fits (lifeC.crashDisk 0) lifeC.sm.reboot := fitsB_ok (by decide +kernel)
theorem lifeE_fits : Fits (lifeC.crashDisk 1) lifeC.sm.reboot := fitsB_ok (by decide +kernel)
theorem lifeD_life : Life true Demo.cfg (lifeC.sent.map (·.2.2)) lifeD := lifeC_life.crash 0 9 lifeD_fits (reborn_ok (by decide +kernel))
theorem lifeE_life : Life true Demo.cfg (lifeC.sent.map (·.2.2)) lifeE := lifeC_life.crash 1 9 lifeE_fits (reborn_ok (by decide +kernel))

/-! ## C06: the vote never goes back -/

/-- `n'` comes after `n` in the life of a node: any steps with any messages; after a crash the log, the committed position and
the state machine may be any, only the stored vote is kept -/
inductive Later (dbg : Bool) : Node → Node → Prop
  | refl {n : Node} : Later dbg n n
  | step {n n1 n2 : Node} (ev : Ev) : Later dbg n n1 → n1.step dbg ev = .ok n2 → Later dbg n n2
  | crash {n n1 n2 : Node} (now : Nat) (cfg : Cfg) (d : Disk) (s : Sm) : Later dbg n n1 → d.vote = n1.disk.vote →
      restart dbg now cfg d s = .ok n2 → Later dbg n n2

/-- what a crash may leave has the stored vote -/
theorem crash_keeps_vote (n : Node) (k : Nat) : (n.crashDisk k).vote = n.disk.vote := write_vote _ _

/-- **C06, on disk.** The stored vote never decreases: for all messages, all interleavings, any number of crashes. -/
theorem C06_disk_forward (h : AnyLife dbg old n) (hl : Later dbg n n') : n.disk.vote ≤ n'.disk.vote := by
  suffices hs : ∃ old', AnyLife dbg old' n' ∧ n.disk.vote ≤ n'.disk.vote by
    obtain ⟨_, _, h2⟩ := hs
    exact h2
  induction hl with
  | refl => exact ⟨old, h, le_refl _⟩
  | step ev _ hs ih =>
    obtain ⟨o, h1, h2⟩ := ih
    exact ⟨o, h1.step ev hs, h2.trans (h1.inv.1.step hs).2⟩
  | crash now cfg d s _ hd hr ih =>
    obtain ⟨o, h1, h2⟩ := ih
    refine ⟨_, h1.crash now cfg d s hd hr, h2.trans ?_⟩
    rw [(VInv.restart hr).2.1, hd]

/-- **C06, in memory.** The vote in memory does not decrease in a step, is at least the stored one, and is the stored one when all
commands are executed. -/
theorem C06_memory (h : AnyLife dbg old n) :
    n.disk.vote ≤ n.eng.st.vote.data ∧ (n.done = n.eng.out.length → n.disk.vote = n.eng.st.vote.data) ∧
    ∀ ev n', n.step dbg ev = .ok n' → n.eng.st.vote.data ≤ n'.eng.st.vote.data := by
  refine ⟨h.inv.1.flow.le, fun hd => ?_, fun ev n' hs => VInv.mem_step hs⟩
  have := h.inv.1.flow
  rw [hd, List.drop_length] at this
  exact (show n.eng.st.vote.data = n.disk.vote from this).symm

/-- **C06, answers.** The votes in the answers a node sends never decrease, over any number of crashes, and are never above
the stored vote. -/
theorem C06_answers (h : AnyLife dbg old n) :
    ((old ++ n.sent.map (·.2.2)).filterMap voteOf).Pairwise (· ≤ ·) ∧
    ∀ v ∈ (old ++ n.sent.map (·.2.2)).filterMap voteOf, v ≤ n.disk.vote := h.inv.2

example : AnyLife true [] lifeC ∧ Later true lifeC lifeD ∧ v2 = lifeC.disk.vote ∧ lifeD.disk.vote = v2 ∧ lifeD.eng.st.vote.data = v2 :=
  ⟨lifeC_life.any, .crash 9 Demo.cfg _ _ .refl (crash_keeps_vote lifeC 0) (reborn_ok (by decide +kernel)), by decide +kernel, by decide +kernel,
    by decide +kernel⟩
example : (lifeC.sent.map (·.2.2) ++ lifeD.sent.map (·.2.2)).filterMap voteOf = [v2] := by decide +kernel

/-! ## C07: what is durable when an answer is sent -/

/-- **C07, AppendEntries.** When a node sends a success answer that acknowledges `upto`, then whatever part of its pending
writes a crash at this point keeps: the stored vote is the one of the answer; the acknowledged position is in the log and each
index up to it is either below the position at which the state machine would start again, or the entry at this index is
on disk; or the acknowledged position is itself not above the position at which the state machine would start again. -/
theorem C07_append_durable (h : Life dbg cfg old n) (ho : EvOk n ev) (hs : n.step dbg ev = .ok n') {i tx : Nat} {v : Vote}
    {upto : Option LogId} (hsent : n'.sent = n.sent ++ [(i, tx, .append .success v upto)]) (k : Nat) :
    (n'.crashDisk k).vote = v ∧ ∀ x, upto = some x → some x ≤ n'.sm.reboot.applied ∨
      (∃ e ∈ n'.rd.entries, e.id = x) ∧ ∀ j, j ≤ x.index → j < nextIndex n'.sm.reboot.applied ∨
        ∃ e ∈ n'.rd.entries, e.id.index = j ∧ e ∈ (n'.crashDisk k).store.entries := by
  obtain ⟨⟨g0, a0, s0, c0, P, S, hi⟩, _⟩ := h.inv
  rcases RInv.sent_step hs with h3 | ⟨w, tx', r, rfl, hc, hrdy, rfl⟩
  · rw [h3] at hsent
    exact absurd (congrArg List.length hsent) (by simp)
  · have hr : (n.done, tx', r) = (i, tx, .append .success v upto) := by simpa using hsent
    obtain ⟨rfl, rfl, rfl⟩ : n.done = i ∧ tx' = tx ∧ r = .append .success v upto := by simpa using hr
    have hvd := hi.sent_vote hc (r := .append .success v upto) rfl
    obtain ⟨_, hck, _, _⟩ := hi.head hc
    obtain ⟨hw, hav, hgv, hheld⟩ := hck
    have hall := hi.fl_wait (w := w) (c := .respond w tx' (.append .success v upto)) rfl hrdy (Or.inl hw)
    have hkept : n.sm.reboot.applied = n.sm.kept := by unfold Sm.reboot Sm.kept; split <;> rfl
    have hpk : LeI n.rd.purged n.sm.kept := by
      refine hi.d.purged.trans ?_
      unfold Sm.kept
      split
      · exact hi.snap_app.leI
      · exact LeI.refl _
    refine ⟨?_, ?_⟩
    · show (n.crashDisk k).vote = v
      rw [hi.vote_crash]; exact hvd
    · intro x hx
      show some x ≤ n.sm.reboot.applied ∨ (∃ e ∈ n.rd.entries, e.id = x) ∧ ∀ j, j ≤ x.index → j < nextIndex n.sm.reboot.applied ∨
        ∃ e ∈ n.rd.entries, e.id.index = j ∧ e ∈ (n.crashDisk k).store.entries
      rw [hkept]
      have hrd := hi.d.rd
      rcases hheld x hx with h1 | h1
      · right
        have hx1 : x ∈ n.rd.entries.map (·.id) := by rw [hrd]; exact h1
        obtain ⟨e, he, hex⟩ := List.mem_map.1 hx1
        refine ⟨⟨e, he, hex⟩, fun j hj => ?_⟩
        have hwf : LogWf n.rd := by
          have hkk := hi.crash_ok (n.pend.length)
          have hcc : (n.crashDisk n.pend.length).store = n.rd := by
            obtain ⟨S1, S2, q1, q2, q3⟩ := hi.crash_all n.pend.length
            unfold Node.crashDisk
            rw [List.take_length, hi.d.pend, hrd, Gh.runs_append]
            exact store_runs _ _ _ hi.d.store
          rw [← hcc]; exact hkk.wf
        rcases Nat.lt_or_ge j (nextIndex n.rd.purged) with hjp | hjp
        · exact Or.inl (Nat.lt_of_lt_of_le hjp hpk.2)
        · have hxl := (hwf.mem_le_last (all_ids hx1)).leI.2
          simp only [nextIndex_some] at hxl
          obtain ⟨r1, r2, r3⟩ := hwf.read_spec (a := j) (b := j + 1) hjp (by omega) (Nat.lt_succ_self _)
          cases hg : (n.rd.read j (j + 1)).head? with
          | none => rw [hg] at r2; cases r2
          | some y =>
            rw [hg] at r2
            have hy : y ∈ n.rd.entries := (List.mem_filter.1 (List.mem_of_head? hg)).1
            have hyi : y.id.index = j := by simpa using r2
            rcases hi.durable hall k hy with h4 | h4
            · exact Or.inr ⟨y, hy, hyi, h4⟩
            · exact Or.inl (by omega)
      · left
        rw [← hrd] at h1
        exact le_trans h1.1 hpk.1

/-- **C07, votes.** When a node answers a vote request, accepts a request of a leader or refuses a request because of its vote, the
vote of the answer is on disk; this needs no assumption on the messages. -/
theorem C07_vote_durable (h : AnyLife dbg old n) (hs : n.step dbg ev = .ok n') {i tx : Nat} {r : Resp} {v : Vote}
    (hsent : n'.sent = n.sent ++ [(i, tx, r)]) (hr : voteOf r = some v) (k : Nat) : (n'.crashDisk k).vote = v := by
  rw [crash_keeps_vote]
  rcases RInv.sent_step hs with h3 | ⟨w, tx', r', rfl, hc, hrdy, rfl⟩
  · rw [h3] at hsent
    exact absurd (congrArg List.length hsent) (by simp)
  · obtain ⟨_, _, rfl⟩ : n.done = i ∧ tx' = tx ∧ r' = r := by simpa using hsent
    exact h.inv.1.sent hc hr

example : lifeB.sent = lifeA.sent ++ [(2, 7, .append .success v2 (some (lid 1 2 1)))] ∧
    (lifeB.crashDisk 0).store.entries = [⟨lid 1 2 0, .membership m3⟩, ⟨lid 1 2 1, .blank⟩] := by decide +kernel
example (k : Nat) := C07_append_durable lifeA_life (ev := .run) trivial lifeB_step (show lifeB.sent = lifeA.sent ++ [(2, 7, .append .success v2 (some (lid 1 2 1)))] by decide +kernel) k

/-! ## C43: log store and memory -/

/-- the purged position after the commands -/
def purgedAfter : Option LogId → List Cmd → Option LogId
  | p, [] => p
  | _, .purge u :: cs => purgedAfter (some u) cs
  | p, _ :: cs => purgedAfter p cs

theorem purged_of_runs {g : Gh} {cs : List Cmd} : (g.runs cs).store.purged = purgedAfter g.store.purged cs := by
  induction cs generalizing g with
  | nil => rfl
  | cons c cs ih =>
    refine (ih (g := g.run c)).trans ?_
    cases c with
    | sm c => cases c <;> rfl
    | _ => rfl

/-- `store` and `vote` are what executing `cs` makes of `store0` and `vote0` -/
structure Executed (store0 : LogStore) (vote0 : Vote) (cs : List Cmd) (store : LogStore) (vote : Vote) : Prop where
  entries : store.entries = Spec.logAfter store0.entries cs
  purged : store.purged = purgedAfter store0.purged cs
  vote : vote = Spec.lastVote vote0 cs

theorem executed_runs {g : Gh} {cs : List Cmd} (ho : g.Oks cs) : Executed g.store g.vote cs (g.runs cs).store (g.runs cs).vote :=
  ⟨log_of_runs _ _, purged_of_runs, (votes_of_oks ho).2.symm⟩

/-- **C43, what is read.** While a node runs, what a read of its log returns and the stored vote are those from before, changed by
exactly the commands executed since, in the order in which the engine emitted them. -/
theorem C43_store_follows (h : Life dbg cfg old n) (hr : Node.Run dbg n n') :
    ∃ cs, n'.eng.out.take n'.done = n.eng.out.take n.done ++ cs ∧ Executed n.rd n.disk.vote cs n'.rd n'.disk.vote := by
  obtain ⟨⟨g0, a0, s0, c0, P, S, hi⟩, _⟩ := h.inv
  obtain ⟨P', S', hi', ⟨cs, hcs⟩, _⟩ := hr.inv hi
  refine ⟨cs, by rw [hi'.split, hi.split, hcs], ?_⟩
  have ho := hi'.oks
  rw [← hcs, Gh.oks_append] at ho
  rw [hi.d.rd, hi'.d.rd, hi.disk_vote, hi'.disk_vote, ← hcs, Gh.runs_append _ (P ++ S)]
  exact executed_runs ho.2

/-- **C43, what is durable.** If nothing was pending at `n`, then what a crash at any later point of the run leaves on disk is what
was there at `n`, changed by a prefix of the commands executed since; no stored vote is lost. -/
theorem C43_durable_prefix (h : Life dbg cfg old n) (hp : n.pend = []) (hr : Node.Run dbg n n') (k : Nat) :
    ∃ cs ds, n'.eng.out.take n'.done = n.eng.out.take n.done ++ (cs ++ ds) ∧
      Executed n.rd n.disk.vote cs (n'.crashDisk k).store (n'.crashDisk k).vote ∧ Spec.lastVote n.disk.vote (cs ++ ds) = (n'.crashDisk k).vote := by
  obtain ⟨⟨g0, a0, s0, c0, P, S, hi⟩, _⟩ := h.inv
  obtain ⟨P', S', hi', hpre, q, hq⟩ := hr.inv hi
  obtain ⟨S1, S2, h1, _, h2⟩ := hi'.crash_all k
  have hall : P' ++ S' = (P' ++ S1) ++ S2 := by rw [h1, List.append_assoc]
  have ho := hi'.oks
  have hvv : (n'.crashDisk k).vote = (g0.runs (P' ++ S')).vote := by rw [hi'.vote_crash, hi'.disk_vote]
  rcases List.prefix_or_prefix_of_prefix hpre (⟨S2, hall.symm⟩ : P' ++ S1 <+: P' ++ S') with ⟨cs, hc⟩ | ⟨r, hc⟩
  · refine ⟨cs, S2, ?_, ?_, ?_⟩
    · rw [hi'.split, hi.split, hall, ← hc, List.append_assoc]
    · rw [hall, Gh.oks_append, ← hc, Gh.oks_append] at ho
      rw [h2, ← hc, Gh.runs_append _ (P ++ S), hi.d.rd, hi.disk_vote]
      exact executed_runs ho.1.2
    · rw [hall, ← hc, List.append_assoc, Gh.oks_append] at ho
      rw [hvv, hall, ← hc, List.append_assoc, hi.disk_vote, (votes_of_oks ho.2).2, Gh.runs_append _ (P ++ S)]
  · obtain ⟨cs, hcs⟩ := hpre
    refine ⟨[], cs, ?_, ?_, ?_⟩
    · rw [hi'.split, hi.split, ← hcs]; rfl
    · -- the commands after the durable ones up to `n` write nothing
      have hnone : S.filterMap opOf = [] := by rw [← hi.d.pend]; exact hp
      have hS : S = q ++ S1 ++ r := by
        rw [← hq, List.append_assoc, List.append_assoc] at hc
        have := List.append_cancel_left hc
        rw [← this, List.append_assoc]
      have hr0 : r.filterMap opOf = [] := by
        rw [hS, List.filterMap_append] at hnone
        exact (List.append_eq_nil_iff.1 hnone).2
      have h3 := store_runs (g0.runs (P' ++ S1)) r (n'.crashDisk k) (by rw [h2])
      rw [hr0, ← Gh.runs_append, hc, ← hi.d.rd] at h3
      have h4 : (n'.crashDisk k).store = n.rd := h3
      have h5 : (n'.crashDisk k).vote = n.disk.vote := by
        have h6 := vote_runs_same r (g0.runs (P' ++ S1)) fun v hv => hi.d.novote v (by rw [hS]; exact List.mem_append_right _ hv)
        rw [← Gh.runs_append, hc] at h6
        rw [hi.disk_vote, h6, h2]
      exact ⟨by rw [h4]; rfl, by rw [h4]; rfl, by rw [h5]; rfl⟩
    · rw [← hcs, Gh.oks_append] at ho
      rw [hvv, ← hcs, hi.disk_vote, List.nil_append, (votes_of_oks ho.2).2, Gh.runs_append _ (P ++ S)]

/-- **C43, in step.** When all commands are executed, the log store holds exactly the log ids the engine knows, its purged position
is the engine's, and the stored vote is the engine's vote. -/
theorem C43_in_step (h : Life dbg cfg old n) (hd : n.done = n.eng.out.length) :
    n.rd.purged = n.eng.st.lastPurged ∧ n.rd.lastLogId = n.eng.st.lastLogId ∧ n.disk.vote = n.eng.st.vote.data ∧
    ∀ x, nextIndex n.rd.purged ≤ x.index → (n.eng.st.getLogId x.index = some x ↔ ∃ e ∈ n.rd.entries, e.id = x) := by
  have hv := (C06_memory h.any).2.1 hd
  obtain ⟨⟨g0, a0, s0, c0, P, S, hi⟩, _⟩ := h.inv
  have hout : P ++ S = n.eng.out := by rw [← hi.split, hd, List.take_length]
  have hrd := hi.d.rd
  rw [hout] at hrd
  have hlj := hi.flow.inv.lm.log
  have hp : n.rd.purged = n.eng.st.lastPurged := by rw [hrd]; exact hlj.stp
  have hL : expand n.eng.st.logIds = LogStore.all n.rd := by
    have := hlj.cpl
    unfold LogStore.all
    rw [hp, hrd]; exact this
  refine ⟨hp, ?_, hv, fun x hx => ?_⟩
  · rw [LogWf.last_eq, ← hL]
    exact expand_getLast?
  · show LogIdList.get n.eng.st.logIds x.index = some x ↔ _
    have hso : SortedIdx n.eng.st.logIds := hlj.sorted
    rw [get_iff hso, hL]
    unfold LogStore.all
    constructor
    · rintro ⟨h1, _⟩
      rcases List.mem_append.1 h1 with h1 | h1
      · have h1 : n.rd.purged = some x := by simpa using h1
        rw [h1] at hx; simp only [nextIndex_some] at hx; omega
      · exact List.mem_map.1 h1
    · rintro ⟨e, he, rfl⟩
      exact ⟨List.mem_append_right _ (List.mem_map_of_mem he), rfl⟩

example : lifeC.done = lifeC.eng.out.length ∧ lifeC.eng.st.getLogId 1 = some (lid 1 2 1) := by decide +kernel
example : (Node.fresh Demo.cfg 0).pend = [] ∧ Node.Run true (Node.fresh Demo.cfg 0) lifeA :=
  ⟨rfl, run_of_allOk .refl (by decide +kernel)⟩

/-! ## C32: what start-up makes of what a crash left -/

/-- What start-up must make of the disk `d` and the state machine `s` that are left: the state `st` of the engine, the log store
`store` and the state machine `s2`. -/
structure Recovered (d : Disk) (s : Sm) (st : RState) (store : LogStore) (s2 : Sm) : Prop where
  /-- the stored vote -/
  vote : st.vote.data = d.vote
  /-- every stored entry is found by its index, and nothing else -/
  log : ∀ x, nextIndex store.purged ≤ x.index → (st.getLogId x.index = some x ↔ ∃ e ∈ store.entries, e.id = x)
  /-- the position: the greater of the saved committed position and the one of the state machine -/
  applied : s2.applied = if d.committed < s.applied then s.applied else d.committed
  committed : st.committed = s2.applied
  /-- the entries from the old to the new position are applied, each once and in order -/
  once : ∃ es, s2.hist = s.hist ++ es ∧ (∀ e ∈ es, e ∈ d.store.entries) ∧
    es.map (·.id.index) = List.range' (nextIndex s.applied) (nextIndex s2.applied - nextIndex s.applied)
  /-- nothing of the log is lost, unless all of it is below the position of the state machine -/
  kept : store = d.store ∨ store = ⟨s.applied, []⟩ ∧ ∀ e ∈ d.store.entries, e.id.index < nextIndex s.applied
  /-- there is no hole: the log begins right after the purged position and has consecutive indexes, and the position of the
  state machine is the purged position or in the log -/
  noHole : Spec.NoHole (store.purged.toList ++ store.entries.map (·.id))
  noGap : ∀ e, store.entries.head? = some e → e.id.index = nextIndex store.purged
  found : s2.applied = store.purged ∨ ∃ e ∈ store.entries, some e.id = s2.applied

theorem read_indexes {st : LogStore} (h : LogWf st) {a b : Nat} (ha : nextIndex st.purged ≤ a) (hb : b ≤ nextIndex st.lastLogId) :
    (st.read a b).map (·.id.index) = List.range' a (b - a) := by
  rcases Nat.lt_or_ge a b with hab | hab
  · apply List.ext_getElem?
    intro i
    have hlen := (h.read_spec ha hb hab).1
    rw [List.getElem?_map]
    rcases Nat.lt_or_ge i (b - a) with hi | hi
    · rw [List.getElem?_range' hi]
      obtain ⟨e, he⟩ : ∃ e, (st.read a b)[i]? = some e := ⟨_, List.getElem?_eq_getElem (by rw [hlen]; exact hi)⟩
      rw [he]
      rw [h.read_eq b ha, List.getElem?_take, if_pos hi, List.getElem?_drop] at he
      have := h.consecutive _ e he
      simp only [Option.map_some, Option.some.injEq]; omega
    · rw [List.getElem?_eq_none (by rw [hlen]; omega), List.getElem?_eq_none (by simpa using hi)]; rfl
  · rw [read_nil _ hab, Nat.sub_eq_zero_of_le hab]; rfl

theorem recovered_of_loaded {now : Nat} {d : Disk} {s s2 : Sm} {st : RState} {store : LogStore} (hd : DiskOk d) (hf : Fits d s)
    (hl : Loaded now d s st store s2) : Recovered d s st store s2 := by
  refine ⟨by rw [hl.vote]; rfl, ?_, hl.app, hl.com, ⟨_, hl.hist, ?_, ?_⟩, ?_, noHole_of_cons hl.wf.cons, hl.wf.start, ?_⟩
  · intro x hx
    show LogIdList.get st.logIds x.index = some x ↔ _
    rw [get_iff hl.sorted, hl.ids]
    unfold LogStore.all
    constructor
    · rintro ⟨h1, _⟩
      rcases List.mem_append.1 h1 with h1 | h1
      · have h1 : store.purged = some x := by simpa using h1
        rw [h1] at hx; simp only [nextIndex_some] at hx; omega
      · exact List.mem_map.1 h1
    · rintro ⟨e, he, rfl⟩
      exact ⟨List.mem_append_right _ (List.mem_map_of_mem he), rfl⟩
  · intro e he
    exact (List.mem_filter.1 he).1
  · rcases hl.stEq with ⟨h1, h2⟩ | ⟨h1, h2, _⟩
    · refine read_indexes hd.wf ?_ ?_
      · rcases hf.app with h | ⟨x, h, h3 | h3⟩
        · rw [h]
        · rw [h]; exact (hd.wf.purged_le (all_ids h3)).leI.2
        · rw [h]
          have := hd.wf.purged_le_last.leI.2
          have := h3.1.1
          simp only [nextIndex_some]; omega
      · cases hx : s2.applied with
        | none => exact Nat.zero_le _
        | some x =>
          have := hl.appIn x hx
          rw [h1] at this
          exact (hd.wf.mem_le_last this).leI.2
    · rw [h2, read_nil _ (Nat.le_refl _), Nat.sub_self]; rfl
  · rcases hl.stEq with ⟨h1, h2⟩ | ⟨h1, h2, x, hx, hb⟩
    · exact Or.inl h1
    · refine Or.inr ⟨h1, fun e he => ?_⟩
      have := (hd.wf.mem_le_last (all_ids (List.mem_map_of_mem he))).leI.2
      have h5 := hb.1
      rw [hx]
      simp only [nextIndex_some] at *; omega
  · cases hx : s2.applied with
    | none =>
      left
      rcases hl.stEq with ⟨h1, h2⟩ | ⟨h1, h2, x, hx', hb⟩
      · have hle := hl.app_le hd hf
        rw [hx] at hle
        have ha : s.applied = none := by
          have := hle.le
          cases hq : s.applied with
          | none => rfl
          | some y => rw [hq] at this; exact absurd this (by simp)
        rcases hf.app with h | ⟨x, h, _⟩
        · rw [h1, ← h, ha]
        · rw [ha] at h; cases h
      · rw [h2, hx'] at hx; cases hx
    | some x =>
      rcases List.mem_append.1 (hl.appIn x hx) with h1 | h1
      · left
        exact (by simpa using h1 : store.purged = some x).symm
      · right
        obtain ⟨e, he, hex⟩ := List.mem_map.1 h1
        exact ⟨e, he, by rw [hex]⟩

/-- **C32.** A node that ran and crashed any number of times crashes again, with any number `k` of its pending writes kept. Then
start-up loads the state described by `Recovered`, if what is left of the state machine fits the log that is left. -/
theorem C32_restart_partial (h : Life dbg cfg old n) (k now : Nat) (hf : Fits (n.crashDisk k) n.sm.reboot) :
    ∃ st store s2, initialState now (n.crashDisk k) n.sm.reboot = .ok (st, store, s2) ∧
      Recovered (n.crashDisk k) n.sm.reboot st store s2 := by
  obtain ⟨⟨g0, a0, s0, c0, P, S, hi⟩, _⟩ := h.inv
  obtain ⟨st, store, s2, h1, h2⟩ := initialState_ok now (hi.crash_ok k) hf
  exact ⟨st, store, s2, h1, recovered_of_loaded (hi.crash_ok k) hf h2⟩

/-- the saved committed position was lost: nothing is applied; it was kept: both entries are applied again -/
example : lifeD.sm.hist = [] ∧ lifeD.eng.st.committed = none ∧ lifeE.sm.hist = [⟨lid 1 2 0, .membership m3⟩, ⟨lid 1 2 1, .blank⟩] ∧
    lifeE.eng.st.committed = some (lid 1 2 1) ∧ lifeD.eng.st.getLogId 1 = some (lid 1 2 1) := by decide +kernel
example := C32_restart_partial lifeC_life 1 9 lifeE_fits

end Openraft.Props
