import Verif.Net.Facts
import Verif.Net.Demo
import Verif.Spec.Quorum

/-!
# Safety of a cluster of real nodes: C01, C02, C03, C04, C27, C28

`Verif/Props/ClusterProps.lean` states these properties for an abstract cluster. Here they are stated for a cluster
(`Verif/Net/Model.lean`) whose nodes are those of the code: engine, command queue, log store with delayed flushes,
state machine worker, notifications (`Verif/Runtime/Model.lean`). The proofs show that every state of such a cluster
agrees with a history in the sense of the abstract one.

All theorems here are `_partial`: the executions are restricted as `Verif/Net/Model.lean` says (for what
happens without them see `NetCexProps`). Nodes may crash at any time. Snapshots are sent as a whole, and nodes install those that
fit their logs (`SnapFit`).
-/

set_option autoImplicit false

namespace Openraft.Props
open Openraft.Engine Openraft.Cluster Openraft.Net
open Openraft.Net.Demo (start first second third)

variable {m0 : Membership} {dbg : Bool} {N N' : Net}

/-- the log stores of a node: what can be read, and what is durable -/
def Stores (n : Runtime.Node) (s : LogStore) : Prop := s = n.rd ∨ s = n.disk.store

/-- the entry is in the log of a node, or in the queue of its log store's writes -/
def Holds (n : Runtime.Node) (x : Ent) : Prop :=
  x ∈ n.rd.entries ∨ ∃ v es, Cmd.append v es ∈ n.eng.out.drop n.done ∧ x ∈ es

/-- the index is covered by a snapshot: the log is purged up to it, or will be -/
def Purged (n : Runtime.Node) (i : Nat) : Prop :=
  i < nextIndex n.rd.purged ∨ ∃ u, Cmd.purge u ∈ n.eng.out.drop n.done ∧ i ≤ u.index

/-- an execution of a cluster of three nodes with two leaders, as a witness -/
theorem net_demo (p : Net → Net → Bool)
    (h : (Net.init start).shows Engine.Demo.m3 true first (fun N => N.shows Engine.Demo.m3 true second (p N)) = true) :
    ∃ N N', Net.Reach Engine.Demo.m3 true N ∧ Net.Steps Engine.Demo.m3 true N N' ∧ p N N' = true := by
  obtain ⟨N, h1, h2⟩ := Net.shows_ok h
  obtain ⟨N', h3, h4⟩ := Net.shows_ok h2
  exact ⟨N, N', ⟨start, h1⟩, h3, h4⟩

/-! ## C02, C27: log matching -/

/-- **Log matching.** If a log id is in the log of one node and now or later in the log of a node, then the entries
are equal, and so are all entries of the two logs below. It does not matter whether the logs are the readable or the
durable ones. -/
theorem C02_net_partial (hm0 : m0.configs ≠ []) (h : Net.Reach m0 dbg N) (hs : Net.Steps m0 dbg N N') {i j : NodeId} {s t : LogStore}
    (hsi : Stores (N.nodes i) s) (htj : Stores (N'.nodes j) t) {a b : Ent} (ha : a ∈ s.entries) (hb : b ∈ t.entries) (hid : a.id = b.id) :
    a = b ∧ ∀ x ∈ s.entries, ∀ y ∈ t.entries, x.id.index = y.id.index → x.id.index ≤ a.id.index → x = y := by
  have : Fact (m0.configs ≠ []) := ⟨hm0⟩
  obtain ⟨g, hg⟩ := reach_ci hm0 h
  obtain ⟨g', hg', hle⟩ := hg.steps hm0 hs
  obtain ⟨_, _, _, _, _, _, hn⟩ := hg.node i
  obtain ⟨_, _, _, _, _, _, hn'⟩ := hg'.node j
  obtain ⟨s1, s2⟩ := hn.stores hg.gi hsi
  obtain ⟨t1, t2⟩ := hn'.stores hg'.gi htj
  have s2 : Good g' (stLog g' s) := by rw [stLog_mono hle s1.val]; exact s2.mono hle
  have s1 := s1.mono hle
  have ka := s1.idAt_mem (x := a.id) (List.mem_append_right _ (List.mem_map_of_mem ha))
  have kb := t1.idAt_mem (x := b.id) (List.mem_append_right _ (List.mem_map_of_mem hb))
  rw [← hid] at kb
  have hmt := match_of_idAt s2 t2 ka kb
  have key : ∀ x ∈ s.entries, ∀ y ∈ t.entries, x.id.index = y.id.index → x.id.index ≤ a.id.index → x = y := by
    intro x hx y hy hxy hxa
    have h1 := (s1.mem_get hx).2
    have h2 := (t1.mem_get hy).2
    rw [← hxy] at h2
    have h3 : (stLog g' s)[x.id.index]? = (stLog g' t)[x.id.index]? := by
      rw [← get_take (a := stLog g' s) (n := a.id.index + 1) (by omega), hmt, get_take (by omega)]
    rw [h1, h2] at h3
    exact toEntry_inj (Option.some.inj h3) hxy
  exact ⟨key a ha b hb (by rw [hid]) (Nat.le_refl _), key⟩

/-- Nodes 1 (before) and 3 (later) both have the log id `⟨⟨1, 1⟩, 2⟩`, node 3 in its durable log. -/
example : ∃ N N', Net.Reach Engine.Demo.m3 true N ∧ Net.Steps Engine.Demo.m3 true N N' ∧
    (∃ a ∈ (N.nodes 1).rd.entries, a.id = ⟨⟨1, 1⟩, 2⟩) ∧ ∃ b ∈ (N'.nodes 3).disk.store.entries, b.id = ⟨⟨1, 1⟩, 2⟩ := by
  obtain ⟨N, N', h1, h2, h3⟩ := net_demo (fun N N' => decide ((∃ a ∈ (N.nodes 1).rd.entries, a.id = ⟨⟨1, 1⟩, 2⟩) ∧
    ∃ b ∈ (N'.nodes 3).disk.store.entries, b.id = ⟨⟨1, 1⟩, 2⟩)) (by decide +kernel)
  exact ⟨N, N', h1, h2, by simpa using h3⟩

/-! ## C04: state machine safety -/

/-- **State machine safety.** Whatever two nodes handed to their state machines at an index, at any time, is the
same entry. -/
theorem C04_net_partial (hm0 : m0.configs ≠ []) (h : Net.Reach m0 dbg N) {x y : NodeId × Ent} (hx : x ∈ N.hist) (hy : y ∈ N.hist)
    (hi : x.2.id.index = y.2.id.index) : x.2 = y.2 := by
  have : Fact (m0.configs ≠ []) := ⟨hm0⟩
  obtain ⟨g, hg⟩ := reach_ci hm0 h
  obtain ⟨L, l, h1, h2⟩ := hg.hist x hx
  obtain ⟨L', l', h3, h4⟩ := hg.hist y hy
  rw [← hi] at h4
  rcases h1.total hm0 hg.gi h3 with hp | hp
  · have := get_of_pre_some hp h2
    rw [this] at h4
    exact toEntry_inj (Option.some.inj h4) hi
  · have := get_of_pre_some hp h4
    rw [this] at h2
    exact (toEntry_inj (Option.some.inj h2) hi.symm).symm

/-- Nodes 1 and 2 both applied the entry at index 1. -/
example : ∃ N, Net.Reach Engine.Demo.m3 true N ∧ (∃ x ∈ N.hist, x.1 = 1 ∧ x.2.id.index = 1) ∧ ∃ x ∈ N.hist, x.1 = 2 ∧ x.2.id.index = 1 := by
  obtain ⟨N, N', h1, h2, h3⟩ := net_demo (fun N N' => decide ((∃ x ∈ N'.hist, x.1 = 1 ∧ x.2.id.index = 1) ∧
    ∃ x ∈ N'.hist, x.1 = 2 ∧ x.2.id.index = 1)) (by decide +kernel)
  obtain ⟨s, h1⟩ := h1
  exact ⟨N', ⟨s, h1.trans h2⟩, by simpa using h3⟩

/-- Nodes 3 and 2 crash, 3 without having stored the entry at index 4. Both start again; node 2 leads again, sends
the entry once more, and has in the end all entries in its state machine, the last one for the first time. -/
example : ∃ N N', Net.Reach Engine.Demo.m3 true N ∧ Net.Steps Engine.Demo.m3 true N N' ∧ (∃ x ∈ N.hist, x.1 = 2 ∧ x.2.id.index = 3) ∧
    (¬ ∃ x ∈ N.hist, x.2.id.index = 4) ∧ (∃ x ∈ N'.hist, x.1 = 2 ∧ x.2 = ⟨⟨⟨2, 2⟩, 4⟩, .normal 8⟩) ∧
    (N'.nodes 2).eng.leader.map (·.vote) = some ⟨⟨2, 2⟩, true⟩ ∧ (N'.nodes 2).sm.hist.length = 5 := by
  obtain ⟨N, h1, h2⟩ := Net.shows_ok (m0 := Engine.Demo.m3) (dbg := true) (N := Net.init start) (evs := first ++ second)
    (p := fun N => N.shows Engine.Demo.m3 true third (fun N' => decide ((∃ x ∈ N.hist, x.1 = 2 ∧ x.2.id.index = 3) ∧
      (¬ ∃ x ∈ N.hist, x.2.id.index = 4) ∧ (∃ x ∈ N'.hist, x.1 = 2 ∧ x.2 = ⟨⟨⟨2, 2⟩, 4⟩, .normal 8⟩) ∧
      (N'.nodes 2).eng.leader.map (·.vote) = some ⟨⟨2, 2⟩, true⟩ ∧ (N'.nodes 2).sm.hist.length = 5))) (by decide +kernel)
  obtain ⟨N', h3, h4⟩ := Net.shows_ok h2
  exact ⟨N, N', ⟨start, h1⟩, h3, of_decide_eq_true h4⟩

/-- The cluster has a state machine or a snapshot at the position `o` with the membership `mem`. -/
inductive Stands (N : Net) (o : Option LogId) (mem : StoredMem) : Prop
  | machine (q : NodeId) : o = (N.nodes q).sm.applied → mem = (N.nodes q).sm.mem → Stands N o mem
  | snapshot (q : NodeId) : o = (N.nodes q).sm.snap.lastLogId → mem = (N.nodes q).sm.snap.mem → Stands N o mem
  | built (q : NodeId) (m : SnapMeta) : m ∈ (N.nodes q).builds → o = m.lastLogId → mem = m.mem → Stands N o mem
  | sent (v : Vote) (m : SnapMeta) : Pkt.snap v m ∈ N.pkts → o = m.lastLogId → mem = m.mem → Stands N o mem

/-- What a state machine or snapshot at the position `o` with the membership `mem` says of an applied entry:
the position is the id of the entry, if the index is the same, and the membership is the last one up to the position. -/
def Describes (o : Option LogId) (mem : StoredMem) (e : Ent) : Prop :=
  (∀ x, o = some x → x.index = e.id.index → x = e.id) ∧
  (∀ m x, o = some x → e.id.index ≤ x.index → e.payload = .membership m → ∃ y, mem.logId = some y ∧ e.id.index ≤ y.index) ∧
  (∀ y, mem.logId = some y → y.index = e.id.index → y = e.id ∧ e.payload = .membership mem.mem)

theorem stands_pos {g : Ghost} (hg : CI m0 N g) {o : Option LogId} {mem : StoredMem} (h : Stands N o mem) : ∃ v, PosOk g v o mem := by
  cases h with
  | machine q h1 h2 => rw [h1, h2]; exact ⟨_, (hg.pos q).sm⟩
  | snapshot q h1 h2 => rw [h1, h2]; exact ⟨_, (hg.pos q).snap⟩
  | built q m hm h1 h2 => rw [h1, h2]; exact ⟨_, (hg.pos q).builds m hm⟩
  | sent v m hm h1 h2 =>
    obtain ⟨x, hx, h3, h4, h5⟩ := (hg.pkts _ hm).1.ok
    rw [h1, h2, hx]
    exact ⟨v, fun y hy => by cases hy; exact h3, h4, h5⟩

/-- **Snapshots and state machines hold the applied entries.** Whatever is applied anywhere, before or after, is what
every state machine and every snapshot in the cluster, also one on its way to another node, says of this index. -/
theorem C04_net_snapshots_partial (hm0 : m0.configs ≠ []) (h : Net.Reach m0 dbg N) (hs : Net.Steps m0 dbg N N') {o : Option LogId} {mem : StoredMem}
    (ho : Stands N o mem) {x : NodeId × Ent} (hx : x ∈ N'.hist) : Describes o mem x.2 := by
  have : Fact (m0.configs ≠ []) := ⟨hm0⟩
  obtain ⟨g, hg⟩ := reach_ci hm0 h
  obtain ⟨g', hg', hle⟩ := hg.steps hm0 hs
  obtain ⟨v, hv⟩ := stands_pos hg ho
  have hv := hv.mono hle (le_refl v)
  have hh := hg'.hist x hx
  have hidx : ∀ {y : LogId}, idAt (cont g' o) y.index = some y → y.index = x.2.id.index → y = x.2.id ∧ (cont g' o)[x.2.id.index]? = some (toEntry x.2) := by
    intro y hy hyi
    have hlt := idAt_lt hy
    rw [cont_lenO hv.1, hyi] at hlt
    have hget := hv.get hm0 hg'.gi hh hlt
    obtain ⟨e, he, hye⟩ := idAt_some.1 hy
    rw [hyi, hget] at he
    cases he
    refine ⟨?_, hget⟩
    exact hye.trans (by rw [hyi]; rfl)
  refine ⟨?_, ?_, ?_⟩
  · intro y hy hyi
    have := hv.1 y hy
    exact (hidx (by rw [hy]; exact cont_last this) hyi).1
  · intro m y hy hle hm
    have hget := hv.get hm0 hg'.gi hh (by rw [hy]; simp only [nextIndex_some]; omega)
    rw [hv.2.2]
    cases hl : (memOf (cont g' o)).logId with
    | none =>
      have := (memOf_none hl).2 _ (List.mem_of_getElem? hget)
      simp [toEntry, Entry.cfg, hm] at this
    | some z =>
      refine ⟨z, rfl, ?_⟩
      by_contra hlt
      have := (lastCfg_some.1 (memOf_some hl).1).2 _ _ (by omega) hget
      simp [toEntry, Entry.cfg, hm] at this
  · intro y hy hyi
    rw [hv.2.2] at hy
    obtain ⟨h1, h2⟩ := hidx (memOf_logId hy) hyi
    refine ⟨h1, ?_⟩
    obtain ⟨e, he, hc⟩ := (lastCfg_some.1 (memOf_some hy).1).1
    rw [hyi, h2] at he
    cases he
    rw [hv.2.2]
    simp only [toEntry, Entry.cfg] at hc
    split at hc
    · next z hz => cases hc; exact hz
    · cases hc

/-- Two state machines or snapshots at the same position, at any two times, have the same membership. -/
theorem C04_net_same_partial (hm0 : m0.configs ≠ []) (h : Net.Reach m0 dbg N) (hs : Net.Steps m0 dbg N N') {o : Option LogId} {mem mem' : StoredMem}
    (ho : Stands N o mem) (ho' : Stands N' o mem') : mem = mem' := by
  have : Fact (m0.configs ≠ []) := ⟨hm0⟩
  obtain ⟨g, hg⟩ := reach_ci hm0 h
  obtain ⟨g', hg', hle⟩ := hg.steps hm0 hs
  obtain ⟨v, hv⟩ := stands_pos hg ho
  obtain ⟨v', hv'⟩ := stands_pos hg' ho'
  rw [hv'.2.2, (hv.mono hle (le_refl v)).2.2]

/-- Leader 2 sends a snapshot up to index 3 to node 1, which has not applied the entries at 2 and 3. Node 1 installs it;
its log is then empty. It takes over the entry at 4, which leader 2 commits with its help and applies. -/
example : ∃ N N', Net.Reach Engine.Demo.m3 true N ∧ Net.Steps Engine.Demo.m3 true N N' ∧
    (∃ x ∈ N.hist, x.1 = 2 ∧ x.2.id = ⟨⟨2, 2⟩, 3⟩) ∧ (N.nodes 1).sm.applied = some ⟨⟨1, 1⟩, 1⟩ ∧
    Pkt.snap ⟨⟨2, 2⟩, true⟩ Net.Demo.snap2 ∈ N'.pkts ∧ (N'.nodes 1).sm.applied = some ⟨⟨2, 2⟩, 3⟩ ∧
    (N'.nodes 1).disk.store = ⟨some ⟨⟨2, 2⟩, 3⟩, [⟨⟨⟨2, 2⟩, 4⟩, .normal 8⟩]⟩ ∧
    (N'.nodes 2).rd.purged = some ⟨⟨1, 1⟩, 2⟩ ∧ ∃ x ∈ N'.hist, x.1 = 2 ∧ x.2 = ⟨⟨⟨2, 2⟩, 4⟩, .normal 8⟩ := by
  obtain ⟨N, h1, h2⟩ := Net.shows_ok (m0 := Engine.Demo.m3) (dbg := true) (N := Net.init start) (evs := first ++ second)
    (p := fun N => N.shows Engine.Demo.m3 true Net.Demo.fourth (fun N' => decide (
      (∃ x ∈ N.hist, x.1 = 2 ∧ x.2.id = ⟨⟨2, 2⟩, 3⟩) ∧ (N.nodes 1).sm.applied = some ⟨⟨1, 1⟩, 1⟩ ∧
      Pkt.snap ⟨⟨2, 2⟩, true⟩ Net.Demo.snap2 ∈ N'.pkts ∧ (N'.nodes 1).sm.applied = some ⟨⟨2, 2⟩, 3⟩ ∧
      (N'.nodes 1).disk.store = ⟨some ⟨⟨2, 2⟩, 3⟩, [⟨⟨⟨2, 2⟩, 4⟩, .normal 8⟩]⟩ ∧
      (N'.nodes 2).rd.purged = some ⟨⟨1, 1⟩, 2⟩ ∧ ∃ x ∈ N'.hist, x.1 = 2 ∧ x.2 = ⟨⟨⟨2, 2⟩, 4⟩, .normal 8⟩))) (by decide +kernel)
  obtain ⟨N', h3, h4⟩ := Net.shows_ok h2
  exact ⟨N, N', ⟨start, h1⟩, h3, of_decide_eq_true h4⟩

/-! ## C03: leader completeness -/

/-- **Leader completeness.** What a leader has committed is in the log of every leader with a greater leader id, at
that time or later. -/
theorem C03_net_partial (hm0 : m0.configs ≠ []) (h : Net.Reach m0 dbg N) (hs : Net.Steps m0 dbg N N') {i j : NodeId} {l l' : Engine.Leader}
    (hl : (N.nodes i).eng.leader = some l) (hd : (N.nodes i).disk.vote = l.vote) {c : LogId} (hc : (N.nodes i).eng.st.committed = some c)
    (hl' : (N'.nodes j).eng.leader = some l') (hlt : l.vote.leaderId < l'.vote.leaderId) {x : Ent} (hx : x ∈ (N.nodes i).rd.entries)
    (hxc : x.id.index ≤ c.index) :
    Purged (N'.nodes j) x.id.index ∨ Holds (N'.nodes j) x := by
  have : Fact (m0.configs ≠ []) := ⟨hm0⟩
  obtain ⟨g, hg⟩ := reach_ci hm0 h
  obtain ⟨g', hg', hle⟩ := hg.steps hm0 hs
  obtain ⟨_, _, _, _, _, _, hn⟩ := hg.node i
  obtain ⟨_, _, _, _, _, _, hn'⟩ := hg'.node j
  obtain ⟨⟨S, hS⟩, hll⟩ := hn'.leads hg'.gi hl'
  obtain ⟨h1, h2⟩ := hn.committed hg.gi hc
  have h3 := get_of_pre_some (hn.rd_pre hg.gi hl hd) ((hn.stores hg.gi (Or.inl rfl)).1.mem_get hx).2
  have hv := (hn.r.flow.inv.pj.lead l hl).vote
  have h4 := (h1.cpre.mono hle).le (L' := l'.vote.leaderId) (by rw [← hv]; exact le_of_lt hlt)
  have h5 := h4.ll hm0 hg'.gi hS
  rw [hll] at h5
  exact hn'.holds hg'.gi (get_of_pre_some h5 (by rw [get_take (by omega)]; exact h3))

/-- Node 1 leads with `⟨1, 1⟩` and has committed index 1; later node 2 leads with `⟨2, 2⟩`. -/
example : ∃ N N', Net.Reach Engine.Demo.m3 true N ∧ Net.Steps Engine.Demo.m3 true N N' ∧
    (N.nodes 1).eng.leader.map (·.vote) = some ⟨⟨1, 1⟩, true⟩ ∧ (N.nodes 1).disk.vote = ⟨⟨1, 1⟩, true⟩ ∧
    (N.nodes 1).eng.st.committed = some ⟨⟨1, 1⟩, 1⟩ ∧ (∃ x ∈ (N.nodes 1).rd.entries, x.id.index = 1) ∧
    (N'.nodes 2).eng.leader.map (·.vote) = some ⟨⟨2, 2⟩, true⟩ := by
  obtain ⟨N, N', h1, h2, h3⟩ := net_demo (fun N N' => decide ((N.nodes 1).eng.leader.map (·.vote) = some ⟨⟨1, 1⟩, true⟩ ∧
    (N.nodes 1).disk.vote = ⟨⟨1, 1⟩, true⟩ ∧ (N.nodes 1).eng.st.committed = some ⟨⟨1, 1⟩, 1⟩ ∧
    (∃ x ∈ (N.nodes 1).rd.entries, x.id.index = 1) ∧
    (N'.nodes 2).eng.leader.map (·.vote) = some ⟨⟨2, 2⟩, true⟩)) (by decide +kernel)
  exact ⟨N, N', h1, h2, by simpa using h3⟩

/-- A leader whose vote is at least that of every node has every entry that was ever applied. -/
theorem C03_net_applied_partial (hm0 : m0.configs ≠ []) (h : Net.Reach m0 dbg N) {j : NodeId} {l : Engine.Leader}
    (hl : (N.nodes j).eng.leader = some l) (hmax : ∀ i, (N.nodes i).disk.vote ≤ l.vote) {x : NodeId × Ent} (hx : x ∈ N.hist) :
    Purged (N.nodes j) x.2.id.index ∨ Holds (N.nodes j) x.2 := by
  have : Fact (m0.configs ≠ []) := ⟨hm0⟩
  obtain ⟨g, hg⟩ := reach_ci hm0 h
  obtain ⟨_, _, _, _, _, _, hn⟩ := hg.node j
  obtain ⟨⟨S, hS⟩, hll⟩ := hn.leads hg.gi hl
  obtain ⟨L, pl, h1, h2⟩ := hg.hist x hx
  have h3 : CPre g l.vote.leaderId pl := by
    rcases h1 with h1 | ⟨r, hr, _, h4⟩
    · exact Or.inl h1
    · refine Or.inr ⟨r, hr, ?_, h4⟩
      obtain ⟨a, ha, haL⟩ := commit_ack hm0 hg.gi hr
      obtain ⟨_, _, _, _, _, _, hna⟩ := hg.node a.q
      have h5 := (hna.vsP.acks a ha rfl).1
      rw [← hna.vote_PS, ← hna.vote_disk] at h5
      have := lid_of_le (le_trans h5 (hmax a.q))
      rw [← haL]; exact this
  have h4 := h3.ll hm0 hg.gi hS
  rw [hll] at h4
  exact hn.holds hg.gi (get_of_pre_some h4 h2)

/-- In the end node 2 leads with the greatest vote, and entries were applied. -/
example : ∃ N, Net.Reach Engine.Demo.m3 true N ∧ (N.nodes 2).eng.leader.map (·.vote) = some ⟨⟨2, 2⟩, true⟩ ∧
    (∀ i, (N.nodes i).disk.vote ≤ ⟨⟨2, 2⟩, true⟩) ∧ ∃ x ∈ N.hist, x.1 = 1 ∧ x.2.id.index = 1 := by
  obtain ⟨N, h1, h2, h3⟩ := Net.shows_other (m0 := Engine.Demo.m3) (dbg := true) (N := Net.init start) (evs := first ++ second)
    (p := fun N => decide ((N.nodes 2).eng.leader.map (·.vote) = some ⟨⟨2, 2⟩, true⟩) &&
      [1, 2, 3].all (fun i => decide ((N.nodes i).disk.vote ≤ ⟨⟨2, 2⟩, true⟩)) && decide (∃ x ∈ N.hist, x.1 = 1 ∧ x.2.id.index = 1)) (by decide +kernel)
  simp only [Bool.and_eq_true, decide_eq_true_eq, List.all_eq_true] at h2
  refine ⟨N, ⟨start, h1⟩, h2.1.1, fun i => ?_, h2.2⟩
  by_cases hi : i ∈ [1, 2, 3]
  · exact h2.1.2 i hi
  · have hall : ∀ ev ∈ first ++ second, ev.at ∈ [1, 2, 3] := by decide +kernel
    rw [h3 i (fun ev he hq => hi (hq ▸ hall ev he))]
    show (⟨⟨0, 0⟩, false⟩ : Vote) ≤ _
    decide

/-! ## C01: election safety -/

/-- Two leaders with the same leader id are the same node. -/
theorem C01_net_one_node_partial (hm0 : m0.configs ≠ []) (h : Net.Reach m0 dbg N) (hs : Net.Steps m0 dbg N N') {i j : NodeId}
    {l l' : Engine.Leader} (hl : (N.nodes i).eng.leader = some l) (hl' : (N'.nodes j).eng.leader = some l')
    (he : l.vote.leaderId = l'.vote.leaderId) : i = j := by
  have : Fact (m0.configs ≠ []) := ⟨hm0⟩
  obtain ⟨g, hg⟩ := reach_ci hm0 h
  obtain ⟨g', hg', _⟩ := hg.steps hm0 hs
  obtain ⟨_, _, _, _, _, _, hn⟩ := hg.node i
  obtain ⟨_, _, _, _, _, _, hn'⟩ := hg'.node j
  have h1 := hn.r.flow.inv.pj.lead l hl
  have h2 := hn'.r.flow.inv.pj.lead l' hl'
  have h3 := h1.node
  have h4 := h2.node
  rw [← h1.vote, he, hn.en.id] at h3
  rw [← h2.vote, hn'.en.id] at h4
  rw [← h3, h4]

/-- **Election safety.** A leader was elected by a quorum of the membership that is the last one in its log before
its own entries: every node of this quorum has durably voted for it, or has by now a greater vote. (The leader has
executed its commands; the membership entry is still in its log.) -/
theorem C01_net_elected_partial (hm0 : m0.configs ≠ []) (h : Net.Reach m0 dbg N) {j : NodeId} {l : Engine.Leader}
    (hl : (N.nodes j).eng.leader = some l) (hd : (N.nodes j).done = (N.nodes j).eng.out.length) {x : Ent} {m : Membership}
    (hx : x ∈ (N.nodes j).rd.entries) (hm : x.payload = .membership m) (hxl : x.id.leaderId ≠ l.vote.leaderId)
    (hlast : ∀ y ∈ (N.nodes j).rd.entries, y.id.leaderId ≠ l.vote.leaderId → ∀ m', y.payload = .membership m' → y.id.index ≤ x.id.index) :
    ∃ Q : Finset NodeId, Spec.JointQuorum (m.configs.map List.toFinset) Q ∧
      ∀ q ∈ Q, (⟨l.vote.leaderId, false⟩ : Vote) ≤ (N.nodes q).disk.vote := by
  have : Fact (m0.configs ≠ []) := ⟨hm0⟩
  obtain ⟨g, hg⟩ := reach_ci hm0 h
  obtain ⟨_, _, _, _, _, _, hn⟩ := hg.node j
  obtain ⟨⟨S, hS⟩, hll⟩ := hn.leads hg.gi hl
  obtain ⟨lc, h1, h2, h3, h4, h5, h6, h7, _⟩ := hg.gi.elCl _ _ hS
  obtain ⟨st, gd⟩ := hn.stores hg.gi (Or.inl rfl)
  have hlog := hn.rd_all hd
  rw [← hll] at hlog
  obtain ⟨hpx, hgx⟩ := st.mem_get hx
  rw [hlog] at hgx
  have hin : x.id.index < lc.length := by
    by_contra hge
    exact hxl (h7 _ _ (by omega) hgx)
  have hcl := get_of_pre h2 hin
  rw [hgx] at hcl
  have hlc : lastCfg lc = some (x.id.index, m) := by
    refine lastCfg_some.2 ⟨⟨toEntry x, hcl.symm, by simp [toEntry, Entry.cfg, hm]⟩, ?_⟩
    intro k e hk he
    by_contra hne
    obtain ⟨m', hm'⟩ := Option.ne_none_iff_exists'.1 hne
    have hek := get_of_pre_some h2 he
    rw [← hlog] at hek
    obtain ⟨y, hy, hyi, hye⟩ := st.get_mem hek (by omega)
    have hlid := hg.gi.clLt _ _ h1 e (List.mem_of_getElem? he)
    have := hlast y hy (by
      have : y.id.leaderId = e.lid := by rw [← hye]; rfl
      rw [this]; exact ne_of_lt hlid) m' (by
      rw [← hye] at hm'
      simp only [toEntry, Entry.cfg] at hm'
      split at hm'
      · next z hz => cases hm'; exact hz
      · cases hm')
    omega
  have hcf : cfgs lc = m.configs := by unfold cfgs; rw [effMembership_of hlc]
  rw [hcf] at h4
  refine ⟨S.toFinset, ?_, ?_⟩
  · rw [isQuorum_iff] at h4
    intro c hc
    obtain ⟨c', hc', rfl⟩ := List.mem_map.1 hc
    have := h4 c' hc'
    rw [countIn_eq_card h5] at this
    exact lt_of_le_of_lt (List.toFinset_card_le c') this
  · intro q hq
    obtain ⟨gr, hgr, rfl, hgL⟩ := h6 q (List.mem_toFinset.1 hq)
    obtain ⟨_, _, _, _, _, _, hnq⟩ := hg.node gr.q
    have := hnq.vsP.grants gr hgr rfl
    rw [← hnq.vote_PS, ← hnq.vote_disk, hgL] at this
    exact this

/-- Node 2 leads; its log has the membership of the start and no other. -/
example : ∃ N, Net.Reach Engine.Demo.m3 true N ∧ (N.nodes 2).eng.leader.map (·.vote) = some ⟨⟨2, 2⟩, true⟩ ∧
    (N.nodes 2).done = (N.nodes 2).eng.out.length ∧
    (N.nodes 2).rd.entries.map (·.payload) = [.membership Engine.Demo.m3, .blank, .normal 7, .blank] := by
  obtain ⟨N, N', h1, h2, h3⟩ := net_demo (fun N N' => decide ((N'.nodes 2).eng.leader.map (·.vote) = some ⟨⟨2, 2⟩, true⟩ ∧
    (N'.nodes 2).done = (N'.nodes 2).eng.out.length ∧
    (N'.nodes 2).rd.entries.map (·.payload) = [.membership Engine.Demo.m3, .blank, .normal 7, .blank])) (by decide +kernel)
  obtain ⟨s, h1⟩ := h1
  exact ⟨N', ⟨s, h1.trans h2⟩, by simpa using h3⟩

/-! ## C28: entries sent in a leader's name -/

/-- **Entries sent in a leader's name are that leader's.** What an append-entries request carries is in the log of
the leader in whose name it was sent, as long as that one leads. -/
theorem C28_net_partial (hm0 : m0.configs ≠ []) (h : Net.Reach m0 dbg N) {v : Vote} {prev lc : Option LogId} {es : List Ent}
    (hp : Pkt.app v prev es lc ∈ N.pkts) {j : NodeId} {l : Engine.Leader} (hl : (N.nodes j).eng.leader = some l) (hv : l.vote = v)
    {x : Ent} (hx : x ∈ es) : Purged (N.nodes j) x.id.index ∨ Holds (N.nodes j) x := by
  have : Fact (m0.configs ≠ []) := ⟨hm0⟩
  obtain ⟨g, hg⟩ := reach_ci hm0 h
  obtain ⟨_, _, _, _, _, _, hn⟩ := hg.node j
  obtain ⟨_, hll⟩ := hn.leads hg.gi hl
  obtain ⟨i, hi⟩ := List.mem_iff_getElem?.1 hx
  have hk := (hg.pkts _ hp).1
  have h1 := hk.get hi
  rw [← hk.idx i x hi, ← hv, hll] at h1
  exact hn.holds hg.gi h1

/-- Two append-entries requests sent in the name of one leader agree wherever they overlap, at any two times. -/
theorem C28_net_one_sequence_partial (hm0 : m0.configs ≠ []) (h : Net.Reach m0 dbg N) {v w : Vote} {prev lc prev' lc' : Option LogId} {es es' : List Ent}
    (hp : Pkt.app v prev es lc ∈ N.pkts) (hp' : Pkt.app w prev' es' lc' ∈ N.pkts) (hv : v.leaderId = w.leaderId) {x y : Ent} (hx : x ∈ es)
    (hy : y ∈ es') (hxy : x.id.index = y.id.index) : x = y := by
  have : Fact (m0.configs ≠ []) := ⟨hm0⟩
  obtain ⟨g, hg⟩ := reach_ci hm0 h
  obtain ⟨i, hi⟩ := List.mem_iff_getElem?.1 hx
  obtain ⟨k, hk⟩ := List.mem_iff_getElem?.1 hy
  have a1 := (hg.pkts _ hp).1
  have a2 := (hg.pkts _ hp').1
  have h1 := a1.get hi
  have h2 := a2.get hk
  rw [← a1.idx i x hi] at h1
  rw [← a2.idx k y hk, ← hv, ← hxy, h1] at h2
  exact toEntry_inj (Option.some.inj h2) hxy

/-- Leader 1 sent a request with two entries and still leads. -/
example : ∃ N, Net.Reach Engine.Demo.m3 true N ∧ (N.nodes 1).eng.leader.map (·.vote) = some ⟨⟨1, 1⟩, true⟩ ∧
    Pkt.app ⟨⟨1, 1⟩, true⟩ none [⟨⟨⟨0, 0⟩, 0⟩, .membership Engine.Demo.m3⟩, ⟨⟨⟨1, 1⟩, 1⟩, .blank⟩] none ∈ N.pkts := by
  obtain ⟨N, N', h1, h2, h3⟩ := net_demo (fun N N' => decide ((N.nodes 1).eng.leader.map (·.vote) = some ⟨⟨1, 1⟩, true⟩ ∧
    Pkt.app ⟨⟨1, 1⟩, true⟩ none [⟨⟨⟨0, 0⟩, 0⟩, .membership Engine.Demo.m3⟩, ⟨⟨⟨1, 1⟩, 1⟩, .blank⟩] none ∈ N.pkts)) (by decide +kernel)
  exact ⟨N, h1, by simpa using h3⟩

/-! ## The messages a node gets are those its invariants allow -/

/-- **The assumptions on messages are met.** The theorems on a single node (`Verif/Props/RuntimeProps.lean`,
`DurableProps`, `RestartProps`, …) assume of each message what a peer can send (`InputOk`). In a cluster these
assumptions hold: the life of each node, with its crashes, is one of those the theorems speak of. -/
theorem net_node_run_partial (hm0 : m0.configs ≠ []) (h : Net.Reach m0 dbg N) (q : NodeId) :
    ∃ cfg old, cfg.id = q ∧ (N.nodes q).eng.cfg = cfg ∧ Runtime.Life dbg cfg old (N.nodes q) := by
  obtain ⟨s, hs⟩ := h
  refine ⟨s.cfg q, ?_⟩
  induction hs with
  | refl => exact ⟨[], s.ids q, rfl, .fresh (s.now q) (s.persist q)⟩
  | @step N1 N2 h1 h2 ih =>
    have : Fact (m0.configs ≠ []) := ⟨hm0⟩
    obtain ⟨g, hg⟩ := reach_ci hm0 ⟨s, h1⟩
    obtain ⟨old, hid, hcfg, ih⟩ := ih
    cases h2 with
    | node k ev n' ha hr hex =>
      by_cases hk : q = k
      · subst hk
        simp only [Net.put, if_true]
        obtain ⟨_, _, _, _, _, _, hn⟩ := hg.node q
        have hev : Runtime.EvOk (N1.nodes q) ev ∨ n' = N1.nodes q := by
          cases ev with
          | msg now i =>
            simp only [Runtime.Node.step] at hr
            split at hr
            · next hc =>
              simp only [Runtime.out_bind, Runtime.lift_ok, Runtime.out_pure] at hr
              obtain ⟨e, he, hr⟩ := hr
              subst hr
              simp only [Bool.and_eq_true] at hc
              have hin := hn.netIn hg.gi hg.pkts (i := i) ha hex hc.2
              exact Or.inl (hin.ok hm0 hg.gi hn.r.flow.inv hn.en he)
            · rw [Runtime.out_pure] at hr; exact Or.inr hr.symm
          | _ => exact Or.inl trivial
        rcases hev with hev | hev
        · have hl := Runtime.Life.step ev ih hev hr
          exact ⟨old, hid, (cfg_step hr).trans hcfg, hl⟩
        · rw [hev]; exact ⟨old, hid, hcfg, ih⟩
      · simp only [Net.put, hk, if_false]; exact ⟨old, hid, hcfg, ih⟩
    | send k l prev lc c _ _ _ _ _ => exact ⟨old, hid, hcfg, ih⟩
    | sendSnap k l _ _ _ => exact ⟨old, hid, hcfg, ih⟩
    | check k l t prev _ _ _ => exact ⟨old, hid, hcfg, ih⟩
    | crash k c now n' hf hll hr =>
      by_cases hk : q = k
      · subst hk
        simp only [Net.put, if_true]
        rw [hcfg] at hr
        have hl := Runtime.Life.crash c now ih hf hr
        exact ⟨_, hid, cfg_restart hr, hl⟩
      · simp only [Net.put, hk, if_false]; exact ⟨old, hid, hcfg, ih⟩

end Openraft.Props
