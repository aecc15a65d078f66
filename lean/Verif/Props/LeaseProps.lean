import Verif.Runtime.Timed
import Verif.Props.DurableProps
import Verif.Props.QuorumProps

/-!
# C23: no vote is granted while a lease is in force

`Hist dbg` is a running node with its clock. A node that has a vote that is not committed has given it to the candidate of
that vote, be it another node or itself; so "the vote is committed" says that no vote is given away.
-/

set_option autoImplicit false

namespace Openraft.Props
open Openraft Openraft.Engine Openraft.Runtime Openraft.Engine.Demo Openraft.Runtime.Demo

variable {dbg : Bool}

/-! ## histories from lists of events -/

/-- the event of a history given as a list; after the list nothing happens -/
def evAt (l : List (Nat × Ev)) (k : Nat) : Ev := ((l[k]?).map (·.2)).getD (.build 0)
/-- the time of an event -/
def timeAt (l : List (Nat × Ev)) (last k : Nat) : Nat := ((l[k]?).map (·.1)).getD last
/-- the states -/
def nodeAt (dbg : Bool) (n : Node) (l : List (Nat × Ev)) : Nat → Node
  | 0 => n
  | k + 1 => Runtime.Demo.after dbg (nodeAt dbg n l k) (evAt l k)

/-- the list is a history -/
def histB (dbg : Bool) (n : Node) (l : List (Nat × Ev)) (last : Nat) : Bool :=
  (List.range l.length).all fun k => (stops ((nodeAt dbg n l k).step dbg (evAt l k))).isNone &&
    decide (timeAt l last k ≤ timeAt l last (k + 1)) && ((evAt l k).time?.getD (timeAt l last k) == timeAt l last k)

/-- the history of a list of events -/
def histOf (dbg : Bool) (n : Node) (l : List (Nat × Ev)) (last : Nat) (h : histB dbg n l last = true) : Hist dbg where
  node := nodeAt dbg n l
  ev := evAt l
  time := timeAt l last
  step k := by
    apply Runtime.Demo.after_ok
    rcases Nat.lt_or_ge k l.length with hk | hk
    · have := List.all_eq_true.1 h k (List.mem_range.2 hk)
      simp only [Bool.and_eq_true, Option.isNone_iff_eq_none] at this
      exact this.1.1
    · unfold evAt
      rw [List.getElem?_eq_none hk]
      rfl
  mono k := by
    rcases Nat.lt_or_ge k l.length with hk | hk
    · have := List.all_eq_true.1 h k (List.mem_range.2 hk)
      simp only [Bool.and_eq_true, decide_eq_true_eq] at this
      exact this.1.2
    · unfold timeAt
      rw [List.getElem?_eq_none hk, List.getElem?_eq_none (by omega)]
  clock k t ht := by
    rcases Nat.lt_or_ge k l.length with hk | hk
    · have := List.all_eq_true.1 h k (List.mem_range.2 hk)
      simp only [Bool.and_eq_true, beq_iff_eq] at this
      rw [ht] at this
      exact this.2
    · unfold evAt at ht
      rw [List.getElem?_eq_none hk] at ht
      cases ht

/-! ## one node -/

/-- **C23** for one node, as long as it does not restart: from the time it accepts the leader of `v` until its lease ends, its
vote is that of a leader, not lower than `v`, and it is not a candidate; every vote request it handles in this time is
refused and changes nothing. Left out are the events that end a promise on purpose or by a special case: an election
asked for by the user, a transfer of leadership by the current leader, and a tick when there is only one voter. -/
theorem C23_promise_partial (h : Hist dbg) {k j : Nat} {v : Vote} (hk : h.Accepts k v) (hkj : k < j)
    (hp : ∀ i, k < i → i < j → PlainEv (h.node i) (h.ev i))
    (ht : ∀ i, k < i → i < j → h.time i ≤ h.time k + (h.node k).eng.cfg.leaderLease) :
    (h.node j).eng.st.vote.data.committed = true ∧ v ≤ (h.node j).eng.st.vote.data ∧ (h.node j).eng.candidate = none ∧
    ∀ tx w last, h.ev j = .msg (h.time j) (.voteReq tx w last) → h.time j ≤ h.time k + (h.node k).eng.cfg.leaderLease →
      (h.node j).idle = true → ∃ c l, (h.node (j + 1)).eng =
        { (h.node j).eng with out := (h.node j).eng.out ++ [.respond c tx (.vote (h.node j).eng.st.vote.data l false)] } := by
  obtain ⟨u, hc⟩ := Hist.under hk hkj hp ht
  refine ⟨u.com, u.le, u.candidate, ?_⟩
  intro tx w last hev htj hid
  have hs := h.step j
  rw [hev] at hs
  simp only [Node.step, hid, external, Bool.and_self, if_true, out_bind, lift_ok, out_pure] at hs
  obtain ⟨e, he, hs⟩ := hs
  rw [Eng.under_voteReq u (by rw [hc]; exact htj)] at he
  cases he
  rw [← hs]
  exact ⟨_, _, rfl⟩

/-- as `cfg`, with a lease of 300 -/
def cfg23 : Cfg := { Demo.cfg with leaderLease := 300 }

/-- node 1 hears from leader 2 at time 1; its lease is 300; node 3 asks for a vote at times 200, 301 and 302 -/
def l23 : List (Nat × Ev) :=
  [(1, .msg 1 i1), (2, .run), (2, .run), (2, .flush), (3, .note 3), (3, .note 3), (4, .note 4), (5, .run),
   (200, .msg 200 (.voteReq 8 ⟨⟨2, 3⟩, false⟩ (some (lid 1 2 1)))), (201, .run),
   (301, .msg 301 (.voteReq 9 ⟨⟨2, 3⟩, false⟩ (some (lid 1 2 1)))), (301, .run),
   (302, .msg 302 (.voteReq 10 ⟨⟨2, 3⟩, false⟩ (some (lid 1 2 1)))), (302, .run), (302, .run), (302, .note 302), (302, .run)]

theorem l23_ok : histB true (Node.fresh cfg23 0) l23 400 = true := by decide +kernel
/-- its history -/
def h23 : Hist true := histOf true (Node.fresh cfg23 0) l23 400 l23_ok

theorem h23_accepts : h23.Accepts 0 v2 :=
  ⟨Or.inl ⟨_, _, _, _, rfl⟩, by decide +kernel, by decide +kernel, rfl, by decide +kernel, Or.inl (by decide +kernel)⟩

theorem h23_plain : ∀ i, 0 < i → i < 12 → PlainEv (h23.node i) (h23.ev i) := by
  intro i h0 h1
  have : i = 1 ∨ i = 2 ∨ i = 3 ∨ i = 4 ∨ i = 5 ∨ i = 6 ∨ i = 7 ∨ i = 8 ∨ i = 9 ∨ i = 10 ∨ i = 11 := by omega
  rcases this with rfl | rfl | rfl | rfl | rfl | rfl | rfl | rfl | rfl | rfl | rfl <;> exact trivial

/-- The hypotheses hold up to time 301, and the two requests are refused; one tick later the vote is granted: the bound is exact. -/
example : (h23.node 12).eng.st.vote.data.committed = true ∧ v2 ≤ (h23.node 12).eng.st.vote.data :=
  have := C23_promise_partial h23 h23_accepts (j := 12) (by omega) h23_plain (by
    intro i h0 h1
    have : h23.time i ≤ h23.time 11 := h23.time_le (by omega)
    exact this.trans (by decide +kernel))
  ⟨this.1, this.2.1⟩
example : (h23.node 17).sent.map (·.2) =
    [(7, .append .success v2 (some (lid 1 2 1))), (8, .vote v2 (some (lid 1 2 1)) false), (9, .vote v2 (some (lid 1 2 1)) false),
     (10, .vote ⟨⟨2, 3⟩, false⟩ (some (lid 1 2 1)) true)] := by decide +kernel

/-- Renewing a promise never shortens it: when a node that follows a leader accepts a leader, the time until which it will not
vote does not go back. -/
theorem C23_extend {now : Nat} {e e' : Eng} {w : Vote} {u : Nat} (hw : w.committed = true)
    (hl : e.st.vote.lease ≤ e.cfg.leaderLease) (_hu : e.st.vote.lastUpdate = some u) (hn : u ≤ now)
    (h : e.updateVote dbg now w = .ok (true, e')) (ho : w.leaderId.node ≠ e.cfg.id) :
    ∃ u', e'.st.vote.lastUpdate = some u' ∧ u + e.st.vote.lease ≤ u' + e'.st.vote.lease := by
  by_cases hen : e.st.vote.data < w ∨ e.st.vote.enabled = true
  · obtain ⟨k, hc⟩ := Eng.under_updateVote (v := w) (t0 := now) hw ho (le_refl _) (le_refl _) hen h
    obtain ⟨u', h1, h2⟩ := k.since
    exact ⟨u', h1, by rw [k.lease, hc]; omega⟩
  · rw [not_or, Bool.not_eq_true] at hen
    obtain ⟨h1, h2⟩ := hen
    unfold Eng.updateVote at h
    split at h
    · simp only [bind_ok, pure_ok] at h
      obtain ⟨e1, hs, e2, hi, h⟩ := h
      cases h
      unfold Eng.storeVote at hs
      rw [if_neg h1] at hs
      simp only [bind_ok, pure_ok, Leased.touch] at hs
      obtain ⟨_, ⟨_, _, rfl⟩, rfl⟩ := hs
      have hst : e'.st.vote = ⟨e.st.vote.data, some now, e.st.vote.lease, e.st.vote.enabled⟩ := by
        have hnl : e.st.vote.data = w := le_antisymm (by assumption) (not_lt.1 h1)
        unfold Eng.updateInternal at hi
        have : RState.isLeading { e.st with vote := ⟨e.st.vote.data, some now, e.st.vote.lease, e.st.vote.enabled⟩ } e.cfg.id = false := by
          unfold RState.isLeading
          rw [Bool.and_eq_false_iff]
          right
          rw [hnl]; simpa using ho
        simp only [h2, Bool.false_eq_true, if_false, RState.isLeader] at hi
        rw [h2] at this
        rw [this] at hi
        simp only [Bool.false_and, Bool.false_eq_true, if_false, Eng.becomeFollowing, bind_ok, pure_ok] at hi
        obtain ⟨_, _, rfl⟩ := hi
        simp only [Eng.updateServerState, h2]
      rw [hst]
      exact ⟨now, rfl, by simp only; omega⟩
    · rw [pure_ok] at h; cases h

example : ∃ e', f1.updateVote true 50 v2 = .ok (true, e') ∧ v2.committed = true ∧ f1.st.vote.lastUpdate = some 1 ∧
    f1.st.vote.lease ≤ f1.cfg.leaderLease ∧ v2.leaderId.node ≠ f1.cfg.id ∧ e'.st.vote.lastUpdate = some 50 ∧ e'.st.vote.lease = 5 :=
  ⟨_, rfl, by decide +kernel, by decide +kernel, by decide +kernel, by decide +kernel, by decide +kernel, by decide +kernel⟩

/-! ## a quorum -/

/-- one node in both quorums: it has given its vote to `w` only after its lease -/
theorem late_grant (h : Hist dbg) {k j L t0 : Nat} {v w : Vote} (hk : h.Accepts k v) (hL : (h.node k).eng.cfg.leaderLease = L)
    (h0 : t0 ≤ h.time k) (hp : ∀ i, k < i → PlainEv (h.node i) (h.ev i)) (hvw : v < w) (hw : w.committed = false)
    (hj : (h.node j).eng.st.vote.data = w) : ∃ i, i < j ∧ t0 + L < h.time i := by
  by_contra hno
  rw [not_exists] at hno
  rcases Nat.lt_or_ge k j with hkj | hkj
  · obtain ⟨u, _⟩ := Hist.under hk hkj (fun i a _ => hp i a) (fun i a b => by
      have := not_and.1 (hno i) b
      rw [hL]; omega)
    have := u.com
    rw [hj, hw] at this
    cases this
  · have h1 := h.vote_le hkj
    rw [hj] at h1
    exact absurd (lt_of_lt_of_le hvw (h1.trans hk.le)) (lt_irrefl _)

/-- **C23** for a quorum. The nodes of `Q` accept the leader of `v` at `t0` or later, with a lease of `L`. Then a candidate with a
greater vote `w` has the votes of a quorum `Q'` only after `t0 + L`: some node of `Q'` gives its vote later. All clocks are
one clock; no node restarts. `Q` are nodes that follow the leader; the leader itself makes no promise, see
`C23_leader_grants`. -/
theorem C23_quorum_partial (h : NodeId → Hist dbg) {configs : List (List NodeId)} (hne : configs ≠ []) {Q Q' : List NodeId}
    (hQ : Q.Nodup) (hQ' : Q'.Nodup) (qa : isQuorum configs Q = true) (qb : isQuorum configs Q' = true) {v w : Vote} {t0 L : Nat}
    (hprom : ∀ x ∈ Q, ∃ k, (h x).Accepts k v ∧ ((h x).node k).eng.cfg.leaderLease = L ∧ t0 ≤ (h x).time k ∧
      ∀ i, k < i → PlainEv ((h x).node i) ((h x).ev i))
    (hvw : v < w) (hw : w.committed = false) :
    ∃ x ∈ Q', ∀ j, ((h x).node j).eng.st.vote.data = w → ∃ i, i < j ∧ t0 + L < (h x).time i := by
  obtain ⟨x, h1, h2, _⟩ := C08_quorums_intersect hne hQ hQ' qa qb
  obtain ⟨k, hk, hL, h0, hp⟩ := hprom x h1
  exact ⟨x, h2, fun j hj => late_grant _ hk hL h0 hp hvw hw hj⟩

/-- node 3 hears from leader 2 at time 1 as well, and nothing else -/
def h23b : Hist true := histOf true (Node.fresh { cfg23 with id := 3 } 0) [(1, .msg 1 i1)] 400 (by decide +kernel)

theorem h23b_accepts : h23b.Accepts 0 v2 :=
  ⟨Or.inl ⟨_, _, _, _, rfl⟩, by decide +kernel, by decide +kernel, rfl, by decide +kernel, Or.inl (by decide +kernel)⟩

theorem h23_plain' : ∀ i, 0 < i → PlainEv (h23.node i) (h23.ev i) := by
  intro i h0
  rcases Nat.lt_or_ge i 12 with h1 | h1
  · exact h23_plain i h0 h1
  · rcases Nat.lt_or_ge i 17 with h2 | h2
    · have : i = 12 ∨ i = 13 ∨ i = 14 ∨ i = 15 ∨ i = 16 := by omega
      rcases this with rfl | rfl | rfl | rfl | rfl <;> exact trivial
    · have : h23.ev i = .build 0 := by
        show evAt l23 i = _
        unfold evAt
        rw [List.getElem?_eq_none h2]; rfl
      rw [this]; exact trivial

theorem h23b_plain : ∀ i, 0 < i → PlainEv (h23b.node i) (h23b.ev i) := by
  intro i h0
  have : h23b.ev i = .build 0 := by
    show evAt _ i = _
    unfold evAt
    rw [List.getElem?_eq_none (by simp only [List.length_singleton]; omega)]; rfl
  rw [this]; exact trivial

/-- Nodes 1 and 3 promised leader 2; node 3 as a candidate of term 2 needs node 1, which votes for it (`h23.node 17`), but after 301. -/
example : ∃ x ∈ [1, 3], ∀ j, ((if x = 1 then h23 else h23b).node j).eng.st.vote.data = ⟨⟨2, 3⟩, false⟩ →
    ∃ i, i < j ∧ 1 + 300 < (if x = 1 then h23 else h23b).time i :=
  C23_quorum_partial (fun x => if x = 1 then h23 else h23b) (configs := m3.configs) (Q := [1, 3]) (v := v2) (by decide) (by decide) (by decide)
    (by decide +kernel) (by decide +kernel) (by
      intro x hx
      rcases List.mem_pair.1 hx with rfl | rfl
      · exact ⟨0, h23_accepts, by decide +kernel, by decide +kernel, h23_plain'⟩
      · exact ⟨0, h23b_accepts, by decide +kernel, by decide +kernel, h23b_plain⟩) (by decide) rfl
example : (h23.node 17).eng.st.vote.data = ⟨⟨2, 3⟩, false⟩ := by decide +kernel

/-- The same across one change of the membership. -/
theorem C23_quorum_change_partial (h : NodeId → Hist dbg) {m m' : Membership} {ch : ChangeMembers} {retain : Bool} (hne : m.configs ≠ [])
    (hm : m.change ch retain = .ok m') {Q Q' : List NodeId} (hQ : Q.Nodup) (hQ' : Q'.Nodup)
    (qq : (isQuorum m.configs Q = true ∧ isQuorum m'.configs Q' = true) ∨ (isQuorum m'.configs Q = true ∧ isQuorum m.configs Q' = true))
    {v w : Vote} {t0 L : Nat}
    (hprom : ∀ x ∈ Q, ∃ k, (h x).Accepts k v ∧ ((h x).node k).eng.cfg.leaderLease = L ∧ t0 ≤ (h x).time k ∧
      ∀ i, k < i → PlainEv ((h x).node i) ((h x).ev i))
    (hvw : v < w) (hw : w.committed = false) :
    ∃ x ∈ Q', ∀ j, ((h x).node j).eng.st.vote.data = w → ∃ i, i < j ∧ t0 + L < (h x).time i := by
  have hx : ∃ x, x ∈ Q ∧ x ∈ Q' := by
    rcases qq with ⟨a, b⟩ | ⟨a, b⟩
    · obtain ⟨x, h1, h2, _⟩ := C09_change_intersects hne hm hQ hQ' a b
      exact ⟨x, h1, h2⟩
    · obtain ⟨x, h1, h2, _⟩ := C09_change_intersects hne hm hQ' hQ b a
      exact ⟨x, h2, h1⟩
  obtain ⟨x, h1, h2⟩ := hx
  obtain ⟨k, hk, hL, h0, hp⟩ := hprom x h1
  exact ⟨x, h2, fun j hj => late_grant _ hk hL h0 hp hvw hw hj⟩

/-! ## what the quorum theorem needs -/

/-- a leader of three voters, elected at time 3; at time 10 node 2 acknowledges a heartbeat sent at time 9 -/
def w23 : List (Nat × List LogId × Input) := [
  (1, [], .init 7 m3), (2, [], .voteResp 1 ⟨⟨1, 1⟩, false⟩ none true ⟨⟨1, 1⟩, false⟩),
  (3, [], .voteResp 2 ⟨⟨1, 1⟩, false⟩ none true ⟨⟨1, 1⟩, false⟩),
  (4, [], .localIO ⟨⟨⟨1, 1⟩, true⟩, some (lid 1 1 1)⟩),
  (10, [], .hbProgress ⟨⟨⟨1, 1⟩, true⟩, some (lid 0 0 0)⟩ 2 9)]
/-- its state -/
def s23 : Eng := Engine.Demo.runTo (Eng.fresh Demo.cfg 0) w23
theorem s23_run : Eng.Run true (Eng.fresh Demo.cfg 0) s23 := Engine.Demo.run_of_allOk .refl (by decide +kernel)

/-- **C23 does not hold for the leader itself.** It does not renew its own lease: it has a lease of 5 from its election, and although a
quorum (itself and node 2, which promised not to vote until time 14) acknowledged it at time 9, it gives its vote to node 3 at
time 11 and steps down. With the vote of node 3 itself, node 3 is then elected while the promise of node 2 is in force. -/
theorem C23_leader_grants : ∃ (e e' : Eng) (w : Vote) (l : Leader), Eng.Run true (Eng.fresh Demo.cfg 0) e ∧ e.leader = some l ∧
    BMap.get l.clock.vector 2 = some (some 9) ∧ e.cfg.leaderLease = 5 ∧ InputOk e (.voteReq 8 w (some (lid 1 1 1))) ∧
    e.input true 11 (.voteReq 8 w (some (lid 1 1 1))) = .ok e' ∧ e'.st.vote.data = w ∧ w.committed = false ∧ e'.leader = none ∧
    isQuorum m3.configs [1, 3] = true :=
  ⟨s23, Engine.Demo.after 11 s23 (.voteReq 8 ⟨⟨2, 3⟩, false⟩ (some (lid 1 1 1))), ⟨⟨2, 3⟩, false⟩, s23.leader.get (by decide +kernel),
    s23_run, by simp, by decide +kernel, by decide +kernel, okB_ok (lead := []) (by decide +kernel),
    Engine.Demo.after_ok (by decide +kernel), by decide +kernel, by decide +kernel, by decide +kernel, by decide +kernel⟩

/-- node 1 follows leader 2, its lease of 300 runs from time 1 -/
def n23 : Node := h23.node 8
/-- it crashes and starts again at time 9 -/
def n23b : Node := reborn true 9 cfg23 n23 0
/-- node 3 asks for its vote at time 10 -/
def n23c : Node := Runtime.Demo.after true n23b (.msg 10 (.voteReq 8 ⟨⟨2, 3⟩, false⟩ (some (lid 1 2 1))))

/-- **A restart forgets the lease**: the vote is loaded with a lease of zero, so the node votes for node 3 at time 10 although it promised
leader 2 not to vote until time 301. -/
theorem C23_restart_forgets : (h23.Accepts 0 v2 ∧ h23.time 0 + (h23.node 0).eng.cfg.leaderLease = 301) ∧
    restart true 9 cfg23 (n23.crashDisk 0) n23.sm = .ok n23b ∧ n23b.eng.st.vote.data = v2 ∧
    n23b.step true (.msg 10 (.voteReq 8 ⟨⟨2, 3⟩, false⟩ (some (lid 1 2 1)))) = .ok n23c ∧ n23c.eng.st.vote.data = ⟨⟨2, 3⟩, false⟩ :=
  ⟨⟨h23_accepts, by decide +kernel⟩, reborn_ok (by decide +kernel), by decide +kernel, Runtime.Demo.after_ok (by decide +kernel),
    by decide +kernel⟩

/-- The events left out do end a promise: on a request of the user the node becomes a candidate at time 10. -/
theorem C23_elect_command : ∃ e', n23.eng.input true 10 .electCmd = .ok e' ∧ InputOk n23.eng .electCmd ∧
    e'.st.vote.data = ⟨⟨2, 1⟩, false⟩ ∧ e'.candidate.isSome :=
  ⟨_, Engine.Demo.after_ok (by decide +kernel), okB_ok (lead := []) (by decide +kernel), by decide +kernel, by decide +kernel⟩

/-- Leader 2 hands its leadership to node 3; node 1 votes for node 3 at once, and later heartbeats of leader 2 do not renew the lease. -/
def n23t : Eng := Engine.Demo.after 11 (Engine.Demo.after 10 n23.eng (.handleTransfer v2 3)) (.appendReq 9 v2 none [] none)
theorem C23_transfer : ∃ e', n23t.st.vote.data = v2 ∧ n23t.st.vote.lastUpdate = some 11 ∧
    n23t.input true 12 (.voteReq 8 ⟨⟨2, 3⟩, false⟩ (some (lid 1 2 1))) = .ok e' ∧ e'.st.vote.data = ⟨⟨2, 3⟩, false⟩ :=
  ⟨_, by decide +kernel, by decide +kernel, Engine.Demo.after_ok (by decide +kernel), by decide +kernel⟩

end Openraft.Props
