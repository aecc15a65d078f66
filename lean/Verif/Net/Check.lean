import Verif.Net.Reads
import Verif.Engine.Ask

/-!
# The leader confirms that it leads, on behalf of a read

`handle_check_is_leader_request` (`core/raft_core.rs:279-432`) for the cluster of real nodes (`Verif/Net/Model.lean`): the
position to read at is fixed at the call, every other voter is asked with an empty append request, and the call ends with
`Ok` when a quorum has answered without a greater vote.
-/

set_option autoImplicit false
set_option linter.unusedSectionVars false

namespace Openraft.Engine
namespace Eng
variable {dbg : Bool} {now : Nat} {e e' : Eng}

/-- the answer to an append request says whether the vote of the request was taken -/
theorem appendEntries_taken {v : Vote} {prev : Option LogId} {es : List Ent} {r : AppendResp} {e1 : Eng}
    (h : e.appendEntries dbg now v prev es = .ok (r, e1)) : (e1.st.vote.data = v ∧ ∀ w, r ≠ .higherVote w) ∨ (∃ w, r = .higherVote w ∧ v < w) := by
  unfold appendEntries at h
  rw [bind_ok] at h
  obtain ⟨⟨ok, e2⟩, h2, h⟩ := h
  dsimp only at h
  split at h
  · next hok =>
    subst hok
    left
    rw [bind_ok] at h
    obtain ⟨lv, _, h⟩ := h
    rw [bind_ok] at h
    obtain ⟨⟨ok2, e3⟩, h3, h⟩ := h
    have k3 := ((vf_fhEnsure _ _ _ h3).noSave (emits_fhEnsure _ _ _ h3)).trans (updateVote_vote h2)
    dsimp only at h
    split at h
    · rw [bind_ok] at h
      obtain ⟨e4, h4, h⟩ := h
      rw [pure_ok] at h; cases h
      exact ⟨((vf_fhAppendEntries _ _ _ _ _ h4).noSave (emits_fhAppendEntries _ _ _ _ _ h4)).trans k3, fun w hw => by cases hw⟩
    · rw [pure_ok] at h; cases h; exact ⟨k3, fun w hw => by cases hw⟩
  · next hok =>
    right
    rw [pure_ok] at h; cases h
    refine ⟨_, rfl, ?_⟩
    have h3 := updateVote_yes h2
    rw [show ok = false by simpa using hok] at h3
    have h4 : ¬ e.st.vote.data ≤ v := by simpa using h3.symm
    rcases updateVote_cases h2 with ⟨rfl, _⟩ | ⟨h5, _⟩
    · exact not_le.1 h4
    · exact absurd h5 h4

theorem gives_one {x y : Nat × Resp} (h1 : Gives [x] e e') (h2 : Gives [y] e e') : x = y := by
  obtain ⟨a, h1, h3⟩ := h1
  obtain ⟨b, h2, h4⟩ := h2
  rw [h1] at h2
  rw [List.append_cancel_left h2, h4] at h3
  exact (List.cons.inj h3).1.symm

/-- a node that answers an append request with this vote does not have a greater one, or says so -/
theorem append_answer {tx : Nat} {v : Vote} {prev : Option LogId} {es : List Ent} {lc : Option LogId} {r : AppendResp} {u : Option LogId}
    (hr : e.input dbg now (.appendReq tx v prev es lc) = .ok e') (hg : Gives [(tx, .append r v u)] e e') :
    (e'.st.vote.data = v ∧ ∀ w, r ≠ .higherVote w) ∨ (∃ w, r = .higherVote w ∧ v < w) := by
  obtain ⟨r1, e1, h1, h2, h3, _⟩ := gives_append hr
  have := gives_one hg h2
  simp only [Prod.mk.injEq, Resp.append.injEq] at this
  obtain ⟨_, rfl, _⟩ := this
  rw [h3]
  exact appendEntries_taken h1

end Eng
end Openraft.Engine

namespace Openraft.Net
open Openraft.Repl (Panic dassert Inflight)
open Openraft.Engine Openraft.Cluster
open Openraft.Runtime (out_bind out_pure lift_ok)

variable {m0 : Membership} [hne : Fact (m0.configs ≠ [])] {g g' : Ghost} {dbg : Bool} {N N' : Net}

/-- **The position to read at is not before anything applied anywhere when the leader is asked**, if it is the latest
leader. -/
theorem CI.read_index (hm0 : m0.configs ≠ []) (h : CI m0 N g) (hk : RC N g) {i : NodeId} {l : Engine.Leader} (hl : (N.nodes i).eng.leader = some l)
    (hlast : ∀ L S, g.el L = some S → L ≤ l.vote.leaderId) {e : Ent} (he : HistOk g e) :
    e.id.index < nextIndex (Eng.lhReadLogId (N.nodes i).eng l) := by
  obtain ⟨g0, _, _, _, _, _, hn⟩ := h.node i
  obtain ⟨x, hx, hxL⟩ := hk.noop i l hl
  have hxin := hk.noopIn i l x hl hx
  obtain ⟨⟨SL, hSL⟩, hll⟩ := hn.leads h.gi hl
  have hgood : Good g (g.ll l.vote.leaderId) := h.gi.goodL _
  have hcin : ∀ c, (N.nodes i).eng.st.committed = some c → idAt (g.ll l.vote.leaderId) c.index = some c := by
    intro c hc
    rw [hll]
    exact lm_anch hn.r.flow.inv.lm (hn.vsE h.gi) c (by rw [hn.r.flow.inv.lm.log.com]; exact hc)
  have hmax : x.index < nextIndex (Eng.lhReadLogId (N.nodes i).eng l) ∧
      nextIndex (N.nodes i).eng.st.committed ≤ nextIndex (Eng.lhReadLogId (N.nodes i).eng l) := by
    unfold Eng.lhReadLogId
    rw [omax_eq, hx]
    cases hc : (N.nodes i).eng.st.committed with
    | none =>
      rw [if_neg OptOrd.not_some_le_none']
      simp
    | some c =>
      have hci := hcin c hc
      split
      · next h1 =>
        have := idAt_le h.gi hgood hxin hci (OptOrd.some_le_some'.1 h1)
        simp only [nextIndex_some]; omega
      · next h1 =>
        have h2 : c ≤ x := OptOrd.some_le_some'.1 (le_of_not_ge h1)
        have := idAt_le h.gi hgood hci hxin h2
        simp only [nextIndex_some]; omega
  obtain ⟨L, pl, h1, h2⟩ := he
  rcases h1 with rfl | ⟨r, hr, _, hp2⟩
  · simp at h2
  have h2 := get_of_pre_some hp2 h2
  obtain ⟨⟨Sr, hSr⟩, _, hrt, hrl, _⟩ := h.gi.commit r hr
  have hlt := lt_of_get h2
  rw [List.length_take] at hlt
  rcases lt_or_eq_of_le (hlast r.L Sr hSr) with hlt2 | heq
  · obtain ⟨B, hB, hBp, _⟩ := h.gi.elCl _ SL hSL
    have h3 := h.gi.leaderComplete hm0 _ r hr SL B hSL hB hlt2
    have h4 := get_of_pre_some (h3.trans hBp) h2
    have h5 := h.gi.lidLe (get_of_pre_some (List.take_prefix _ _) h2)
    have h6 : idAt (g.ll l.vote.leaderId) e.id.index = some e.id := idAt_some.2 ⟨_, h4, rfl⟩
    have h7 : e.id ≤ x := LogId.le_def.2 (Or.inl (by rw [hxL]; exact lt_of_le_of_lt h5 hlt2))
    have := idAt_le h.gi hgood h6 hxin h7
    omega
  · have := hk.own i l hl r hr heq
    omega

/-! ## The call -/

/-- `Progress::is_voter`, `progress/mod.rs:433-436` -/
def isVoterIn (p : VecProgress (Option LogId)) (id : NodeId) : Option Bool := (p.index id).map fun i => decide (i < p.voterCount)

/-- how the call ends: `Ok`, `ForwardToLeader`, `QuorumNotEnough` -/
inductive CheckRes where
  | ok
  | forward
  | notEnough
deriving DecidableEq, Repr

/-- A call of `handle_check_is_leader_request`. `waiting`: the requests under way, with `progress.matching` of the target;
`answers`: the answers that arrived and are not handled. The last two are not in the code: what was in any state machine
at the call, and whether no leader had forgotten its committed position before. -/
structure Check where
  src : NodeId
  vote : Vote
  configs : List (List NodeId)
  read : Option LogId
  applied : Option LogId
  committed : Option LogId
  waiting : List (NodeId × Option LogId)
  answers : List (NodeId × AppendResp)
  granted : List NodeId
  done : Option CheckRes
  seen : List (NodeId × Ent)
  calm : Bool

/-- the call until the requests are sent, `core/raft_core.rs:282-334` -/
def Check.call (e : Eng) (l : Engine.Leader) (seen : List (NodeId × Ent)) (calm : Bool) : Check :=
  let configs := e.st.ms.effective.mem.configs
  let ok := isQuorum configs [e.cfg.id]
  { src := e.cfg.id
    vote := e.st.vote.data
    configs := configs
    read := e.lhReadLogId l
    applied := e.st.io.applied
    committed := e.st.committed
    waiting := if ok then [] else l.progress.vp.vector.filter fun p => isVoterIn l.progress.vp p.1 == some true && p.1 != e.cfg.id
    answers := []
    granted := [e.cfg.id]
    done := if ok then some .ok else none
    seen := seen
    calm := calm }

/-- an answer is handled, `core/raft_core.rs:383-414` -/
def Check.collect (dbg : Bool) (c : Check) (target : NodeId) (r : AppendResp) : Res Check :=
  match r with
  | .higherVote v => do
    dassert dbg (decide (c.vote < v))
    return { c with done := some .forward }
  | _ =>
    let c1 := { c with granted := c.granted.insert target }
    return if isQuorum c1.configs c1.granted then { c1 with done := some .ok } else c1

/-- no more answers, `core/raft_core.rs:417-424` -/
def Check.close (c : Check) : Check :=
  if c.done = none ∧ c.waiting = [] ∧ c.answers = [] then { c with done := some .notEnough } else c

/-- the requests of the call, `core/raft_core.rs:329-334` -/
def Check.reqs (c : Check) : List Pkt := c.waiting.map fun p => .app c.vote p.2 [] c.committed

/-- a cluster with the calls that were made; `forgot`: some leader forgot its committed position in a crash -/
structure RNet where
  net : Net
  checks : List Check
  forgot : Bool

/-- What can happen. A call is not cancelled when its node crashes, and an answer is on its way to the leader as soon as the
request is handled (in the code only when the `Respond` command is executed); both only add executions. -/
inductive RStep (m0 : Membership) (dbg : Bool) (R : RNet) : RNet → Prop
  | net {N' : Net} : Step m0 dbg R.net N' → Remembers R.net N' → RStep m0 dbg R { R with net := N' }
  | forget {N' : Net} : Step m0 dbg R.net N' → RStep m0 dbg R { R with net := N', forgot := true }
  /-- a leader is asked; see `Step.check` for the premise about the stored vote -/
  | ask (i : NodeId) (l : Engine.Leader) (c : Check) : (R.net.nodes i).idle = true → (R.net.nodes i).eng.leaderHandler dbg = .ok (some l) →
      c = Check.call (R.net.nodes i).eng l R.net.hist (!R.forgot) → (c.waiting ≠ [] → (R.net.nodes i).disk.vote = l.vote) →
      RStep m0 dbg R ⟨{ R.net with pkts := c.reqs ++ R.net.pkts }, R.checks ++ [c], R.forgot⟩
  /-- a node handles the request, and answers `r` -/
  | answer (k : Nat) (c : Check) (q : NodeId) (prev : Option LogId) (now tx : Nat) (n' : Runtime.Node) (r : AppendResp) (u : Option LogId) :
      R.checks[k]? = some c → (q, prev) ∈ c.waiting →
      Allowed m0 R.net.pkts q (R.net.nodes q) (.msg now (.appendReq tx c.vote prev [] c.committed)) →
      (R.net.nodes q).step dbg (.msg now (.appendReq tx c.vote prev [] c.committed)) = .ok n' → Exact (R.net.nodes q) n' →
      Gives [(tx, .append r c.vote u)] (R.net.nodes q).eng n'.eng →
      RStep m0 dbg R ⟨R.net.put q n' [], R.checks.set k { c with waiting := c.waiting.erase (q, prev), answers := (q, r) :: c.answers }, R.forgot⟩
  /-- a request or its answer is lost -/
  | lost (k : Nat) (c : Check) (p : NodeId × Option LogId) : R.checks[k]? = some c → p ∈ c.waiting →
      RStep m0 dbg R { R with checks := R.checks.set k { c with waiting := c.waiting.erase p }.close }
  /-- the leader gets an answer -/
  | collect (k : Nat) (c c' : Check) (q : NodeId) (r : AppendResp) : R.checks[k]? = some c → c.done = none → (q, r) ∈ c.answers →
      c.collect dbg q r = .ok c' →
      RStep m0 dbg R { R with checks := R.checks.set k { c' with answers := c.answers.erase (q, r) }.close }

/-- the clusters with calls -/
inductive RReach (m0 : Membership) (dbg : Bool) : RNet → Prop
  | init (s : Start) : RReach m0 dbg ⟨Net.init s, [], false⟩
  | step {R R' : RNet} : RReach m0 dbg R → RStep m0 dbg R R' → RReach m0 dbg R'

/-! ## What is known of a call -/

/-- the call was made in state `N0` by the leader `l` -/
structure CheckOk (m0 : Membership) (dbg : Bool) (N : Net) (c : Check) : Prop where
  ex : ∃ N0 l, Reach m0 dbg N0 ∧ (c.calm = true → ReachR m0 dbg N0) ∧ Steps m0 dbg N0 N ∧ (N0.nodes c.src).eng.leader = some l ∧
    c.vote = l.vote ∧ c.configs = (N0.nodes c.src).eng.st.ms.effective.mem.configs ∧ c.read = (N0.nodes c.src).eng.lhReadLogId l ∧
    c.seen = N0.hist ∧ (∀ q ∈ c.granted, ∃ M, Steps m0 dbg N0 M ∧ (M.nodes q).eng.st.vote.data ≤ c.vote) ∧
    (∀ p ∈ c.answers, (∃ M, Steps m0 dbg N0 M ∧ (M.nodes p.1).eng.st.vote.data ≤ c.vote ∧ ∀ w, p.2 ≠ .higherVote w) ∨ ∃ w, p.2 = .higherVote w ∧ c.vote < w)
  nodup : c.granted.Nodup
  done : c.done = some .ok → isQuorum c.configs c.granted = true

theorem CheckOk.mono {c : Check} (h : CheckOk m0 dbg N c) (hs : Steps m0 dbg N N') : CheckOk m0 dbg N' c := by
  obtain ⟨⟨N0, l, h1, h2, h3, h4⟩, h5, h6⟩ := h
  exact ⟨⟨N0, l, h1, h2, h3.trans hs, h4⟩, h5, h6⟩

theorem close_fields (c : Check) : ∃ d, c.close = { c with done := d } ∧ (d = some .ok → c.done = some .ok) := by
  unfold Check.close
  split
  · exact ⟨_, rfl, fun h => by cases h⟩
  · exact ⟨c.done, rfl, id⟩

theorem CheckOk.close {c : Check} (h : CheckOk m0 dbg N c) : CheckOk m0 dbg N c.close := by
  obtain ⟨d, h1, h2⟩ := close_fields c
  rw [h1]
  exact ⟨h.ex, h.nodup, fun hd => h.done (h2 hd)⟩

/-- the state of a cluster with calls -/
structure RI (m0 : Membership) (dbg : Bool) (R : RNet) : Prop where
  reach : Reach m0 dbg R.net
  calm : R.forgot = false → ReachR m0 dbg R.net
  checks : ∀ c ∈ R.checks, CheckOk m0 dbg R.net c

theorem Reach.step {N N' : Net} (h : Reach m0 dbg N) (hs : Step m0 dbg N N') : Reach m0 dbg N' := by
  obtain ⟨s, h⟩ := h
  exact ⟨s, .step h hs⟩

/-- requests are sent one after the other -/
theorem send_reqs {i : NodeId} {l : Engine.Leader} (hl : (N.nodes i).eng.leader = some l) (hd : (N.nodes i).disk.vote = l.vote)
    {ts : List (NodeId × Option LogId)} (ht : ∀ p ∈ ts, p ∈ l.progress.vp.vector) :
    Steps m0 dbg N { N with pkts := ts.map (fun p => .app (N.nodes i).eng.st.vote.data p.2 [] (N.nodes i).eng.st.committed) ++ N.pkts } := by
  induction ts with
  | nil => exact .refl
  | cons p ts ih =>
    have h1 := ih fun p hp => ht p (List.mem_cons_of_mem _ hp)
    exact .step h1 (Step.check i l p.1 p.2 hl hd (ht p List.mem_cons_self))

theorem remembers_refl (h : ∀ q, (N'.nodes q) = (N.nodes q)) : Remembers N N' := by
  intro q _ _ _
  rw [h q]

/-- requests are sent one after the other -/
theorem send_reqsR {i : NodeId} {l : Engine.Leader} (hN : ReachR m0 dbg N) (hl : (N.nodes i).eng.leader = some l) (hd : (N.nodes i).disk.vote = l.vote)
    {ts : List (NodeId × Option LogId)} (ht : ∀ p ∈ ts, p ∈ l.progress.vp.vector) :
    ReachR m0 dbg { N with pkts := ts.map (fun p => .app (N.nodes i).eng.st.vote.data p.2 [] (N.nodes i).eng.st.committed) ++ N.pkts } := by
  induction ts with
  | nil => exact hN
  | cons p ts ih =>
    have h1 := ih fun p hp => ht p (List.mem_cons_of_mem _ hp)
    exact .step h1 (Step.check i l p.1 p.2 hl hd (ht p List.mem_cons_self)) (remembers_refl fun _ => rfl)

theorem Reach.trans {N N' : Net} (h : Reach m0 dbg N) (hs : Steps m0 dbg N N') : Reach m0 dbg N' := by
  obtain ⟨s, h⟩ := h
  exact ⟨s, h.trans hs⟩

/-- one of the calls has changed -/
theorem checks_set {cs : List Check} {c : Check} {k : Nat} (h : ∀ c ∈ cs, CheckOk m0 dbg N c) (hc : CheckOk m0 dbg N c) :
    ∀ x ∈ cs.set k c, CheckOk m0 dbg N x := by
  intro x hx
  rcases List.mem_or_eq_of_mem_set hx with h1 | rfl
  · exact h x h1
  · exact hc

theorem RI.init (s : Start) : RI m0 dbg ⟨Net.init s, [], false⟩ :=
  ⟨⟨s, .refl⟩, fun _ => .init s, fun _ h => (by cases h)⟩

theorem RI.step (hm0 : m0.configs ≠ []) {R R' : RNet} (h : RI m0 dbg R) (hs : RStep m0 dbg R R') : RI m0 dbg R' := by
  cases hs with
  | net h1 h2 => exact ⟨h.reach.step h1, fun hf => .step (h.calm hf) h1 h2, fun c hc => (h.checks c hc).mono (.step .refl h1)⟩
  | forget h1 => exact ⟨h.reach.step h1, fun hf => (by cases hf), fun c hc => (h.checks c hc).mono (.step .refl h1)⟩
  | ask i l c hi hlh hc hd =>
    have hl : (R.net.nodes i).eng.leader = some l := (Eng.leaderHandler_ok hlh).symm
    obtain ⟨g, hg⟩ := reach_ci hm0 h.reach
    obtain ⟨_, _, _, _, _, _, hn⟩ := hg.node i
    have hid := hn.en.id
    have hv := (hn.r.flow.inv.pj.lead l hl).vote
    have hvec : ∀ p ∈ c.waiting, p ∈ l.progress.vp.vector := by
      intro p hp
      rw [hc] at hp
      simp only [Check.call] at hp
      split at hp
      · cases hp
      · exact (List.mem_filter.1 hp).1
    have hreq : c.reqs = c.waiting.map (fun p => .app (R.net.nodes i).eng.st.vote.data p.2 [] (R.net.nodes i).eng.st.committed) := by
      unfold Check.reqs; rw [hc]; rfl
    have hsteps : Steps m0 dbg R.net { R.net with pkts := c.reqs ++ R.net.pkts } := by
      by_cases hw : c.waiting = []
      · rw [hreq, hw]; exact .refl
      · rw [hreq]; exact send_reqs hl (hd hw) hvec
    refine ⟨h.reach.trans hsteps, ?_, ?_⟩
    · intro hf
      by_cases hw : c.waiting = []
      · rw [hreq, hw]; exact h.calm hf
      · rw [hreq]; exact send_reqsR (h.calm hf) hl (hd hw) hvec
    · intro x hx
      rcases List.mem_append.1 hx with hx | hx
      · exact (h.checks x hx).mono hsteps
      · rw [List.mem_singleton] at hx; subst hx
        have hsrc : x.src = i := by rw [hc]; exact hid
        refine ⟨⟨R.net, l, h.reach, ?_, hsteps, by rw [hsrc]; exact hl, by rw [hc]; exact hv.symm, by rw [hsrc, hc]; rfl, by rw [hsrc, hc]; rfl,
          by rw [hc]; rfl, ?_, ?_⟩, ?_, ?_⟩
        · intro hcalm
          refine h.calm ?_
          rw [hc] at hcalm
          simpa [Check.call] using hcalm
        · intro q hq
          rw [hc] at hq
          have : q = i := by simpa [Check.call, hid] using hq
          subst this
          exact ⟨R.net, .refl, by rw [hc]; exact le_refl _⟩
        · intro p hp
          rw [hc] at hp; cases hp
        · rw [hc]; simp [Check.call]
        · rw [hc]
          intro hdone
          simp only [Check.call] at hdone ⊢
          split at hdone
          · next hq => exact hq
          · cases hdone
  | answer k c q prev now tx n' r u hk hw ha hr hex hgv =>
    have hst : Step m0 dbg R.net (R.net.put q n' []) := Step.node q _ n' ha hr hex
    obtain ⟨g, hg⟩ := reach_ci hm0 h.reach
    have hc0 := h.checks c (List.mem_of_getElem? hk)
    refine ⟨h.reach.step hst, ?_, ?_⟩
    · intro hf
      refine .step (h.calm hf) hst ?_
      intro j _ _ _
      by_cases hj : j = q
      · subst hj
        simp only [Net.put, if_true]
        exact hg.remembers_node hm0 ha hr hex
      · simp only [Net.put, hj, if_false]; exact le_refl _
    · refine checks_set (fun x hx => (h.checks x hx).mono (.step .refl hst)) ?_
      have hc1 := hc0.mono (.step .refl hst)
      obtain ⟨N0, l, e1, e2, e3, e4, e5, e6, e7, e8, e9, e10⟩ := hc1.ex
      refine ⟨⟨N0, l, e1, e2, e3, e4, e5, e6, e7, e8, e9, ?_⟩, hc1.nodup, hc1.done⟩
      intro p hp
      rcases List.mem_cons.1 hp with rfl | hp
      · have hi : (R.net.nodes q).eng.input dbg now (.appendReq tx c.vote prev [] c.committed) = .ok n'.eng := by
          simp only [Runtime.Node.step] at hr
          split at hr
          · simp only [out_bind, lift_ok, out_pure] at hr
            obtain ⟨e, he, hr⟩ := hr
            subst hr; exact he
          · rw [out_pure] at hr; subst hr
            obtain ⟨cs, h1, h2⟩ := hgv
            have : cs = [] := List.append_cancel_left (as := (R.net.nodes q).eng.out) (by rw [← h1, List.append_nil])
            subst this; cases h2
        rcases Eng.append_answer hi hgv with ⟨h1, h2⟩ | h1
        · refine Or.inl ⟨_, e3, ?_, h2⟩
          simp only [Net.put, if_true]
          exact le_of_eq h1
        · exact Or.inr h1
      · exact e10 p hp
  | lost k c p hk hp =>
    refine ⟨h.reach, h.calm, checks_set h.checks ?_⟩
    have hc0 := h.checks c (List.mem_of_getElem? hk)
    exact CheckOk.close ⟨hc0.ex, hc0.nodup, hc0.done⟩
  | collect k c c' q r hk hd hp hr =>
    refine ⟨h.reach, h.calm, checks_set h.checks (CheckOk.close ?_)⟩
    have hc0 := h.checks c (List.mem_of_getElem? hk)
    obtain ⟨N0, l, e1, e2, e3, e4, e5, e6, e7, e8, e9, e10⟩ := hc0.ex
    have hans : ∀ p ∈ c.answers.erase (q, r), (∃ M, Steps m0 dbg N0 M ∧ (M.nodes p.1).eng.st.vote.data ≤ c.vote ∧ ∀ w, p.2 ≠ .higherVote w) ∨ ∃ w, p.2 = .higherVote w ∧ c.vote < w :=
      fun p hp => e10 p (List.mem_of_mem_erase hp)
    have take : (∀ w, r ≠ .higherVote w) → ∀ x ∈ c.granted.insert q, ∃ M, Steps m0 dbg N0 M ∧ (M.nodes x).eng.st.vote.data ≤ c.vote := by
      intro hnw x hx
      rcases List.mem_insert_iff.1 hx with rfl | hx
      · rcases e10 _ hp with ⟨M, h1, h2, _⟩ | ⟨w, h1, _⟩
        · exact ⟨M, h1, h2⟩
        · exact absurd h1 (hnw w)
      · exact e9 x hx
    cases r with
    | higherVote w =>
      simp only [Check.collect, bind_ok, pure_ok] at hr
      obtain ⟨_, _, rfl⟩ := hr
      exact ⟨⟨N0, l, e1, e2, e3, e4, e5, e6, e7, e8, e9, hans⟩, hc0.nodup, fun hx => by cases hx⟩
    | success =>
      simp only [Check.collect, pure_ok] at hr
      subst hr
      have hnd : (c.granted.insert q).Nodup := hc0.nodup.insert
      have hg := take (fun w hw => by cases hw)
      split
      · next hq => exact ⟨⟨N0, l, e1, e2, e3, e4, e5, e6, e7, e8, hg, hans⟩, hnd, fun _ => hq⟩
      · exact ⟨⟨N0, l, e1, e2, e3, e4, e5, e6, e7, e8, hg, hans⟩, hnd, fun hx => by rw [hd] at hx; cases hx⟩
    | conflict =>
      simp only [Check.collect, pure_ok] at hr
      subst hr
      have hnd : (c.granted.insert q).Nodup := hc0.nodup.insert
      have hg := take (fun w hw => by cases hw)
      split
      · next hq => exact ⟨⟨N0, l, e1, e2, e3, e4, e5, e6, e7, e8, hg, hans⟩, hnd, fun _ => hq⟩
      · exact ⟨⟨N0, l, e1, e2, e3, e4, e5, e6, e7, e8, hg, hans⟩, hnd, fun hx => by rw [hd] at hx; cases hx⟩

omit hne in
theorem rreach_ri (hm0 : m0.configs ≠ []) {R : RNet} (h : RReach m0 dbg R) : RI m0 dbg R := by
  have : Fact (m0.configs ≠ []) := ⟨hm0⟩
  induction h with
  | init s => exact RI.init s
  | step _ hs ih => exact ih.step hm0 hs

/-- **The position to read at of a call that ended with `Ok` is not before anything that was applied anywhere at the call.** -/
theorem CheckOk.covers (hm0 : m0.configs ≠ []) {c : Check} (h : CheckOk m0 dbg N c) (hd : c.done = some .ok) (hc : c.calm = true)
    {x : NodeId × Ent} (hx : x ∈ c.seen) : x.2.id.index < nextIndex c.read := by
  obtain ⟨N0, l, e1, e2, e3, e4, e5, e6, e7, e8, e9, _⟩ := h.ex
  obtain ⟨g, hg, hk⟩ := reachR_ci hm0 (e2 hc)
  rw [e7]
  refine hg.read_index hm0 hk e4 ?_ (hg.hist x (by rw [← e8]; exact hx))
  intro L S hS
  exact hg.latest (dbg := dbg) hm0 e4 h.nodup (by rw [← e6]; exact h.done hd) (fun q hq => by rw [← e5]; exact e9 q hq) hS

/-! ## Concrete executions -/

/-- an event of a cluster with calls -/
inductive REv where
  | net (ev : NEv)
  | ask (i : NodeId)
  | answer (k : Nat) (q : NodeId) (prev : Option LogId) (now tx : Nat) (r : AppendResp) (u : Option LogId)
  | collect (k : Nat) (q : NodeId) (r : AppendResp)

/-- what an event leads to, if it is allowed -/
def RNet.after (m0 : Membership) (dbg : Bool) (R : RNet) : REv → Option RNet
  | .net ev => match R.net.after m0 dbg ev with
    | some N' => some { R with net := N', forgot := R.forgot || !remB (R.net.nodes ev.at) (N'.nodes ev.at) }
    | none => none
  | .ask i => match (R.net.nodes i).eng.leaderHandler dbg with
    | .ok (some l) =>
      let c := Check.call (R.net.nodes i).eng l R.net.hist (!R.forgot)
      if (R.net.nodes i).idle && decide ((R.net.nodes i).disk.vote = l.vote) then
        some ⟨{ R.net with pkts := c.reqs ++ R.net.pkts }, R.checks ++ [c], R.forgot⟩
      else none
    | _ => none
  | .answer k q prev now tx r u => match R.checks[k]? with
    | none => none
    | some c => match (R.net.nodes q).step dbg (.msg now (.appendReq tx c.vote prev [] c.committed)) with
      | .ok n' =>
        let cs := n'.eng.out.drop (R.net.nodes q).eng.out.length
        if decide ((q, prev) ∈ c.waiting) && allowedB m0 R.net.pkts q (R.net.nodes q) (.msg now (.appendReq tx c.vote prev [] c.committed)) &&
            exactB (R.net.nodes q) n' && decide (n'.eng.out = (R.net.nodes q).eng.out ++ cs) &&
            decide (cs.filterMap Cmd.answer = [(tx, .append r c.vote u)]) then
          some ⟨R.net.put q n' [], R.checks.set k { c with waiting := c.waiting.erase (q, prev), answers := (q, r) :: c.answers }, R.forgot⟩
        else none
      | .error _ => none
  | .collect k q r => match R.checks[k]? with
    | none => none
    | some c => match c.collect dbg q r with
      | .ok c' =>
        if decide (c.done = none) && decide ((q, r) ∈ c.answers) then
          some { R with checks := R.checks.set k { c' with answers := c.answers.erase (q, r) }.close }
        else none
      | .error _ => none

omit hne in
theorem RNet.after_ok {R R' : RNet} {ev : REv} (h : R.after m0 dbg ev = some R') : RStep m0 dbg R R' := by
  cases ev with
  | net ev =>
    simp only [RNet.after] at h
    split at h
    · next N' h1 =>
      cases h
      cases hb : remB (R.net.nodes ev.at) (N'.nodes ev.at) with
      | true =>
        rw [Bool.not_true, Bool.or_false]
        exact .net (Net.after_ok h1) (remB_ok h1 hb)
      | false =>
        rw [Bool.not_false, Bool.or_true]
        exact .forget (Net.after_ok h1)
    · cases h
  | ask i =>
    simp only [RNet.after] at h
    split at h
    · next l hl =>
      split at h
      · next hc =>
        simp only [Bool.and_eq_true, decide_eq_true_eq] at hc
        cases h
        exact .ask i l _ hc.1 hl rfl (fun _ => hc.2)
      · cases h
    · cases h
  | answer k q prev now tx r u =>
    simp only [RNet.after] at h
    split at h
    · cases h
    · next c hk =>
      split at h
      · next n' hn =>
        split at h
        · next hc =>
          simp only [Bool.and_eq_true, decide_eq_true_eq] at hc
          obtain ⟨⟨⟨⟨h1, h2⟩, h3⟩, h4⟩, h5⟩ := hc
          cases h
          exact .answer k c q prev now tx n' r u hk h1 (allowedB_ok h2) hn (exactB_ok h3) ⟨_, h4, h5⟩
        · cases h
      · cases h
  | collect k q r =>
    simp only [RNet.after] at h
    split at h
    · cases h
    · next c hk =>
      split at h
      · next c' hc' =>
        split at h
        · next hc =>
          simp only [Bool.and_eq_true, decide_eq_true_eq] at hc
          cases h
          exact .collect k c c' q r hk hc.1 hc.2 hc'
        · cases h
      · cases h

/-- the events are allowed and lead to a state with the property `p` -/
def RNet.shows (m0 : Membership) (dbg : Bool) (R : RNet) (p : RNet → Bool) : List REv → Bool
  | [] => p R
  | ev :: evs => match R.after m0 dbg ev with
    | some R' => R'.shows m0 dbg p evs
    | none => false

omit hne in
theorem RNet.shows_ok {evs : List REv} {p : RNet → Bool} {R : RNet} (hR : RReach m0 dbg R) (h : R.shows m0 dbg p evs = true) :
    ∃ R', RReach m0 dbg R' ∧ p R' = true := by
  induction evs generalizing R with
  | nil => exact ⟨R, hR, h⟩
  | cons ev evs ih =>
    simp only [RNet.shows] at h
    split at h
    · next R1 h1 => exact ih (.step hR (RNet.after_ok h1)) h
    · cases h

end Openraft.Net
