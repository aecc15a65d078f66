import Verif.Engine.Ask
import Verif.Engine.Acked
import Verif.Engine.Demo
import Verif.Engine.IoOrder

/-!
# What a node answers and decides

The answers of the engine to the requests of other nodes, input by input, for every state of the node.
-/

set_option autoImplicit false

namespace Openraft.Props
open Openraft Openraft.Engine Openraft.Cluster Openraft.Engine.Demo

variable {dbg : Bool} {now : Nat} {e e' : Eng}

/-! ## each request is answered once -/

/-- the channel on which the sender of a request waits -/
def txOf : Input → Option Nat
  | .appendReq tx _ _ _ _ => some tx
  | .voteReq tx _ _ => some tx
  | .snapReq tx _ _ => some tx
  | .init tx _ => some tx
  | _ => none

/-- the answer fits the request -/
def FitsReq : Input → Resp → Prop
  | .appendReq _ v _ _ _, .append _ w _ => w = v
  | .voteReq _ _ _, .vote _ _ _ => True
  | .snapReq _ _ _, .snapshot _ => True
  | .init _ _, .init _ => True
  | _, _ => False

/-- the answers among some commands -/
def answers : List Cmd → List (Nat × Resp)
  | [] => []
  | .respond _ tx r :: cs => (tx, r) :: answers cs
  | _ :: cs => answers cs

theorem answers_eq (cs : List Cmd) : answers cs = cs.filterMap Cmd.answer := by
  induction cs with
  | nil => rfl
  | cons c cs ih =>
    rw [List.filterMap_cons, ← ih]
    cases c <;> rfl

/-- **C44**: handling a request adds exactly one answer, for this request and of its kind; any other input adds none. -/
theorem C44_answered_once {i : Input} (hr : e.input dbg now i = .ok e') :
    ∃ cs, e'.out = e.out ++ cs ∧ match txOf i with
      | some tx => ∃ r, answers cs = [(tx, r)] ∧ FitsReq i r
      | none => answers cs = [] := by
  have key : ∀ {as : List (Nat × Resp)}, Gives as e e' → ∃ cs, e'.out = e.out ++ cs ∧ answers cs = as := by
    rintro as ⟨cs, h1, h2⟩
    exact ⟨cs, h1, by rw [answers_eq, h2]⟩
  cases i with
  | appendReq tx v prev es lc =>
    obtain ⟨r, e1, _, hg, _⟩ := Eng.gives_append hr
    obtain ⟨cs, h1, h2⟩ := key hg
    exact ⟨cs, h1, _, h2, rfl⟩
  | voteReq tx v last =>
    obtain ⟨r, e1, h1, hg, _⟩ := Eng.gives_vote hr
    obtain ⟨cs, h2, h3⟩ := key hg
    refine ⟨cs, h2, r, h3, ?_⟩
    unfold Eng.handleVoteReq at h1
    split at h1
    · rw [pure_ok] at h1; cases h1; trivial
    · split at h1
      · rw [bind_ok] at h1
        obtain ⟨_, _, h1⟩ := h1
        rw [pure_ok] at h1; cases h1; trivial
      · rw [pure_ok] at h1; cases h1; trivial
  | snapReq tx v m =>
    obtain ⟨cs, h1, h2⟩ := key (Eng.gives_install hr).1
    exact ⟨cs, h1, _, h2, trivial⟩
  | init tx m =>
    obtain ⟨ok, e1, _, hg, _⟩ := Eng.gives_init hr
    obtain ⟨cs, h1, h2⟩ := key hg
    exact ⟨cs, h1, _, h2, trivial⟩
  | _ => exact key (Eng.gives_none rfl hr)

example : f0.input true 1 i1 = .ok f1 ∧ answers (f1.out.drop f0.out.length) = [(7, .append .success v2 (some (lid 1 2 1)))] :=
  ⟨after_ok (by decide +kernel), by decide +kernel⟩

/-! ## vote requests -/

/-- the lease of the stored vote is in force -/
def InLease (l : Leased) (now : Nat) : Prop := ∃ u, l.lastUpdate = some u ∧ now ≤ u + l.lease

theorem inLease_iff (l : Leased) (now : Nat) : l.isExpired now 0 = false ↔ InLease l now := by
  unfold Leased.isExpired InLease
  cases l.lastUpdate with
  | none => simp
  | some u => simp

/-- **C07**, **C03**, **C23**, the decision: a vote is granted exactly if the request's vote is not smaller, the candidate's log is
not shorter and no lease of a leader is in force; the answer carries the vote and the last log id of the node after the request;
granted means that the node has taken the request's vote, and a refused request changes nothing. -/
theorem C07_vote_decision {tx : Nat} {v : Vote} {last : Option LogId} (hr : e.input dbg now (.voteReq tx v last) = .ok e') :
    ∃ cs g, e'.out = e.out ++ cs ∧ answers cs = [(tx, .vote e'.st.vote.data e'.st.lastLogId g)] ∧
      (g = true ↔ e.st.vote.data ≤ v ∧ e.st.lastLogId ≤ last ∧ ¬ (e.st.vote.data.committed = true ∧ InLease e.st.vote now)) ∧
      (g = true → e'.st.vote.data = v) ∧ (g = false → e'.st = e.st) := by
  obtain ⟨r, e1, h1, ⟨cs, hg1, hg2⟩, hst, _⟩ := Eng.gives_vote hr
  rw [← answers_eq] at hg2
  unfold Eng.handleVoteReq at h1
  split at h1
  · next hc =>
    rw [pure_ok] at h1; cases h1
    refine ⟨cs, false, hg1, by rw [hg2, hst], ?_, by simp, fun _ => hst⟩
    simp only [Bool.and_eq_true, Bool.not_eq_true', inLease_iff] at hc
    simp only [Bool.false_eq_true, false_iff]
    exact fun h => h.2.2 hc
  · next hc =>
    simp only [Bool.and_eq_true, Bool.not_eq_true', inLease_iff] at hc
    split at h1
    · next hlast =>
      rw [bind_ok] at h1
      obtain ⟨⟨ok, e2⟩, h2, h1⟩ := h1
      rw [pure_ok] at h1; cases h1
      have hok := Eng.updateVote_yes h2
      refine ⟨cs, ok, hg1, by rw [hg2, hst], ?_, fun hk => ?_, fun hk => ?_⟩
      · rw [hok, decide_eq_true_eq]
        exact ⟨fun h => ⟨h, hlast, hc⟩, fun h => h.1⟩
      · subst hk; rw [hst]; exact Eng.updateVote_vote h2
      · subst hk; rw [hst, Eng.updateVote_false h2]
    · next hlast =>
      rw [pure_ok] at h1; cases h1
      exact ⟨cs, false, hg1, by rw [hg2, hst], by simp [hlast], by simp, fun _ => hst⟩

/-- node 1 has three voters and the vote of leader 2, lease 5, taken at time 3 -/
example : (f3.st.vote.data = v3 ∧ InLease f3.st.vote 6) ∧
    (∃ f4, f3.input true 6 (.voteReq 11 ⟨⟨4, 2⟩, false⟩ (some (lid 3 2 9))) = .ok f4 ∧
      answers (f4.out.drop f3.out.length) = [(11, .vote v3 (some (lid 2 3 2)) false)]) ∧
    (∃ f4, f3.input true 20 (.voteReq 11 ⟨⟨4, 2⟩, false⟩ (some (lid 3 2 9))) = .ok f4 ∧
      answers (f4.out.drop f3.out.length) = [(11, .vote ⟨⟨4, 2⟩, false⟩ (some (lid 2 3 2)) true)]) ∧
    (∃ f4, f3.input true 20 (.voteReq 11 ⟨⟨4, 2⟩, false⟩ (some (lid 1 2 9))) = .ok f4 ∧
      answers (f4.out.drop f3.out.length) = [(11, .vote v3 (some (lid 2 3 2)) false)]) :=
  ⟨⟨by decide +kernel, ⟨3, by decide +kernel, by decide +kernel⟩⟩, ⟨_, after_ok (by decide +kernel), by decide +kernel⟩,
    ⟨_, after_ok (by decide +kernel), by decide +kernel⟩, ⟨_, after_ok (by decide +kernel), by decide +kernel⟩⟩

/-! ## append requests -/

/-- by what it knows, the node has the log id: it is at or below the committed position, or it is the log id at this index -/
def HasId (e : Eng) (p : LogId) : Prop := p.index < nextIndex e.st.committed ∨ e.st.getLogId p.index = some p

theorem hasLogId_iff {s : RState} {p : LogId} {b : Bool} (h : s.hasLogId dbg p = .ok b) :
    b = true ↔ p.index < nextIndex s.committed ∨ s.getLogId p.index = some p := by
  unfold RState.hasLogId at h
  split at h
  · next hi =>
    rw [bind_ok] at h
    obtain ⟨_, _, h⟩ := h
    rw [pure_ok] at h; subst h
    simp [hi]
  · next hi =>
    rw [pure_ok] at h; subst h
    simp [hi]

/-- **C07**, **C17**, the decision: a request of another node is refused with the node's own vote exactly if this is greater, and then
nothing changes; otherwise the node takes the request's vote and answers success if it has the log id before the entries, else conflict. -/
theorem C07_append_decision {tx : Nat} {v : Vote} {prev : Option LogId} {es : List Ent} {lc : Option LogId}
    (hn : v.leaderId.node ≠ e.cfg.id) (hr : e.input dbg now (.appendReq tx v prev es lc) = .ok e') :
    ∃ cs r, e'.out = e.out ++ cs ∧ answers cs = [(tx, .append r v (max prev (es.getLast?.map (·.id))))] ∧
      ((¬ e.st.vote.data ≤ v ∧ r = .higherVote e.st.vote.data ∧ e'.st = e.st) ∨
       (e.st.vote.data ≤ v ∧ e'.st.vote.data = v ∧ r = .success ∧ ∀ p, prev = some p → HasId e p) ∨
       (e.st.vote.data ≤ v ∧ e'.st.vote.data = v ∧ r = .conflict ∧ ∃ p, prev = some p ∧ ¬ HasId e p)) := by
  obtain ⟨r, e1, h1, ⟨cs, hg1, hg2⟩, hv, hst⟩ := Eng.gives_append hr
  rw [← answers_eq] at hg2
  refine ⟨cs, r, hg1, hg2, ?_⟩
  rw [show e'.st.vote.data = e1.st.vote.data from congrArg Leased.data hv]
  unfold Eng.appendEntries at h1
  rw [bind_ok] at h1
  obtain ⟨⟨ok, e2⟩, h2, h1⟩ := h1
  have hok := Eng.updateVote_yes h2
  obtain ⟨k1, k2, _, _, k5⟩ := Eng.updateVote_log hn h2
  have hHas : ∀ p, HasId e p ↔ HasId e2 p := by
    intro p
    unfold HasId RState.getLogId
    rw [k1, k2]
  dsimp only at h1
  split at h1
  · next hk =>
    subst hk
    have hle : e.st.vote.data ≤ v := of_decide_eq_true hok.symm
    have hv2 := Eng.updateVote_vote h2
    rw [bind_ok] at h1
    obtain ⟨lv, _, h1⟩ := h1
    rw [bind_ok] at h1
    obtain ⟨⟨ok2, e3⟩, h3, h1⟩ := h1
    have hv3 : e3.st.vote.data = v := (congrArg Leased.data (Eng.still_fhEnsure _ _ _ h3).vote).trans hv2
    have hen : ok2 = true ↔ ∀ p, prev = some p → HasId e p := by
      unfold Eng.fhEnsure at h3
      split at h3
      · rw [pure_ok] at h3; cases h3
        simp
      · next p =>
        rw [bind_ok] at h3
        obtain ⟨b, hb, h3⟩ := h3
        have := hasLogId_iff hb
        split at h3
        · next hbt =>
          rw [pure_ok] at h3; cases h3
          simp only [true_iff]
          rintro q ⟨⟩
          exact (hHas p).2 (this.1 hbt)
        · next hbt =>
          rw [bind_ok] at h3
          obtain ⟨_, _, h3⟩ := h3
          rw [pure_ok] at h3; cases h3
          simp only [Bool.false_eq_true, false_iff]
          exact fun h => hbt (this.2 ((hHas p).1 (h p rfl)))
    dsimp only at h1
    split at h1
    · next hk2 =>
      rw [bind_ok] at h1
      obtain ⟨e4, h4, h1⟩ := h1
      rw [pure_ok] at h1; cases h1
      exact Or.inr (Or.inl ⟨hle, (congrArg Leased.data (Eng.still_fhAppendEntries _ _ _ _ _ h4).vote).trans hv3, rfl, hen.1 hk2⟩)
    · next hk2 =>
      rw [pure_ok] at h1; cases h1
      refine Or.inr (Or.inr ⟨hle, hv3, rfl, ?_⟩)
      have := fun h => hk2 (hen.2 h)
      simpa using this
  · next hk =>
    rw [pure_ok] at h1; cases h1
    cases ok with
    | true => exact absurd rfl hk
    | false =>
      have := Eng.updateVote_false h2
      subst this
      exact Or.inl ⟨of_decide_eq_false hok.symm, rfl, hst (by simp)⟩

/-- an old leader, the present leader with an unknown log id, and the present leader with a known one -/
example : (∃ f4, f3.input true 6 (.appendReq 12 v2 none [] none) = .ok f4 ∧
      answers (f4.out.drop f3.out.length) = [(12, .append (.higherVote v3) v2 none)]) ∧
    (∃ f4, f3.input true 6 (.appendReq 12 v3 (some (lid 2 3 9)) [] none) = .ok f4 ∧
      answers (f4.out.drop f3.out.length) = [(12, .append .conflict v3 (some (lid 2 3 9)))]) ∧
    (∃ f4, f3.input true 6 (.appendReq 12 v3 (some (lid 2 3 2)) [] none) = .ok f4 ∧
      answers (f4.out.drop f3.out.length) = [(12, .append .success v3 (some (lid 2 3 2)))]) :=
  ⟨⟨_, after_ok (by decide +kernel), by decide +kernel⟩, ⟨_, after_ok (by decide +kernel), by decide +kernel⟩,
    ⟨_, after_ok (by decide +kernel), by decide +kernel⟩⟩

/-! ## snapshots -/

/-- **C21**, the answer: the node takes the vote of the request if its own is not greater, and answers with the vote it then has; a
refused request changes nothing. -/
theorem C21_answer {tx : Nat} {v : Vote} {m : SnapMeta} (hr : e.input dbg now (.snapReq tx v m) = .ok e') :
    ∃ cs, e'.out = e.out ++ cs ∧ answers cs = [(tx, .snapshot e'.st.vote.data)] ∧ e'.st.vote.data = max e.st.vote.data v ∧
      (v < e.st.vote.data → e'.st = e.st) := by
  obtain ⟨⟨cs, hg1, hg2⟩, h1, h2⟩ := Eng.gives_install hr
  rw [← answers_eq] at hg2
  refine ⟨cs, hg1, hg2, ?_, fun h => h2 (not_le.2 h)⟩
  by_cases hle : e.st.vote.data ≤ v
  · rw [h1 hle, max_eq_right hle]
  · rw [h2 hle, max_eq_left (le_of_lt (not_le.1 hle))]

example : ∃ f4, f3.input true 6 (.snapReq 13 v2 ⟨some (lid 1 2 1), ⟨some (lid 1 2 0), m3⟩, 1⟩) = .ok f4 ∧
    answers (f4.out.drop f3.out.length) = [(13, .snapshot v3)] :=
  ⟨_, after_ok (by decide +kernel), by decide +kernel⟩

/-! ## membership changes -/

/-- **C09**, **C29**, the decision: a membership is written only while the last one is committed, it is the one computed from the
effective membership, and it becomes the effective one. -/
theorem C09_change_decision {c : ChangeMembers} {retain : Bool} (hr : e.input dbg now (.change c retain) = .ok e') :
    e' = e ∨ ∃ m l cs, e.st.ms.effective.logId = e.st.ms.committed.logId ∧ e.st.ms.effective.mem.change c retain = .ok m ∧
      e.leader = some l ∧ l.transferTo = none ∧
      e'.out = e.out ++ .append l.vote [⟨⟨l.vote.leaderId, nextIndex l.lastLogId⟩, .membership m⟩] :: cs ∧
      ∀ v es, Cmd.append v es ∉ cs := by
  simp only [Eng.input] at hr
  rw [bind_ok] at hr
  obtain ⟨⟨r, e1⟩, h1, hr⟩ := hr
  rw [pure_ok] at hr; subst hr
  unfold Eng.changeMembership Eng.changeApply at h1
  split at h1
  · rw [pure_ok] at h1; cases h1; exact Or.inl rfl
  · next m hm =>
    split at hm
    · next hlog =>
      split at hm
      · next m' hch =>
        have hm' : m' = m := Option.some.inj hm
        subst hm'
        unfold Eng.writeEntry at h1
        rw [bind_ok] at h1
        obtain ⟨o, ho, h1⟩ := h1
        cases o with
        | none => dsimp only at h1; rw [pure_ok] at h1; cases h1; exact Or.inl rfl
        | some l =>
          dsimp only at h1
          split at h1
          · rw [pure_ok] at h1; cases h1; exact Or.inl rfl
          · next htr =>
            rw [bind_ok] at h1
            obtain ⟨e2, h2, h1⟩ := h1
            rw [bind_ok] at h1
            obtain ⟨_, _, h1⟩ := h1
            rw [pure_ok] at h1; cases h1
            obtain ⟨cs, k1, k2, _⟩ := Eng.lhAppend_shape h2
            refine Or.inr ⟨m', l, cs, hlog, hch, Eng.leaderHandler_some ho, by simpa using htr, k1, fun v es hx => ?_⟩
            have := k2 _ hx
            cases this
      · cases hm
    · cases hm

/-- node 1 leads itself alone; its membership is committed: node 2 is added as a learner -/
def s9 : Eng := runTo (Eng.fresh Demo.cfg 0) [(1, [], .init 7 m1), (2, [], .voteResp 1 ⟨⟨1, 1⟩, false⟩ none true ⟨⟨1, 1⟩, false⟩),
  (3, [], .localIO ⟨⟨⟨1, 1⟩, true⟩, some (lid 1 1 1)⟩)]

example : s9.st.ms.effective.logId = s9.st.ms.committed.logId ∧
    (∃ t, s9.input true 9 (.change (.addNodes [(2, 0)]) false) = .ok t ∧ t.st.ms.effective.mem = ⟨[[1]], [(1, 0), (2, 0)]⟩ ∧
      ∃ t', t.input true 10 (.change (.addNodes [(3, 0)]) false) = .ok t' ∧ t'.out = t.out) :=
  ⟨by decide +kernel, after 9 s9 (.change (.addNodes [(2, 0)]) false), after_ok (by decide +kernel), by decide +kernel,
    _, after_ok (by decide +kernel), by decide +kernel⟩

/-! ## elections by timeout -/

/-- the time without a leader after which a node starts an election -/
def electAfter (e : Eng) : Nat := e.cfg.electionTimeout + if e.seenGreater then e.cfg.smallerLogTimeout else 0

/-- **C40**, **C23**, the decision: a tick makes a node ask for votes only if elections are enabled, it is a voter and not the leader,
and either it is the only voter or its lease and the election timeout are over. -/
theorem C40_tick_decision {el hb : Bool} {iv : Nat} (hr : e.input dbg now (.tick el hb iv) = .ok e') {v : Vote} {last : Option LogId}
    {cs : List Cmd} (ho : e'.out = e.out ++ cs) (hs : Cmd.sendVote v last ∈ cs) :
    el = true ∧ e.st.server ≠ .leader ∧ e.st.ms.effective.mem.isVoter e.cfg.id = true ∧
      (e.st.ms.effective.mem.voterIds.length = 1 ∨ ∀ u, e.st.vote.lastUpdate = some u → u + e.st.vote.lease + electAfter e < now) := by
  have hno : Emits (fun c => ∀ v l, c ≠ .sendVote v l) e e' → False := by
    rintro ⟨ds, h1, h2⟩
    rw [ho] at h1
    have := List.append_cancel_left h1
    subst this
    exact h2 _ hs v last rfl
  have L : Lets (fun c => ∀ v l, c ≠ .sendVote v l) := ⟨fun c hc v l h => by subst h; cases hc⟩
  simp only [Eng.input, Eng.coreTick] at hr
  rw [bind_ok] at hr
  obtain ⟨e1, h1, hr⟩ := hr
  have hrest : Emits (fun c => ∀ v l, c ≠ .sendVote v l) e1 e' := by
    rw [bind_ok] at hr
    obtain ⟨e2, h2, hr⟩ := hr
    have k2 := Eng.emits_tickHeartbeat (P := fun c => ∀ v l, c ≠ .sendVote v l) _ _ _ _ h2
    split at hr
    · exact k2.trans (Eng.emits_leaderStepDown _ _ hr)
    · rw [pure_ok] at hr; subst hr; exact k2
  unfold Eng.tickElection at h1
  split at h1
  · rw [pure_ok] at h1; subst h1; exact (hno hrest).elim
  · next c1 =>
    split at h1
    · rw [pure_ok] at h1; subst h1; exact (hno hrest).elim
    · next c2 =>
      split at h1
      · rw [pure_ok] at h1; subst h1; exact (hno hrest).elim
      · next c3 =>
        by_cases c4 : (decide (e.st.ms.effective.mem.voterIds.length = 1) || e.st.vote.isExpired now (electAfter e)) = true
        · refine ⟨by simpa using c3, c1, by simpa using c2, ?_⟩
          simp only [Bool.or_eq_true, decide_eq_true_eq] at c4
          refine c4.imp id fun h u hu => ?_
          unfold Leased.isExpired at h
          rw [hu] at h
          exact of_decide_eq_true h
        · have h1 : (if (decide (e.st.ms.effective.mem.voterIds.length = 1) || e.st.vote.isExpired now (electAfter e)) = true then
              Eng.elect dbg now { e with seenGreater := false } else pure e) = .ok e1 := h1
          rw [if_neg c4, pure_ok] at h1; subst h1; exact (hno hrest).elim

/-- node 1 took the vote of leader 3 at time 3 with lease 5; its timeout is 10 -/
example : (∃ f4, f3.input true 18 (.tick true true 1) = .ok f4 ∧ f4.out = f3.out) ∧ ∃ f4, f3.input true 19 (.tick true true 1) = .ok f4 ∧
    .sendVote ⟨⟨3, 1⟩, false⟩ (some (lid 2 3 2)) ∈ f4.out.drop f3.out.length :=
  ⟨⟨_, after_ok (by decide +kernel), by decide +kernel⟩, after 19 f3 (.tick true true 1), after_ok (by decide +kernel), by decide +kernel⟩

/-! ## answers that are not for the present session -/

/-- **C12**, **C18**, the decision: progress is counted only if it comes from a replication stream that this leader started for its
present membership; other reports change nothing. -/
theorem C12_session_decision {s : Session} {target : NodeId} {r : Eng.ReplResult}
    (h : ¬ ((∃ l, e.leader = some l ∧ l.vote = s.vote) ∧ s.mem = e.st.ms.effective.logId)) (hc : s.vote.committed = true)
    (hr : e.input dbg now (.replProgress s target r) = .ok e') : e' = e := by
  simp only [Eng.input, Eng.coreReplProgress] at hr
  split at hr
  · next hs =>
    exfalso
    apply h
    simp only [Eng.sessionMatch, Eng.voteMatch, if_pos hc, Bool.and_eq_true, beq_iff_eq] at hs
    refine ⟨?_, hs.2⟩
    have := hs.1
    cases hl : e.leader with
    | none => rw [hl] at this; cases this
    | some l => rw [hl] at this; exact ⟨l, rfl, Option.some.inj this⟩
  · rw [pure_ok] at hr; exact hr.symm

/-- the learner added to `s9` gives the membership a new log id; a report of a stream of the former membership is not counted -/
example : ∃ t, s9.input true 9 (.change (.addNodes [(2, 0)]) false) = .ok t ∧
    ¬ ((∃ l, t.leader = some l ∧ l.vote = ⟨⟨1, 1⟩, true⟩) ∧ some (lid 0 0 0) = t.st.ms.effective.logId) ∧
    ∃ t', t.input true 10 (.replProgress ⟨⟨⟨1, 1⟩, true⟩, some (lid 0 0 0)⟩ 2 (.matching (some (lid 1 1 1)))) = .ok t' ∧ t'.out = t.out :=
  ⟨after 9 s9 (.change (.addNodes [(2, 0)]) false), after_ok (by decide +kernel), fun h => absurd h.2 (by decide +kernel),
    _, after_ok (by decide +kernel), by decide +kernel⟩

end Openraft.Props
