import Verif.Runtime.VTimeLife
import Verif.Engine.Cand
import Verif.Engine.InvVote
import Verif.Props.AnswerProps
import Verif.Props.LeaseProps

/-!
# C65: the election timer

When a node calls an election by itself. The timer of the code is the time at which the vote was last touched; here it does not
appear: the theorems speak of the messages a node handles, the commands it emits, and the clock.
-/

set_option autoImplicit false

namespace Openraft.Props
open Openraft Openraft.Engine Openraft.Runtime Openraft.Engine.Demo Openraft.Runtime.Demo

variable {dbg : Bool}

/-- in its `k`-th event the node handles the message `i` and emits the commands `cs` -/
def HandlesAt (h : Hist dbg) (k : Nat) (i : Input) (cs : List Cmd) : Prop :=
  h.ev k = .msg (h.time k) i ∧ (h.node k).idle = true ∧ (h.node (k + 1)).eng.out = (h.node k).eng.out ++ cs

/-- a tick makes the node ask for votes -/
def TimesOut (h : Hist dbg) (k : Nat) : Prop :=
  ∃ el hb iv cs v last, HandlesAt h k (.tick el hb iv) cs ∧ .sendVote v last ∈ cs

/-- what starts the timer again: a message of a leader that is not behind, a vote given to another node, or a call for votes, be it
by a tick, on request of the user, on a transfer of leadership or when the cluster is initialised -/
inductive Rewinds (h : Hist dbg) (k : Nat) : Prop
  | append (tx : Nat) (v : Vote) (prev : Option LogId) (es : List Ent) (lc : Option LogId) (cs : List Cmd)
      (m : HandlesAt h k (.appendReq tx v prev es lc) cs) (le : (h.node k).eng.st.vote.data ≤ v)
  | snapshot (tx : Nat) (v : Vote) (sm : SnapMeta) (cs : List Cmd)
      (m : HandlesAt h k (.snapReq tx v sm) cs) (le : (h.node k).eng.st.vote.data ≤ v)
  | grant (tx : Nat) (v : Vote) (last : Option LogId) (cs : List Cmd) (c : Option Cond) (w : Vote) (l : Option LogId)
      (m : HandlesAt h k (.voteReq tx v last) cs) (yes : .respond c tx (.vote w l true) ∈ cs)
  | call (i : Input) (cs : List Cmd) (v : Vote) (last : Option LogId)
      (kind : (∃ el hb iv, i = .tick el hb iv) ∨ i = .electCmd ∨ (∃ w t, i = .handleTransfer w t) ∨ ∃ tx m, i = .init tx m)
      (m : HandlesAt h k i cs) (ask : .sendVote v last ∈ cs)

/-! ## every one of them touches the vote -/

theorem HandlesAt.input {h : Hist dbg} {k : Nat} {i : Input} {cs : List Cmd} (m : HandlesAt h k i cs) (hne : cs ≠ [] ∨ external i = true) :
    (h.node k).eng.input dbg (h.time k) i = .ok (h.node (k + 1)).eng := by
  obtain ⟨hev, hid, ho⟩ := m
  have hs := h.step k
  rw [hev] at hs
  simp only [Node.step] at hs
  split at hs
  · simp only [out_bind, lift_ok, out_pure] at hs
    obtain ⟨e, he, hs⟩ := hs
    rw [← hs]; exact he
  · next hn =>
    rw [out_pure] at hs
    rw [← hs] at ho
    exfalso
    rcases hne with hne | hne
    · exact hne (List.append_cancel_left (ho.symm.trans (List.append_nil _).symm))
    · rw [hid, hne] at hn; exact hn rfl

theorem noAsk_of_same {e : Eng} {cs : List Cmd} {c : Cmd} (ho : e.out = e.out ++ cs) (hc : c ∈ cs) : False := by
  have : cs = [] := List.append_cancel_left (ho.symm.trans (List.append_nil _).symm)
  rw [this] at hc; cases hc

theorem Rewinds.touch {h : Hist dbg} {k : Nat} (r : Rewinds h k) :
    (h.node (k + 1)).eng.st.vote.lastUpdate = some (h.time k) := by
  cases r with
  | append tx v prev es lc cs m le =>
    have he := m.input (Or.inr rfl)
    simp only [Eng.input, Eng.handleAppend] at he
    rw [bind_ok] at he
    obtain ⟨⟨r, e1⟩, h1, he⟩ := he
    have t1 : e1.st.vote.lastUpdate = some (h.time k) := by
      unfold Eng.appendEntries at h1
      rw [bind_ok] at h1
      obtain ⟨⟨ok, e0⟩, h0, h1⟩ := h1
      cases updateVote_true le h0
      have t0 := Eng.touch_updateVote h0
      dsimp only at h1
      rw [if_pos rfl, bind_ok] at h1
      obtain ⟨lv, _, h1⟩ := h1
      rw [bind_ok] at h1
      obtain ⟨⟨ok2, e2⟩, h2, h1⟩ := h1
      have t2 := Eng.vtime_now (Eng.vtime_fhEnsure _ _ _ h2) t0
      dsimp only at h1
      split at h1
      · rw [bind_ok] at h1
        obtain ⟨e3, h3, h1⟩ := h1
        rw [pure_ok] at h1; cases h1
        exact Eng.vtime_now (Eng.vtime_fhAppendEntries _ _ _ _ _ h3) t2
      · rw [pure_ok] at h1; cases h1; exact t2
    dsimp only at he
    split at he
    · rw [bind_ok] at he
      obtain ⟨_, _, he⟩ := he
      rw [bind_ok] at he
      obtain ⟨_, _, he⟩ := he
      exact Eng.vtime_now (Eng.vtime_fhCommit _ _ _ he) t1
    · rw [pure_ok] at he; rw [← he]; exact t1
  | snapshot tx v sm cs m le =>
    have he := m.input (Or.inr rfl)
    simp only [Eng.input, Eng.handleInstall] at he
    rw [bind_ok] at he
    obtain ⟨⟨ok, e1⟩, h1, he⟩ := he
    cases updateVote_true le h1
    have t1 := Eng.touch_updateVote h1
    dsimp only at he
    rw [if_pos rfl, bind_ok] at he
    obtain ⟨_, _, he⟩ := he
    rw [bind_ok] at he
    obtain ⟨⟨c, e2⟩, h2, he⟩ := he
    rw [pure_ok] at he; rw [← he]
    exact Eng.vtime_now (Eng.vtime_fhInstall _ _ _ _ h2) t1
  | grant tx v last cs c w l m yes =>
    have he := m.input (Or.inr rfl)
    simp only [Eng.input, Eng.coreVoteReq] at he
    rw [bind_ok] at he
    obtain ⟨⟨r, e1⟩, h1, he⟩ := he
    rw [pure_ok] at he
    have noAns : ∀ {x : Resp}, (∃ a b, x = .vote a b false) → e1 = (h.node k).eng → r = x → False := by
      rintro x ⟨a, b, rfl⟩ h2 rfl
      subst h2
      have := m.2.2
      rw [← he] at this
      have := List.append_cancel_left (as := (h.node k).eng.out) this
      rw [← this] at yes
      cases List.mem_singleton.1 yes
    unfold Eng.handleVoteReq at h1
    split at h1
    · rw [pure_ok] at h1; cases h1; exact (noAns ⟨_, _, rfl⟩ rfl rfl).elim
    · split at h1
      · rw [bind_ok] at h1
        obtain ⟨⟨ok, e2⟩, h2, h1⟩ := h1
        rw [pure_ok] at h1; cases h1
        cases ok
        · unfold Eng.updateVote at h2
          split at h2
          · simp only [bind_ok, pure_ok] at h2
            obtain ⟨_, _, _, _, h2⟩ := h2
            cases h2
          · rw [pure_ok] at h2; cases h2
            exact (noAns ⟨_, _, rfl⟩ rfl rfl).elim
        · have := Eng.touch_updateVote h2
          rw [← he]; exact this
      · rw [pure_ok] at h1; cases h1; exact (noAns ⟨_, _, rfl⟩ rfl rfl).elim
  | call i cs v last kind m ask =>
    have he := m.input (Or.inl (List.ne_nil_of_mem ask))
    have ho := m.2.2
    rcases kind with ⟨el, hb, iv, rfl⟩ | rfl | ⟨w, t, rfl⟩ | ⟨tx, mm, rfl⟩
    · obtain ⟨c1, c2, c3, c4⟩ := C40_tick_decision he ho ask
      simp only [Eng.input, Eng.coreTick] at he
      rw [bind_ok] at he
      obtain ⟨e1, h1, he⟩ := he
      have t1 : e1.st.vote.lastUpdate = some (h.time k) ∨ e1 = (h.node k).eng := by
        unfold Eng.tickElection at h1
        rw [if_neg c2, if_neg (by simp [c3]), if_neg (by simp [c1])] at h1
        have h1 : (if (decide ((h.node k).eng.st.ms.effective.mem.voterIds.length = 1) ||
            (h.node k).eng.st.vote.isExpired (h.time k) (electAfter (h.node k).eng)) = true then
            Eng.elect dbg (h.time k) { (h.node k).eng with seenGreater := false } else pure (h.node k).eng) = .ok e1 := h1
        split at h1
        · exact Or.inl (Eng.touch_elect h1)
        · rw [pure_ok] at h1; exact Or.inr h1.symm
      have L : Lets (fun c => ∀ v l, c ≠ .sendVote v l) := ⟨fun c hc v l h => by subst h; cases hc⟩
      have hrest : Emits (fun c => ∀ v l, c ≠ .sendVote v l) e1 (h.node (k + 1)).eng ∧ VTime (h.time k) e1 (h.node (k + 1)).eng := by
        rw [bind_ok] at he
        obtain ⟨e2, h2, he⟩ := he
        have k2 := Eng.emits_tickHeartbeat (P := fun c => ∀ v l, c ≠ .sendVote v l) _ _ _ _ h2
        have f2 := Eng.vtime_tickHeartbeat (t := h.time k) _ _ _ _ h2
        split at he
        · exact ⟨k2.trans (Eng.emits_leaderStepDown _ _ he), f2.trans (Eng.vtime_leaderStepDown _ _ he)⟩
        · rw [pure_ok] at he; rw [← he]; exact ⟨k2, f2⟩
      rcases t1 with t1 | t1
      · exact Eng.vtime_now hrest.2 t1
      · exfalso
        obtain ⟨ds, d1, d2⟩ := hrest.1
        rw [ho, t1] at d1
        have := List.append_cancel_left d1
        subst this
        exact d2 _ ask v last rfl
    · simp only [Eng.input, Eng.coreElect] at he
      split at he
      · exact Eng.touch_elect he
      · rw [pure_ok] at he; rw [← he] at ho; exact (noAsk_of_same ho ask).elim
    · simp only [Eng.input, Eng.coreHandleTransfer] at he
      split at he
      · split at he
        · exact Eng.touch_elect he
        · rw [pure_ok] at he; rw [← he] at ho; exact (noAsk_of_same (e := (h.node k).eng) ho ask).elim
      · rw [pure_ok] at he; rw [← he] at ho; exact (noAsk_of_same ho ask).elim
    · simp only [Eng.input, Eng.coreInit] at he
      rw [bind_ok] at he
      obtain ⟨⟨ok, e1⟩, h1, he⟩ := he
      rw [pure_ok] at he
      have no : e1 = (h.node k).eng → False := by
        intro h2
        rw [← he, h2] at ho
        have := List.append_cancel_left (as := (h.node k).eng.out) ho
        rw [← this] at ask
        cases List.mem_singleton.1 ask
      unfold Eng.initCluster at h1
      split at h1
      · rw [pure_ok] at h1; cases h1; exact (no rfl).elim
      · split at h1
        · rw [pure_ok] at h1; cases h1; exact (no rfl).elim
        · simp only [bind_ok, pure_ok] at h1
          obtain ⟨_, _, _, _, e3, h3, h1⟩ := h1
          cases h1
          have := Eng.touch_elect h3
          rw [← he]; exact this

/-! ## the timer -/

/-- **C65**: after a node has heard a leader, given its vote or called for votes, it does not by itself call an election before the
election timeout is over again, and `smallerLogTimeout` longer if it has met a greater log. This holds however long the node runs and whatever
happens in between, as long as it does not restart and there is more than one voter. -/
theorem C65_quiet (h : Hist dbg) {i j : Nat} (hij : i < j) (hi : Rewinds h i) (hj : TimesOut h j)
    (hv : (h.node j).eng.st.ms.effective.mem.voterIds.length ≠ 1) : h.time i + electAfter (h.node j).eng < h.time j := by
  obtain ⟨u, hu, hl⟩ := h.touched hij hi.touch
  obtain ⟨el, hb, iv, cs, v, last, m, ask⟩ := hj
  obtain ⟨_, _, _, c | c⟩ := C40_tick_decision (m.input (Or.inl (List.ne_nil_of_mem ask))) m.2.2 ask
  · exact absurd c hv
  · have := c u hl
    omega

/-- **C65**, two elections of one node: those called by ticks are more than an election timeout apart. -/
theorem C65_spaced (h : Hist dbg) {i j : Nat} (hij : i < j) (hi : TimesOut h i) (hj : TimesOut h j)
    (hv : (h.node j).eng.st.ms.effective.mem.voterIds.length ≠ 1) : h.time i + (h.node j).eng.cfg.electionTimeout < h.time j := by
  obtain ⟨el, hb, iv, cs, v, last, m, ask⟩ := hi
  have := C65_quiet h hij (.call _ cs v last (Or.inl ⟨el, hb, iv, rfl⟩) m ask) hj hv
  unfold electAfter at this
  omega

/-- **C65**, a follower of a living leader: if the leader is heard in time, before every tick, then no tick makes the node ask for votes. -/
theorem C65_followed (h : Hist dbg) {a b : Nat}
    (hh : ∀ j, a ≤ j → j < b → ∃ i, i < j ∧ Rewinds h i ∧ h.time j ≤ h.time i + (h.node j).eng.cfg.electionTimeout)
    (hv : ∀ j, a ≤ j → j < b → (h.node j).eng.st.ms.effective.mem.voterIds.length ≠ 1) : ∀ j, a ≤ j → j < b → ¬ TimesOut h j := by
  intro j h1 h2 ht
  obtain ⟨i, hij, hr, hle⟩ := hh j h1 h2
  have := C65_quiet h hij hr ht (hv j h1 h2)
  unfold electAfter at this
  omega

/-- **C65**, the other direction: when the timer is over the next tick does call an election, in the term after the node's vote. -/
theorem C65_calls {now : Nat} {e e' : Eng} {hb : Bool} {iv : Nat} (hs : e.st.server ≠ .leader)
    (hm : e.st.ms.effective.mem.isVoter e.cfg.id = true) (hx : ∀ u, e.st.vote.lastUpdate = some u → u + e.st.vote.lease + electAfter e < now)
    (hr : e.input dbg now (.tick true hb iv) = .ok e') :
    ∃ cs, e'.out = e.out ++ cs ∧ .sendVote ⟨⟨e.st.vote.data.leaderId.term + 1, e.cfg.id⟩, false⟩ e.st.lastLogId ∈ cs := by
  simp only [Eng.input, Eng.coreTick] at hr
  rw [bind_ok] at hr
  obtain ⟨e1, h1, hr⟩ := hr
  have hx' : e.st.vote.isExpired now (electAfter e) = true := by
    unfold Leased.isExpired
    split
    · next u hu => exact decide_eq_true (hx u hu)
    · rfl
  have m1 : ∃ cs, e1.out = e.out ++ cs ∧ .sendVote ⟨⟨e.st.vote.data.leaderId.term + 1, e.cfg.id⟩, false⟩ e.st.lastLogId ∈ cs := by
    unfold Eng.tickElection at h1
    rw [if_neg hs, if_neg (by simp [hm]), if_neg (by simp)] at h1
    have h1 : (if (decide (e.st.ms.effective.mem.voterIds.length = 1) || e.st.vote.isExpired now (electAfter e)) = true then
        Eng.elect dbg now { e with seenGreater := false } else pure e) = .ok e1 := h1
    rw [if_pos (by rw [hx', Bool.or_true])] at h1
    obtain ⟨o, ho⟩ := Eng.asks_elect h1
    exact ⟨_, ho.trans (List.append_assoc _ _ _), List.mem_append_right _ (List.mem_singleton.2 rfl)⟩
  obtain ⟨cs, hcs, hm⟩ := m1
  have g : Grow e1 e' := by
    rw [bind_ok] at hr
    obtain ⟨e2, h2, hr⟩ := hr
    have k2 := Eng.grow_tickHeartbeat _ _ _ _ h2
    split at hr
    · exact k2.trans (Eng.grow_leaderStepDown _ _ hr)
    · rw [pure_ok] at hr; rw [← hr]; exact k2
  obtain ⟨ds, hds⟩ := g.2
  exact ⟨cs ++ ds, by rw [← hds, hcs, List.append_assoc], List.mem_append_left _ hm⟩

/-- **C65**, after a restart: a node that starts at time `now` does not by itself call an election before the election timeout is over. -/
theorem C65_restart (h : Hist dbg) {now j : Nat} {cfg : Cfg} {d : Disk} {s : Sm} (h0 : restart dbg now cfg d s = .ok (h.node 0))
    (ht : now ≤ h.time 0) (hj : TimesOut h j) (hv : (h.node j).eng.st.ms.effective.mem.voterIds.length ≠ 1) :
    now + electAfter (h.node j).eng < h.time j := by
  obtain ⟨u, hu, hl⟩ := h.touched_from (Nat.zero_le j) ht (touch_restart h0)
  obtain ⟨el, hb, iv, cs, v, last, m, ask⟩ := hj
  obtain ⟨_, _, _, c | c⟩ := C40_tick_decision (m.input (Or.inl (List.ne_nil_of_mem ask))) m.2.2 ask
  · exact absurd c hv
  · have := c u hl
    omega

/-! ## nothing else starts the timer -/

/-- a message that does not start the timer again, `cs` are the commands emitted: a leader that is behind, a refused vote, no call for
votes, an answer that is ignored, a refusal with a vote that is behind, a granted vote that does not yet make the node leader (so that
there are no commands), a vote that is behind; and everything that is not about votes -/
def Rests (e : Eng) (cs : List Cmd) : Input → Prop
  | .appendReq _ v _ _ _ => ¬ e.st.vote.data ≤ v
  | .snapReq _ v _ => ¬ e.st.vote.data ≤ v
  | .voteReq tx _ _ => ∃ c w l, .respond c tx (.vote w l false) ∈ cs
  | .init _ _ => ∀ v l, .sendVote v l ∉ cs
  | .electCmd => ∀ v l, .sendVote v l ∉ cs
  | .handleTransfer _ _ => ∀ v l, .sendVote v l ∉ cs
  | .tick _ _ _ => ∀ v l, .sendVote v l ∉ cs
  | .voteResp _ v _ granted sender => (e.candidate.isSome && e.voteMatch sender) = false ∨ (granted = false ∧ ¬ e.st.vote.data ≤ v) ∨
      granted = true ∧ e.candidate.map (·.vote) = some v ∧ cs = []
  | .higherVote v _ => ¬ e.st.vote.data ≤ v
  | _ => True

theorem updateVote_below {now : Nat} {e e1 : Eng} {v : Vote} {b : Bool} (hn : ¬ e.st.vote.data ≤ v) (h : e.updateVote dbg now v = .ok (b, e1)) :
    e1 = e ∧ b = false := by
  unfold Eng.updateVote at h
  rw [if_neg hn, pure_ok] at h
  cases h; exact ⟨rfl, rfl⟩

/-- such a message leaves the time of the vote -/
theorem Rests.kept {now : Nat} {e e' : Eng} {i : Input} {cs : List Cmd} (hr : e.input dbg now i = .ok e') (ho : e'.out = e.out ++ cs)
    (h : Rests e cs i) : e'.st.vote.lastUpdate = e.st.vote.lastUpdate := by
  have key : (∀ t, e.input dbg t i = e.input dbg now i) → e'.st.vote.lastUpdate = e.st.vote.lastUpdate :=
    fun hk => Eng.vtime_kept fun t => Eng.vtime_input (dbg := dbg) e i e' ((hk t).trans hr)
  have noElect : ∀ {e1 e2 : Eng}, e1.out = e.out → Eng.elect dbg now e1 = .ok e2 → Grow e2 e' → (∀ v l, .sendVote v l ∉ cs) → False := by
    intro e1 e2 h1 h2 g hn
    obtain ⟨o, ho2⟩ := Eng.asks_elect h2
    obtain ⟨ds, hds⟩ := g.2
    rw [← hds, ho2, h1, List.append_assoc, List.append_assoc] at ho
    have := List.append_cancel_left ho
    exact hn _ _ (this ▸ List.mem_append_right _ (List.mem_cons_self))
  cases i with
  | appendReq tx v prev es lc =>
    simp only [Eng.input, Eng.handleAppend] at hr
    rw [bind_ok] at hr
    obtain ⟨⟨r, e1⟩, h1, hr⟩ := hr
    unfold Eng.appendEntries at h1
    rw [bind_ok] at h1
    obtain ⟨⟨ok, e0⟩, h0, h1⟩ := h1
    obtain ⟨rfl, rfl⟩ := updateVote_below h h0
    dsimp only at h1
    rw [if_neg (by simp), pure_ok] at h1
    cases h1
    dsimp only at hr
    rw [if_neg (by simp), pure_ok] at hr
    rw [← hr]; rfl
  | snapReq tx v m =>
    simp only [Eng.input, Eng.handleInstall] at hr
    rw [bind_ok] at hr
    obtain ⟨⟨ok, e1⟩, h1, hr⟩ := hr
    obtain ⟨rfl, rfl⟩ := updateVote_below h h1
    dsimp only at hr
    rw [if_neg (by simp), pure_ok] at hr
    rw [← hr]; rfl
  | voteReq tx v last =>
    obtain ⟨c, w, l, hc⟩ := h
    simp only [Eng.input, Eng.coreVoteReq] at hr
    rw [bind_ok] at hr
    obtain ⟨⟨r, e1⟩, h1, hr⟩ := hr
    rw [pure_ok] at hr
    subst hr
    show e1.st.vote.lastUpdate = _
    unfold Eng.handleVoteReq at h1
    split at h1
    · rw [pure_ok] at h1; cases h1; rfl
    · split at h1
      · rw [bind_ok] at h1
        obtain ⟨⟨ok, e2⟩, h2, h1⟩ := h1
        rw [pure_ok] at h1; cases h1
        cases ok
        · unfold Eng.updateVote at h2
          split at h2
          · simp only [bind_ok, pure_ok] at h2
            obtain ⟨_, _, _, _, h2⟩ := h2
            cases h2
          · rw [pure_ok] at h2; cases h2; rfl
        · exfalso
          have L : Emits NoAns e e1 := Eng.emits_updateVote _ _ _ h2
          obtain ⟨ds, d1, d2⟩ := L
          have ho : e1.out ++ [_] = e.out ++ cs := ho
          rw [d1, List.append_assoc] at ho
          have := List.append_cancel_left ho
          rw [← this] at hc
          rcases List.mem_append.1 hc with hc | hc
          · have := d2 _ hc; cases this
          · cases List.mem_singleton.1 hc
      · rw [pure_ok] at h1; cases h1; rfl
  | init tx m =>
    simp only [Eng.input, Eng.coreInit] at hr
    rw [bind_ok] at hr
    obtain ⟨⟨ok, e1⟩, h1, hr⟩ := hr
    rw [pure_ok] at hr
    unfold Eng.initCluster at h1
    split at h1
    · rw [pure_ok] at h1; cases h1; rw [← hr]; rfl
    · split at h1
      · rw [pure_ok] at h1; cases h1; rw [← hr]; rfl
      · exfalso
        simp only [bind_ok, pure_ok] at h1
        obtain ⟨_, _, e2, h2, e3, h3, h1⟩ := h1
        cases h1
        obtain ⟨o, ho2⟩ := Eng.asks_elect h3
        obtain ⟨ds, hds⟩ := (Eng.grow_fhDoAppend _ _ _ _ h2).2
        rw [← hr] at ho
        have ho : e1.out ++ [_] = e.out ++ cs := ho
        have hds : e.out ++ ds = e2.out := hds
        rw [ho2, ← hds] at ho
        simp only [List.append_assoc] at ho
        have := List.append_cancel_left ho
        exact h _ _ (this ▸ List.mem_append_right _ (List.mem_append_right _ (List.mem_cons_self)))
  | electCmd =>
    simp only [Eng.input, Eng.coreElect] at hr
    split at hr
    · exact (noElect (by exact rfl) hr (Grow.refl _) h).elim
    · rw [pure_ok] at hr; rw [← hr]
  | handleTransfer v target =>
    simp only [Eng.input, Eng.coreHandleTransfer] at hr
    split at hr
    · split at hr
      · exact (noElect (by exact rfl) hr (Grow.refl _) h).elim
      · rw [pure_ok] at hr; rw [← hr]; rfl
    · rw [pure_ok] at hr; rw [← hr]
  | tick el hb iv =>
    simp only [Eng.input, Eng.coreTick] at hr
    rw [bind_ok] at hr
    obtain ⟨e1, h1, hr⟩ := hr
    have g : Grow e1 e' ∧ ∀ t, VTime t e1 e' := by
      rw [bind_ok] at hr
      obtain ⟨e2, h2, hr⟩ := hr
      have k2 := Eng.grow_tickHeartbeat _ _ _ _ h2
      have c2 := fun t => Eng.vtime_tickHeartbeat (t := t) _ _ _ _ h2
      split at hr
      · exact ⟨k2.trans (Eng.grow_leaderStepDown _ _ hr), fun t => (c2 t).trans (Eng.vtime_leaderStepDown _ _ hr)⟩
      · rw [pure_ok] at hr; rw [← hr]; exact ⟨k2, c2⟩
    have he1 : e1 = e := by
      unfold Eng.tickElection at h1
      split at h1
      · rw [pure_ok] at h1; exact h1.symm
      · split at h1
        · rw [pure_ok] at h1; exact h1.symm
        · split at h1
          · rw [pure_ok] at h1; exact h1.symm
          · have h1 : (if (decide (e.st.ms.effective.mem.voterIds.length = 1) || e.st.vote.isExpired now (electAfter e)) = true then
                Eng.elect dbg now { e with seenGreater := false } else pure e) = .ok e1 := h1
            split at h1
            · exact (noElect (by exact rfl) h1 g.1 h).elim
            · rw [pure_ok] at h1; exact h1.symm
    subst he1
    exact Eng.vtime_kept g.2
  | voteResp target v last granted sender =>
    have hq : _ ∨ _ ∨ _ := h
    clear h
    simp only [Eng.input] at hr
    split at hr
    · next hc =>
      rcases hq with hq | ⟨rfl, hq⟩ | ⟨rfl, hq, rfl⟩
      · rw [hq] at hc; cases hc
      · unfold Eng.handleVoteResp at hr
        split at hr
        · rw [pure_ok] at hr; rw [← hr]
        · rw [if_neg (by simp)] at hr
          dsimp only at hr
          rw [bind_ok] at hr
          obtain ⟨⟨b, e1⟩, h1, hr⟩ := hr
          rw [pure_ok] at hr
          have := (updateVote_below (by split <;> exact hq) h1).1
          rw [← hr, this]
          split <;> rfl
      · unfold Eng.handleVoteResp at hr
        split at hr
        · rw [pure_ok] at hr; rw [← hr]
        · next c hcc =>
          have hv : c.vote = v := by rw [hcc] at hq; exact Option.some.inj hq
          rw [if_pos (by simp [hv]), bind_ok] at hr
          obtain ⟨c1, _, hr⟩ := hr
          dsimp only at hr
          split at hr
          · unfold Eng.establishLeader at hr
            rw [bind_ok] at hr
            obtain ⟨_, _, hr⟩ := hr
            rw [bind_ok] at hr
            obtain ⟨o, _, hr⟩ := hr
            dsimp only at hr
            split at hr
            · rw [pure_ok] at hr; rw [← hr]
            · next l =>
              exfalso
              simp only [bind_ok] at hr
              obtain ⟨⟨b, e2⟩, h2, _, _, st, _, _, _, l3, _, hr⟩ := hr
              have g2 := (Eng.grow_updateVote _ _ _ h2).2.length_le
              have g3 := (Eng.grow_lhAppend _ _ _ _ hr).2.length_le
              have hlen := congrArg List.length ho
              simp only [Eng.rhRebuildStreams, Eng.push, List.length_append, List.length_cons, List.length_nil, id] at g2 g3 hlen
              omega
          · rw [pure_ok] at hr; rw [← hr]
    · rw [pure_ok] at hr; rw [← hr]
  | higherVote v sender =>
    simp only [Eng.input] at hr
    split at hr
    · rw [bind_ok] at hr
      obtain ⟨⟨b, e1⟩, h1, hr⟩ := hr
      rw [pure_ok] at hr
      obtain ⟨rfl, _⟩ := updateVote_below h h1
      rw [← hr]
    · rw [pure_ok] at hr; rw [← hr]
  | _ => exact key fun _ => rfl

/-- the `k`-th event does not start the timer again: a message or the node's own vote as above, or any other event -/
def RestsAt (h : Hist dbg) (k : Nat) : Prop :=
  match h.ev k with
  | .msg _ i => ∃ cs, (h.node (k + 1)).eng.out = (h.node k).eng.out ++ cs ∧ Rests (h.node k).eng cs i
  | .note _ => ∀ w xs, (h.node k).rx = .selfVote w :: xs → ∃ cs, (h.node (k + 1)).eng.out = (h.node k).eng.out ++ cs ∧
      Rests (h.node k).eng cs (.voteResp (h.node k).eng.cfg.id w none true w)
  | _ => True

theorem RestsAt.kept {h : Hist dbg} {k : Nat} (hk : RestsAt h k) :
    (h.node (k + 1)).eng.st.vote.lastUpdate = (h.node k).eng.st.vote.lastUpdate := by
  have hs := h.step k
  have hc := fun t => h.clock k t
  unfold RestsAt at hk
  generalize h.node k = n at *
  generalize h.node (k + 1) = n' at *
  generalize h.time k = t0 at *
  have key : ∀ {now : Nat} {i : Input} {e' : Eng}, Rests n.eng [] i → (∀ cs, Rests n.eng [] i → Rests n.eng cs i) →
      n.eng.input dbg now i = .ok e' → e'.st.vote.lastUpdate = n.eng.st.vote.lastUpdate := by
    intro now i e' h1 h2 h3
    obtain ⟨cs, hcs⟩ := (Eng.grow_input _ i e' h3).2
    exact Rests.kept h3 hcs.symm (h2 cs h1)
  generalize h.ev k = ev at *
  cases ev with
  | msg now i =>
    obtain ⟨cs, h1, h2⟩ := hk
    simp only [Node.step] at hs
    split at hs
    · simp only [out_bind, lift_ok, out_pure] at hs
      obtain ⟨e, he, rfl⟩ := hs
      exact Rests.kept he h1 h2
    · rw [out_pure] at hs; subst hs; rfl
  | write now tx p =>
    simp only [Node.step] at hs
    split at hs
    · simp only [out_bind, lift_ok, out_pure] at hs
      obtain ⟨⟨o, e⟩, he, rfl⟩ := hs
      have k := key (now := now) (i := .write p) (e' := e) trivial (fun _ _ => trivial) (by simp only [Eng.input]; rw [he]; rfl)
      cases o <;> exact k
    · rw [out_pure] at hs; subst hs; rfl
  | change now tx c r =>
    simp only [Node.step] at hs
    split at hs
    · simp only [out_bind, lift_ok, out_pure] at hs
      obtain ⟨⟨o, e⟩, he, rfl⟩ := hs
      have k := key (now := now) (i := .change c r) (e' := e) trivial (fun _ _ => trivial) (by simp only [Eng.input]; rw [he]; rfl)
      cases o <;> exact k
    · rw [out_pure] at hs; subst hs; rfl
  | note now =>
    simp only [Node.step] at hs
    split at hs
    · split at hs
      · rw [out_pure] at hs; subst hs; rfl
      · next x xs hx =>
        cases x <;> simp only [Node.handle, out_bind, lift_ok, out_pure] at hs <;> obtain ⟨e, he, rfl⟩ := hs
        case applied last es =>
          rw [(VInv.answer_same es _).1]
          exact key (i := .applied last) trivial (fun _ _ => trivial) he
        case selfVote w =>
          obtain ⟨cs, h1, h2⟩ := hk w xs hx
          exact Rests.kept he h1 h2
        case localIO io => exact key (i := .localIO io) trivial (fun _ _ => trivial) he
        case built m => exact key (i := .built m) trivial (fun _ _ => trivial) he
        case installed io m => exact key (i := .installed io m) trivial (fun _ _ => trivial) he
    · rw [out_pure] at hs; subst hs; rfl
  | run => exact Eng.vtime_kept fun t => vtime_step (t := t) (fun x hx => by cases hx) hs
  | flush => exact Eng.vtime_kept fun t => vtime_step (t := t) (fun x hx => by cases hx) hs
  | sm => exact Eng.vtime_kept fun t => vtime_step (t := t) (fun x hx => by cases hx) hs
  | build m => exact Eng.vtime_kept fun t => vtime_step (t := t) (fun x hx => by cases hx) hs

/-- **C65**, the timer is not put off: if after the `i`-th event nothing starts the timer again, neither refused candidates nor leaders
that are behind nor anything else, then a voter that is not the leader calls an election at the first tick after its lease and its timeout. -/
theorem C65_fires (h : Hist dbg) {i j : Nat} (hij : i < j) (hi : Rewinds h i) (hr : ∀ k, i < k → k < j → RestsAt h k) {hb : Bool} {iv : Nat}
    (hev : h.ev j = .msg (h.time j) (.tick true hb iv)) (hid : (h.node j).idle = true)
    (hs : (h.node j).eng.st.server ≠ .leader) (hm : (h.node j).eng.st.ms.effective.mem.isVoter (h.node j).eng.cfg.id = true)
    (ht : h.time i + (h.node j).eng.st.vote.lease + electAfter (h.node j).eng < h.time j) : TimesOut h j := by
  have hl : (h.node j).eng.st.vote.lastUpdate = some (h.time i) := by
    clear hev hid hs hm ht
    induction j with
    | zero => omega
    | succ j ih =>
      rcases Nat.lt_or_ge i j with h1 | h1
      · exact (hr j h1 (by omega)).kept.trans (ih h1 fun k a b => hr k a (by omega))
      · obtain rfl : j = i := by omega
        exact hi.touch
  have hst := h.step j
  rw [hev] at hst
  simp only [Node.step, hid, external, Bool.and_self, if_true, out_bind, lift_ok, out_pure] at hst
  obtain ⟨e, he, hst⟩ := hst
  obtain ⟨cs, h1, h2⟩ := C65_calls hs hm (fun u hu => by rw [hl] at hu; cases hu; exact ht) he
  exact ⟨true, hb, iv, cs, _, _, ⟨hev, hid, by rw [← hst]; exact h1⟩, h2⟩

/-! ### a run

Node 1 hears from leader 2 at time 1; its lease is 5, its election timeout 10. A tick at 16 does nothing, the tick at 17 calls an
election. A tick at 27 does nothing, the tick at 28 calls the next election. -/

/-- the run -/
def l65 : List (Nat × Ev) :=
  [(1, .msg 1 i1), (2, .run), (2, .run), (2, .flush), (3, .note 3), (3, .note 3), (4, .note 4), (5, .run),
   (16, .msg 16 (.tick true true 1)), (17, .msg 17 (.tick true true 1)), (17, .run), (17, .run), (17, .flush), (17, .run), (18, .note 18), (18, .note 18),
   (18, .note 18), (27, .msg 27 (.tick true true 1)), (28, .msg 28 (.tick true true 1))]
theorem l65_ok : histB true (Node.fresh Demo.cfg 0) l65 40 = true := by decide +kernel
/-- its history -/
def h65 : Hist true := histOf true (Node.fresh Demo.cfg 0) l65 40 l65_ok

theorem h65_9 : TimesOut h65 9 :=
  ⟨true, true, 1, [.saveVote ⟨⟨2, 1⟩, false⟩, .sendVote ⟨⟨2, 1⟩, false⟩ (some (lid 1 2 1))], _, _,
    ⟨rfl, by decide +kernel, by decide +kernel⟩, List.mem_cons_of_mem _ (List.mem_singleton.2 rfl)⟩
theorem h65_18 : TimesOut h65 18 :=
  ⟨true, true, 1, [.saveVote ⟨⟨3, 1⟩, false⟩, .sendVote ⟨⟨3, 1⟩, false⟩ (some (lid 1 2 1))], _, _,
    ⟨rfl, by decide +kernel, by decide +kernel⟩, List.mem_cons_of_mem _ (List.mem_singleton.2 rfl)⟩
theorem h65_0 : Rewinds h65 0 :=
  .append 7 v2 none _ none ((h65.node 1).eng.out) ⟨rfl, by decide +kernel, by decide +kernel⟩ (by decide +kernel)

/-- the leader is heard at time 1, the first election is called at time 17 -/
example : 1 + electAfter (h65.node 9).eng < 17 := C65_quiet h65 (i := 0) (j := 9) (by omega) h65_0 h65_9 (by decide +kernel)
/-- the elections are called at times 17 and 28, with a timeout of 10; the ticks at 16 and 27 changed nothing -/
example : 17 + (h65.node 18).eng.cfg.electionTimeout < 28 ∧ (h65.node 18).eng.cfg.electionTimeout = 10 ∧
    (h65.node 9).eng.st = (h65.node 8).eng.st ∧ (h65.node 18).eng.st = (h65.node 17).eng.st :=
  ⟨C65_spaced h65 (i := 9) (j := 18) (by omega) h65_9 h65_18 (by decide +kernel), by decide +kernel, by decide +kernel, by decide +kernel⟩
/-- up to time 5 the leader was heard in time -/
example : ∀ j, 1 ≤ j → j < 8 → ¬ TimesOut h65 j :=
  C65_followed h65 (fun j h1 h2 => ⟨0, by omega, h65_0, by
      have : j = 1 ∨ j = 2 ∨ j = 3 ∨ j = 4 ∨ j = 5 ∨ j = 6 ∨ j = 7 := by omega
      rcases this with rfl | rfl | rfl | rfl | rfl | rfl | rfl <;> decide +kernel⟩) (fun j h1 h2 => by
      have : j = 1 ∨ j = 2 ∨ j = 3 ∨ j = 4 ∨ j = 5 ∨ j = 6 ∨ j = 7 := by omega
      rcases this with rfl | rfl | rfl | rfl | rfl | rfl | rfl <;> decide +kernel)
/-- the tick at time 28, from the side of `C65_calls` -/
example : ∃ e' cs, (h65.node 18).eng.input true 28 (.tick true true 1) = .ok e' ∧ e'.out = (h65.node 18).eng.out ++ cs ∧
    .sendVote ⟨⟨3, 1⟩, false⟩ (some (lid 1 2 1)) ∈ cs := by
  have hr : (h65.node 18).eng.input true 28 (.tick true true 1) = .ok (Engine.Demo.after 28 (h65.node 18).eng (.tick true true 1)) :=
    Engine.Demo.after_ok (by decide +kernel)
  obtain ⟨cs, h1, h2⟩ := C65_calls (by decide +kernel) (by decide +kernel) (by
    intro u hu
    have : u = 17 := Option.some.inj (hu.symm.trans (by decide +kernel))
    subst this
    decide +kernel) hr
  exact ⟨_, cs, hr, h1, h2⟩

/-- Node 1 hears leader 2 at time 1. At time 10 node 3 asks for its vote with a log that is behind and at time 12 a leader of term 0 sends
a message; both are refused. The tick at 17 calls an election. -/
def l65d : List (Nat × Ev) :=
  [(1, .msg 1 i1), (2, .run), (2, .run), (2, .flush), (3, .note 3), (3, .note 3), (4, .note 4), (5, .run),
   (10, .msg 10 (.voteReq 8 ⟨⟨5, 3⟩, false⟩ none)), (10, .run), (12, .msg 12 (.appendReq 9 ⟨⟨0, 3⟩, true⟩ none [] none)), (12, .run),
   (17, .msg 17 (.tick true true 1))]
/-- its history -/
def h65d : Hist true := histOf true (Node.fresh Demo.cfg 0) l65d 40 (by decide +kernel)

theorem h65d_rests : ∀ k, 0 < k → k < 12 → RestsAt h65d k := by
  intro k h0 h1
  have : k = 1 ∨ k = 2 ∨ k = 3 ∨ k = 4 ∨ k = 5 ∨ k = 6 ∨ k = 7 ∨ k = 8 ∨ k = 9 ∨ k = 10 ∨ k = 11 := by omega
  have no : ∀ {n : Node}, (n.rx.head?.map fun x => match x with | .selfVote _ => true | _ => false) ≠ some true → ∀ w xs, n.rx = .selfVote w :: xs →
      False := by
    intro n hn w xs hx
    rw [hx] at hn; exact absurd rfl hn
  rcases this with rfl | rfl | rfl | rfl | rfl | rfl | rfl | rfl | rfl | rfl | rfl
  · exact trivial
  · exact trivial
  · exact trivial
  · exact fun w xs hx => (no (by decide +kernel) w xs hx).elim
  · exact fun w xs hx => by
      have : (h65d.node 5).eng.candidate.isSome = false := by decide +kernel
      exact ⟨[], by decide +kernel, Or.inl (by rw [this]; rfl)⟩
  · exact fun w xs hx => (no (by decide +kernel) w xs hx).elim
  · exact trivial
  · exact ⟨[.respond (some (.ioFlushed (IOId.new v2))) 8 (.vote v2 (some (lid 1 2 1)) false)], by decide +kernel,
      ⟨_, _, _, List.mem_singleton.2 rfl⟩⟩
  · exact trivial
  · exact ⟨[.respond none 9 (.append (.higherVote v2) ⟨⟨0, 3⟩, true⟩ none)], by decide +kernel, by
      show ¬ (h65d.node 10).eng.st.vote.data ≤ _
      decide +kernel⟩
  · exact trivial

example : TimesOut h65d 12 :=
  C65_fires h65d (i := 0) (j := 12) (by omega) (.append 7 v2 none _ none ((h65d.node 1).eng.out) ⟨rfl, by decide +kernel, by decide +kernel⟩ (by decide +kernel))
    h65d_rests rfl (by decide +kernel) (by decide +kernel) (by decide +kernel) (by decide +kernel)

/-- also the second election of `h65`, where the candidate counts its own vote and gets a tick in between -/
example : TimesOut h65 18 := by
  refine C65_fires h65 (i := 9) (j := 18) (by omega) (.call (.tick true true 1)
    [.saveVote ⟨⟨2, 1⟩, false⟩, .sendVote ⟨⟨2, 1⟩, false⟩ (some (lid 1 2 1))] _ _ (Or.inl ⟨_, _, _, rfl⟩) ⟨rfl, by decide +kernel, by decide +kernel⟩
    (List.mem_cons_of_mem _ (List.mem_singleton.2 rfl))) ?_ rfl (by decide +kernel) (by decide +kernel) (by decide +kernel) (by decide +kernel)
  intro k h0 h1
  have : k = 10 ∨ k = 11 ∨ k = 12 ∨ k = 13 ∨ k = 14 ∨ k = 15 ∨ k = 16 ∨ k = 17 := by omega
  have no : ∀ {n : Node}, (n.rx.head?.map fun x => match x with | .selfVote _ => true | _ => false) ≠ some true → ∀ w xs, n.rx = .selfVote w :: xs →
      False := by
    intro n hn w xs hx
    rw [hx] at hn; exact absurd rfl hn
  rcases this with rfl | rfl | rfl | rfl | rfl | rfl | rfl | rfl
  · exact trivial
  · exact trivial
  · exact trivial
  · exact trivial
  · exact fun w xs hx => (no (by decide +kernel) w xs hx).elim
  · intro w xs hx
    have hw : (h65.node 15).rx.head? = some (.selfVote ⟨⟨2, 1⟩, false⟩) := by decide +kernel
    rw [hx] at hw
    cases hw
    exact ⟨[], by decide +kernel, Or.inr (Or.inr ⟨rfl, by decide +kernel, rfl⟩)⟩
  · exact fun w xs hx => (no (by decide +kernel) w xs hx).elim
  · exact ⟨[], by decide +kernel, fun _ _ h => by cases h⟩

/-- node 1 crashes after it has heard the leader and starts again at time 9 -/
def n65 : Node := reborn true 9 Demo.cfg (h65.node 8) 0
/-- it gets ticks at 19 and 20 -/
def l65b : List (Nat × Ev) := [(19, .msg 19 (.tick true true 1)), (20, .msg 20 (.tick true true 1))]
/-- its history -/
def h65b : Hist true := histOf true n65 l65b 40 (by decide +kernel)
example : 9 + electAfter (h65b.node 1).eng < 20 ∧ electAfter (h65b.node 1).eng = 10 :=
  ⟨C65_restart h65b (now := 9) (j := 1) (cfg := Demo.cfg) (d := (h65.node 8).crashDisk 0) (s := (h65.node 8).sm)
    (reborn_ok (by decide +kernel)) (by decide +kernel)
    ⟨true, true, 1, [.saveVote ⟨⟨2, 1⟩, false⟩, .sendVote ⟨⟨2, 1⟩, false⟩ (some (lid 1 2 1))], _, _,
      ⟨rfl, by decide +kernel, by decide +kernel⟩, List.mem_cons_of_mem _ (List.mem_singleton.2 rfl)⟩ (by decide +kernel), by decide +kernel⟩

/-! ### a single voter -/

/-- node 1 alone, initialised at time 1; at times 2, 3 and 4 a tick is handled before the vote it gave to itself is counted. The
ticks are already in the channel when the vote is saved. -/
def l65c : List (Nat × Ev) :=
  [(1, .msg 1 (.init 7 m1)), (1, .run), (1, .flush), (1, .run), (1, .run), (1, .note 1), (1, .run), (1, .note 1),
   (2, .msg 2 (.tick true true 1)), (2, .run), (2, .run), (2, .note 2), (2, .note 2),
   (3, .msg 3 (.tick true true 1)), (3, .run), (3, .run), (3, .note 3), (3, .note 3),
   (4, .msg 4 (.tick true true 1)), (4, .run), (4, .run), (4, .note 4), (4, .note 4), (4, .note 4)]
/-- its history -/
def h65c : Hist true := histOf true (Node.fresh Demo.cfg 0) l65c 40 (by decide +kernel)

/-- a tick of `h65c` that calls an election -/
theorem h65c_out {k : Nat} (t : Nat) (hev : h65c.ev k = .msg (h65c.time k) (.tick true true 1)) (hid : (h65c.node k).idle = true)
    (ho : (h65c.node (k + 1)).eng.out = (h65c.node k).eng.out ++ [.saveVote ⟨⟨t, 1⟩, false⟩, .sendVote ⟨⟨t, 1⟩, false⟩ (some (lid 0 0 0))]) :
    TimesOut h65c k :=
  ⟨true, true, 1, _, _, _, ⟨hev, hid, ho⟩, List.mem_cons_of_mem _ (List.mem_singleton.2 rfl)⟩

/-- **C65 needs more than one voter.** The only voter calls an election at every tick until it is the leader: at times 2, 3 and 4 with an
election timeout of 10. Each election makes the vote that the node gave itself in the election before obsolete, so if saving a vote
takes longer than the time between two ticks, the elections go on: here none of the first three makes it leader, and the fourth does only because
no tick comes in between. -/
theorem C65_single : (TimesOut h65c 8 ∧ TimesOut h65c 13 ∧ TimesOut h65c 18) ∧
    (h65c.time 8 = 2 ∧ h65c.time 13 = 3 ∧ h65c.time 18 = 4 ∧ (h65c.node 18).eng.cfg.electionTimeout = 10) ∧
    (h65c.node 23).eng.leader.isNone ∧ (h65c.node 24).eng.leader.isSome ∧ (h65c.node 24).eng.st.vote.data = ⟨⟨4, 1⟩, true⟩ :=
  ⟨⟨h65c_out 2 rfl (by decide +kernel) (by decide +kernel), h65c_out 3 rfl (by decide +kernel) (by decide +kernel),
    h65c_out 4 rfl (by decide +kernel) (by decide +kernel)⟩, by decide +kernel, by decide +kernel, by decide +kernel, by decide +kernel⟩

/-- **C65**, a single voter, the reason: for every state, a tick of the only voter that is not yet the leader calls a new election, and after it
every answer to the elections before, also the node's own vote, is ignored. -/
theorem C65_obsolete {now now' : Nat} {e e' : Eng} {hb : Bool} {iv : Nat} (hs : e.st.server ≠ .leader)
    (hm : e.st.ms.effective.mem.isVoter e.cfg.id = true) (h1v : e.st.ms.effective.mem.voterIds.length = 1)
    (hr : e.input dbg now (.tick true hb iv) = .ok e') :
    (∃ cs, e'.out = e.out ++ cs ∧ .sendVote ⟨⟨e.st.vote.data.leaderId.term + 1, e.cfg.id⟩, false⟩ e.st.lastLogId ∈ cs) ∧
    ∀ target v last granted sender, sender.committed = false → sender ≤ e.st.vote.data →
      e'.input dbg now' (.voteResp target v last granted sender) = .ok e' := by
  simp only [Eng.input, Eng.coreTick] at hr
  rw [bind_ok] at hr
  obtain ⟨e1, h1, hr⟩ := hr
  have h1' : Eng.elect dbg now { e with seenGreater := false } = .ok e1 := by
    unfold Eng.tickElection at h1
    rw [if_neg hs, if_neg (by simp [hm]), if_neg (by simp)] at h1
    have h1 : (if (decide (e.st.ms.effective.mem.voterIds.length = 1) || e.st.vote.isExpired now (electAfter e)) = true then
        Eng.elect dbg now { e with seenGreater := false } else pure e) = .ok e1 := h1
    rwa [if_pos (by simp [h1v])] at h1
  have g : Grow e1 e' ∧ Keep e1 e' := by
    rw [bind_ok] at hr
    obtain ⟨e2, h2, hr⟩ := hr
    have k2 := Eng.grow_tickHeartbeat _ _ _ _ h2
    have c2 := Eng.keep_tickHeartbeat _ _ _ _ h2
    split at hr
    · exact ⟨k2.trans (Eng.grow_leaderStepDown _ _ hr), c2.trans (Eng.keep_leaderStepDown _ _ hr)⟩
    · rw [pure_ok] at hr; rw [← hr]; exact ⟨k2, c2⟩
  constructor
  · obtain ⟨o, ho⟩ := Eng.asks_elect h1'
    obtain ⟨ds, hds⟩ := g.1.2
    refine ⟨o ++ [_] ++ ds, ?_, List.mem_append_left _ (List.mem_append_right _ (List.mem_singleton.2 rfl))⟩
    rw [← hds, ho]
    simp only [List.append_assoc]
    rfl
  · intro target v last granted sender hc hle
    have hcand : e'.candidate = none ∨ ∃ c, e'.candidate = some c ∧ c.vote = Vote.new (e.st.vote.data.leaderId.term + 1) e.cfg.id := by
      have k1 : e1.candidate = none ∨ ∃ c, e1.candidate = some c ∧ c.vote = Vote.new (e.st.vote.data.leaderId.term + 1) e.cfg.id := by
        unfold Eng.elect at h1'
        simp only [bind_ok] at h1'
        obtain ⟨⟨ok, e2⟩, he2, _, _, h1'⟩ := h1'
        rw [pure_ok] at h1'
        have hk := Eng.keep_updateVote _ _ _ he2
        subst h1'
        rcases hk with hk | hk
        · exact Or.inr ⟨_, hk, rfl⟩
        · exact Or.inl hk
      rcases g.2 with g | g
      · rw [g]; exact k1
      · exact Or.inl g
    simp only [Eng.input]
    rw [if_neg]
    · rfl
    · unfold Eng.voteMatch
      rw [hc]
      rcases hcand with h | ⟨c, h, hv⟩
      · rw [h]; simp
      · rw [h]
        simp only [Option.isSome_some, Bool.true_and, Option.map_some, hv]
        intro hx
        have hx : Vote.new (e.st.vote.data.leaderId.term + 1) e.cfg.id = sender := by simpa using hx
        rw [← hx] at hle
        exact absurd hle (not_le_of_gt (Eng.vote_lt_new _))

/-- the tick at time 3 of `h65c`; the node's own vote of term 2 comes after it -/
example : (h65c.node 13).rx = [.selfVote ⟨⟨2, 1⟩, false⟩] ∧ ∀ now' target v last granted,
    (h65c.node 14).eng.input true now' (.voteResp target v last granted ⟨⟨2, 1⟩, false⟩) = .ok (h65c.node 14).eng := by
  have m : HandlesAt h65c 13 (.tick true true 1) [.saveVote ⟨⟨3, 1⟩, false⟩, .sendVote ⟨⟨3, 1⟩, false⟩ (some (lid 0 0 0))] :=
    ⟨rfl, by decide +kernel, by decide +kernel⟩
  exact ⟨by decide +kernel, fun now' target v last granted => (C65_obsolete (now' := now') (by decide +kernel) (by decide +kernel) (by decide +kernel)
    (m.input (Or.inl (by simp)))).2 target v last granted _ rfl (by decide +kernel)⟩

end Openraft.Props
