import Verif.Engine.SafeStep
import Verif.Runtime.Life

/-!
# A node whose messages do not abort it

The engine of a running node stays ready for its next input (`Ln`), and the notifications that come from
the node's own storage and state machine are ones it can take.
-/

set_option autoImplicit false

namespace Openraft.Runtime
open Openraft.Engine Openraft.LogIdList
open Openraft.Repl (Panic dassert)
open Openraft.Cluster (Payload)

/-- what a peer, a client or an administrator must not do to a node: see `InputSafe` -/
def EvSafe (n : Node) : Ev → Prop
  | .msg _ i => external i = true → InputSafe n.eng i
  | _ => True

/-- the life of a node (`Life`) in a release build in which all messages are `EvSafe` -/
inductive SafeLife (cfg : Cfg) : List Resp → Node → Prop
  | fresh (now : Nat) (persist : Bool) : SafeLife cfg [] (Node.fresh cfg now persist)
  | step {old : List Resp} {n n' : Node} (ev : Ev) : SafeLife cfg old n → EvOk n ev → EvSafe n ev → n.step false ev = .ok n' →
      SafeLife cfg old n'
  | crash {old : List Resp} {n n' : Node} (k now : Nat) : SafeLife cfg old n → Fits (n.crashDisk k) n.sm.reboot →
      restart false now cfg (n.crashDisk k) n.sm = .ok n' → SafeLife cfg (old ++ n.sent.map (·.2.2)) n'

theorem SafeLife.life {cfg : Cfg} {old : List Resp} {n : Node} (h : SafeLife cfg old n) : Life false cfg old n := by
  induction h with
  | fresh now persist => exact .fresh now persist
  | step ev _ ho _ hs ih => exact .step ev ih ho hs
  | crash k now _ hf hr ih => exact .crash k now ih hf hr

namespace RInv
variable {g0 : Gh} {a0 : IOId} {s0 c0 : Option LogId} {P S : List Cmd} {n n' : Node}

/-- a report of the log store is not beyond the log -/
theorem noteSafe (h : RInv g0 a0 s0 c0 P S n) {f : IOId} (hf : Note.localIO f ∈ n.rx) : InputSafe n.eng (.localIO f) := by
  intro hc hm
  obtain ⟨_, hr⟩ := h.f.local_ f hf
  rcases hr with hr | ⟨c, hc1, hc2⟩
  · rw [hr]; exact Nat.zero_le _
  · unfold Eng.voteMatch at hm
    rw [if_pos hc] at hm
    cases hl : n.eng.leader with
    | none => rw [hl] at hm; cases hm
    | some l =>
      rw [hl] at hm
      have hv : l.vote = f.vote := by simpa using hm
      refine held_index h.flow.inv.lm (h.flow.lead l hl c ?_ f hc2 hv.symm)
      rw [h.rest]; exact List.mem_append_left _ hc1

/-- a vote of the node itself is not above its vote -/
theorem selfOk (h : RInv g0 a0 s0 c0 P S n) {v : Vote} (hv : Note.selfVote v ∈ n.rx) : v ≤ n.eng.st.vote.data := by
  have h1 := h.self v hv
  have h2 : (g0.runs P).vote ≤ (g0.runs n.eng.out).vote := by
    have := h.flow.oks
    rw [h.rest, List.append_assoc, Gh.oks_append] at this
    rw [h.rest, List.append_assoc, Gh.runs_append]
    exact Gh.vote_runs this.2
  rw [h.flow.inv.pj.gv] at h2
  exact le_trans h1 h2

/-- **Notifications do not abort the node.** -/
theorem note_total {now : Nat} (h : RInv g0 a0 s0 c0 P S n) (hn : Ln n.eng) {x : Note} {xs : List Note} (hx : n.rx = x :: xs) :
    ∃ n', Node.handle false now { n with rx := xs } x = .ok n' ∧ Ln n'.eng := by
  have hmem : x ∈ n.rx := by rw [hx]; simp
  have key : ∀ i, InputOk n.eng i → InputSafe n.eng i → ∃ e, lift (n.eng.input false now i) = .ok e ∧ Ln e := by
    intro i ho hs
    obtain ⟨e, he, hl⟩ := Eng.input_total (now := now) h.flow.inv hn ho hs
    exact ⟨e, by rw [he]; rfl, hl⟩
  cases x with
  | localIO io =>
    obtain ⟨e, he, hl⟩ := key (.localIO io) (h.noteOk hmem) (h.noteSafe hmem)
    refine ⟨{ { n with rx := xs } with eng := e }, ?_, hl⟩
    simp only [Node.handle, out_bind, out_pure]
    exact ⟨e, he, rfl⟩
  | selfVote v =>
    obtain ⟨e, he, hl⟩ := key (.voteResp n.eng.cfg.id v none true v) (fun _ => h.selfOk hmem)
      (fun c hc _ _ => (hn.cand c hc).voter)
    refine ⟨{ { n with rx := xs } with eng := e }, ?_, hl⟩
    simp only [Node.handle, out_bind, out_pure]
    exact ⟨e, he, rfl⟩
  | built m =>
    have hb := h.s.built m hmem
    have hval : ComVal g0 n.eng.out m.lastLogId := by rw [h.rest]; exact hb.1.append
    obtain ⟨e, he, hl⟩ := key (.built m) (h.flow.builtOk hval) trivial
    refine ⟨{ { n with rx := xs } with eng := e }, ?_, hl⟩
    simp only [Node.handle, out_bind, out_pure]
    exact ⟨e, he, rfl⟩
  | installed io m =>
    obtain ⟨e, he, hl⟩ := key (.installed io m) trivial trivial
    refine ⟨{ { n with rx := xs } with eng := e }, ?_, hl⟩
    simp only [Node.handle, out_bind, out_pure]
    exact ⟨e, he, rfl⟩
  | applied l es =>
    obtain ⟨e, he, hl⟩ := key (.applied l) trivial trivial
    refine ⟨Node.answer { { n with rx := xs } with eng := e } es, ?_, ?_⟩
    · simp only [Node.handle, out_bind, out_pure]
      exact ⟨e, he, rfl⟩
    · rw [answer_eng]; exact hl
where
  answer_eng (n : Node) (es : List Ent) : (n.answer es).eng = n.eng := by
    induction es generalizing n with
    | nil => rfl
    | cons e es ih =>
      unfold Node.answer
      rw [ih]
      split <;> rfl

end RInv

/-- a command changes neither the leader nor the candidate nor the membership -/
theorem exec_ln {n n' : Node} {dbg : Bool} {c : Cmd} (h : Ln n.eng) (hr : n.exec dbg c = .ok n') : Ln n'.eng := by
  have hsub : ∀ {io : IOId} {n1 : Node}, n.submit dbg io = .ok n1 → Ln n1.eng := by
    intro io n1 h1
    simp only [Node.submit, out_bind, out_pure] at h1
    obtain ⟨p, _, rfl⟩ := h1
    exact h.same
  cases c with
  | updateIO v io =>
    simp only [Node.exec, out_bind, out_pure] at hr
    obtain ⟨n1, h1, rfl⟩ := hr
    have := hsub h1
    exact this
  | append v es =>
    simp only [Node.exec, out_bind, out_pure] at hr
    obtain ⟨_, _, n1, h1, rfl⟩ := hr
    have := hsub h1
    exact this
  | saveVote v =>
    simp only [Node.exec, out_bind, out_pure] at hr
    obtain ⟨n1, h1, rfl⟩ := hr
    have := hsub h1
    exact this
  | purge u => simp only [Node.exec, out_pure] at hr; subst hr; exact h.same
  | truncate s => simp only [Node.exec, out_pure] at hr; subst hr; exact h
  | saveCommitted c => simp only [Node.exec, out_pure] at hr; subst hr; exact h
  | sendVote v l => simp only [Node.exec, out_bind, out_pure] at hr; obtain ⟨_, _, rfl⟩ := hr; exact h
  | transfer v l t => simp only [Node.exec, out_bind, out_pure] at hr; obtain ⟨_, _, rfl⟩ := hr; exact h
  | replCommitted c => simp only [Node.exec, out_pure] at hr; subst hr; exact h
  | heartbeat v m c => simp only [Node.exec, out_pure] at hr; subst hr; exact h
  | apply a u =>
    simp only [Node.exec, out_bind, out_pure] at hr
    obtain ⟨_, _, _, _, rfl⟩ := hr
    exact h
  | replicate t i =>
    simp only [Node.exec] at hr
    split at hr
    · rw [out_pure] at hr; subst hr; exact h
    · cases hr
  | rebuild ts =>
    simp only [Node.exec, Node.rebuild, out_bind] at hr
    obtain ⟨_, _, hr⟩ := hr
    split at hr
    · rw [out_pure] at hr; subst hr; exact h
    · cases hr
  | sm c =>
    cases c with
    | install m io =>
      simp only [Node.exec, out_bind, out_pure] at hr
      obtain ⟨n1, h1, rfl⟩ := hr
      have := hsub h1
      exact this
    | build => simp only [Node.exec, out_pure] at hr; subst hr; exact h
    | apply f l => simp only [Node.exec, out_pure] at hr; subst hr; exact h
  | respond w tx r => simp only [Node.exec, out_pure] at hr; subst hr; exact h

/-- **Handling a message, a client's request or a notification does not abort the node.** -/
theorem take_total {g0 : Gh} {a0 : IOId} {s0 c0 : Option LogId} {P S : List Cmd} {n : Node} {ev : Ev}
    (h : RInv g0 a0 s0 c0 P S n) (hn : Ln n.eng) (ho : EvOk n ev) (hs : EvSafe n ev)
    (ht : ev ≠ .run ∧ ev ≠ .sm) : ∃ n', n.step false ev = .ok n' ∧ Ln n'.eng := by
  have hreg : ∀ (n : Node) (tx : Nat) (o : Option Nat), (n.register tx o).eng = n.eng := by
    intro n tx o; cases o <;> rfl
  cases ev with
  | msg now i =>
    simp only [Node.step]
    split
    · next hi =>
      simp only [Bool.and_eq_true] at hi
      obtain ⟨e, he, hl⟩ := Eng.input_total (now := now) h.flow.inv hn ho (hs hi.2)
      refine ⟨{ n with eng := e }, ?_, hl⟩
      simp only [out_bind, lift_ok, out_pure]
      exact ⟨e, he, rfl⟩
    · exact ⟨n, rfl, hn⟩
  | write now tx p =>
    simp only [Node.step]
    split
    · obtain ⟨⟨i, e⟩, he, hl⟩ := Eng.g_writeEntry h.flow.inv hn p
      refine ⟨Node.register { n with eng := e } tx i, ?_, by rw [hreg]; exact hl⟩
      simp only [out_bind, lift_ok, out_pure]
      exact ⟨(i, e), he, rfl⟩
    · exact ⟨n, rfl, hn⟩
  | change now tx c r =>
    simp only [Node.step]
    split
    · have hg : G Prod.snd (n.eng.changeMembership false c r) := by
        unfold Eng.changeMembership
        split
        · exact G.pure hn
        · exact Eng.g_writeEntry h.flow.inv hn _
      obtain ⟨⟨i, e⟩, he, hl⟩ := hg
      refine ⟨Node.register { n with eng := e } tx i, ?_, by rw [hreg]; exact hl⟩
      simp only [out_bind, lift_ok, out_pure]
      exact ⟨(i, e), he, rfl⟩
    · exact ⟨n, rfl, hn⟩
  | note now =>
    simp only [Node.step]
    split
    · cases hx : n.rx with
      | nil => exact ⟨n, rfl, hn⟩
      | cons x xs => exact h.note_total hn hx
    · exact ⟨n, rfl, hn⟩
  | run => exact absurd rfl ht.1
  | sm => exact absurd rfl ht.2
  | flush =>
    refine ⟨n.flush1, rfl, ?_⟩
    unfold Node.flush1
    split <;> exact hn
  | build k =>
    refine ⟨n.buildDone k, rfl, ?_⟩
    unfold Node.buildDone
    split <;> exact hn

theorem smStep_eng {n n' : Node} (hr : n.smStep = .ok n') : n'.eng = n.eng := by
  unfold Node.smStep at hr
  split at hr
  · rw [out_pure] at hr; subst hr; rfl
  · simp only at hr
    split at hr
    · rw [out_pure] at hr; subst hr; rfl
    · cases hr
  · rw [out_pure] at hr; subst hr; rfl
  · rw [out_pure] at hr; subst hr; rfl

/-- the engine of a node stays ready for its next input -/
theorem ln_step {g0 : Gh} {a0 : IOId} {s0 c0 : Option LogId} {P S : List Cmd} {n n' : Node} {ev : Ev}
    (h : RInv g0 a0 s0 c0 P S n) (hn : Ln n.eng) (ho : EvOk n ev) (hs : EvSafe n ev) (hr : n.step false ev = .ok n') : Ln n'.eng := by
  by_cases h1 : ev = .run
  · subst h1
    simp only [Node.step, Node.run1] at hr
    split at hr
    · rw [out_pure] at hr; subst hr; exact hn
    · split at hr
      · simp only [out_bind, out_pure] at hr
        obtain ⟨n1, k1, rfl⟩ := hr
        have := exec_ln hn k1
        exact this
      · rw [out_pure] at hr; subst hr; exact hn
  · by_cases h2 : ev = .sm
    · subst h2
      rw [smStep_eng hr]; exact hn
    · obtain ⟨n1, k1, k2⟩ := take_total h hn ho hs ⟨h1, h2⟩
      rw [hr] at k1
      cases k1; exact k2

/-- **Startup does not abort the node**: if what a crash left fits, the node starts and is ready. -/
theorem restart_total {d : Disk} {now : Nat} {cfg : Cfg} {s : Sm} (hd : DiskOk d) (hf : Fits d s.reboot) :
    ∃ n, restart false now cfg d s = .ok n ∧ Ln n.eng := by
  obtain ⟨st, store, s2, hi, hl⟩ := initialState_ok now hd hf
  obtain ⟨base, hst⟩ := hl.startOk (cfg := cfg) hd hf
  obtain ⟨e, he, hn⟩ := Eng.g_startup (now := now) hst
  unfold restart
  rw [hi]
  simp only [bind, Except.bind]
  rw [he]
  exact ⟨_, rfl, hn⟩

theorem SafeLife.ln {cfg : Cfg} {old : List Resp} {n : Node} (h : SafeLife cfg old n) : Ln n.eng := by
  induction h with
  | fresh now persist => exact Ln.free rfl rfl
  | @step old n n' ev hl ho hs hr ih =>
    obtain ⟨⟨g0, a0, s0, c0, P, S, hi⟩, _⟩ := hl.life.inv
    exact ln_step hi ih ho hs hr
  | @crash old n n' k now hl hf hr ih =>
    obtain ⟨⟨g0, a0, s0, c0, P, S, hi⟩, _⟩ := hl.life.inv
    obtain ⟨n1, k1, k2⟩ := restart_total (now := now) (cfg := cfg) (hi.crash_ok k) hf
    rw [hr] at k1
    cases k1; exact k2

end Openraft.Runtime
