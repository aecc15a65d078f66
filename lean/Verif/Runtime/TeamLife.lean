import Verif.Runtime.Know
import Verif.Runtime.Safe

/-!
# The life of a node with its replication tasks
-/

set_option autoImplicit false

namespace Openraft.Runtime
open Openraft.Engine
open Openraft.Repl (Inflight)
open Openraft.Engine.Eng (ReplResult Report.handle)

/-- a `RebuildReplicationStreams` -/
def Cmd.isRb : Cmd → Bool
  | .rebuild _ => true
  | _ => false

theorem isRb_iff {c : Cmd} : Cmd.isRb c = false ↔ c.noRb := by cases c <;> simp [Cmd.isRb, Cmd.noRb]

/-- no rebuild is issued while another one waits -/
def apart (n n' : Node) : Bool := !n.pending.any Cmd.isRb || (n'.eng.out.drop n.eng.out.length).all fun c => !Cmd.isRb c

/-- a target that takes entries answers with the log id before the range or with the one of an entry that was sent to it;
the entries are read from the log when they are sent, `send_log_entries`, `replication/mod.rs:376-411` -/
def AnsFrom (n : Node) (k : Task) (a : Ans) : Prop :=
  ∀ p q m, k.action = some (.logs p q) → a = .matched m → m = p ∨ ∃ e ∈ n.rd.entries, m = some e.id

/-- what may happen to a node and its tasks: messages as in `SafeLife`, except that reports of replication tasks are those of
the tasks; answers of the targets as in `AnsOk` and `AnsFrom` -/
def TOk (c : Team) : TEv → Prop
  | .node ev => EvOk c.n ev ∧ EvSafe c.n ev ∧ ∀ now s t r, ev ≠ .msg now (.replProgress s t r)
  | .act t a => ∀ k, c.task t = some k → AnsOk k a ∧ (c.n.eng.sessionMatch k.sess = true → AnsFrom c.n k a)
  | _ => True

/-- the life of a node with its tasks in a release build -/
inductive TeamLife (cfg : Cfg) : List Resp → Team → Prop
  | fresh (now : Nat) (persist : Bool) : TeamLife cfg [] ⟨Node.fresh cfg now persist, fun _ => none, fun _ => []⟩
  | step {old : List Resp} {c c' : Team} (ev : TEv) : TeamLife cfg old c → TOk c ev → c.step false ev = .ok c' → apart c.n c'.n = true →
      TeamLife cfg old c'
  | crash {old : List Resp} {c : Team} {n' : Node} (k now : Nat) : TeamLife cfg old c → Fits (c.n.crashDisk k) c.n.sm.reboot →
      restart false now cfg (c.n.crashDisk k) c.n.sm = .ok n' → TeamLife cfg (old ++ c.n.sent.map (·.2.2)) ⟨n', fun _ => none, fun _ => []⟩

theorem snap_com {g0 : Gh} {a0 : IOId} {s0 c0 : Option LogId} {P S : List Cmd} {n : Node} (h : RInv g0 a0 s0 c0 P S n) :
    Le2 n.sm.snap.lastLogId (g0.runs n.eng.out).com := by
  rcases h.s.snapV with h1 | h1
  · rw [h1]
    exact h.flow.snap0.trans ((ComVal.last g0 n.eng.out).ge h.flow.oks)
  · rw [h.rest]
    refine ComVal.le ?_ h1.append
    rw [← h.rest]; exact h.flow.oks

theorem snap_in_log {g0 : Gh} {a0 : IOId} {s0 c0 : Option LogId} {P S : List Cmd} {n : Node} (h : RInv g0 a0 s0 c0 P S n) :
    nextIndex n.sm.snap.lastLogId ≤ nextIndex n.eng.st.lastLogId := by
  have hc : nextIndex (g0.runs n.eng.out).com ≤ nextIndex n.eng.st.lastLogId := by
    rw [h.flow.inv.lm.log.com]; exact h.flow.inv.lm.log.com_le_last
  exact (snap_com h).next.trans hc

/-- what the leader needs to take the next report of a task -/
theorem TInv.report_safe {g : Gh} {e : Eng} {pd : List Cmd} {task : NodeId → Option Task} {past : NodeId → List Session} (h : TInv e pd task past) (hI : EInv g e)
    {t : NodeId} {k : Task} {r : ReplResult} {rs : List ReplResult} (hk : task t = some k) (hr : k.reports = r :: rs) : InputSafe e (.replProgress k.sess t r) := by
  intro hm
  have hcm := (h.tk t k hk).2.1
  obtain ⟨l, hl, _⟩ := (sessionMatch_iff hcm).1 hm
  rcases h.lead l hl with ⟨_, a2⟩ | ⟨_, _, _, _, _, _, _, _, _, b6⟩
  · obtain ⟨s1, F, s2, _⟩ := a2 t k hk hm
    refine ⟨hcm, s1, fun l' hl' => ?_⟩
    rw [hl] at hl'; cases hl'
    rw [hr] at s2
    cases s2 with
    | cons g1 _ _ =>
      cases r with
      | matching m => exact ⟨g1.1, by rw [← (hI.pj.lead l hl).last]; exact g1.2.1⟩
      | conflict c => exact g1
      | failed => trivial
  · have := (b6 t k hk).noMatch hI
    rw [hm] at this; cases this

theorem late_same {dbg : Bool} {now : Nat} {n n' : Node} {s : Session} {t : NodeId} {r : ReplResult} (hm : n.eng.sessionMatch s = false)
    (hr : n.step dbg (.msg now (.replProgress s t r)) = .ok n') : n' = n := by
  simp only [Node.step] at hr
  split at hr
  · simp only [out_bind, lift_ok, out_pure, Eng.input, Eng.coreReplProgress, hm] at hr
    obtain ⟨e, he, rfl⟩ := hr
    simp only [Bool.false_eq_true, if_false, pure_ok] at he
    rw [← he]
  · rw [out_pure] at hr; exact hr.symm

/-- a log id that is in the log, or not after the committed position, is known to the leader -/
theorem known_of_held {v : LogV} {g : Gh} {m : Option LogId} (h : LogJ v g) (hm : Held g m ∨ m ≤ g.com) : KnownO v m := by
  rintro x rfl
  rcases hm with hm | hm
  · rcases hm x rfl with h1 | ⟨h1, _⟩
    · left; rw [h.cpl]; simp [h1]
    · right
      rw [h.stp] at h1
      refine h1.trans ?_
      cases hp : v.lastPurged with
      | none => rw [hp] at h1; exact absurd h1 (by intro hx; cases hx)
      | some z =>
        have hz : z ∈ v.L := by rw [h.cpl, hp]; simp
        have hn : nextIndex (some z) ≤ nextIndex v.committed := by
          have h5 := h.ord1
          rw [h.pn, hp] at h5
          exact h5.trans (h.ord2.trans h.ord3)
        cases hc : v.committed with
        | none => rw [hc] at hn; simp at hn
        | some y =>
          rw [hc] at hn
          simp only [nextIndex_some] at hn
          exact (h.cons.le_iff hz (h.comIn y hc)).2 (by omega)
  · right; rw [← h.com]; exact hm

/-- the leader may take the next report of a task -/
theorem Know.report_ok {g0 : Gh} {n : Node} {task : NodeId → Option Task} {past : NodeId → List Session} (h : Know (g0.runs n.eng.out) n.eng task)
    (ht : TInv n.eng n.pending task past) (hI : EInv g0 n.eng) {now : Nat} {t : NodeId} {k : Task} {r : ReplResult} {rs : List ReplResult}
    (hk : task t = some k) (hr : k.reports = r :: rs) : EvOk n (.msg now (.replProgress k.sess t r)) := by
  show n.eng.sessionMatch k.sess = true → ∀ m, r = .matching m → KnownO n.eng.st.lv m
  rintro hm m rfl
  obtain ⟨l, hl, _⟩ := (sessionMatch_iff (ht.tk t k hk).2.1).1 hm
  refine known_of_held hI.lm.log ?_
  have hin : .matching m ∈ k.reports := by rw [hr]; simp
  rcases h.rep t k l hk hm hl with h1 | ⟨_, h1⟩
  · exact Or.inl (h1 m hin)
  · exact Or.inr (h1 m hin)

/-- the node's own step is one of `SafeLife` -/
def Safe1 (c : Team) (ev : TEv) : Prop :=
  ∀ c', c.step false ev = .ok c' → c'.n = c.n ∨ ∃ ev', EvOk c.n ev' ∧ EvSafe c.n ev' ∧ c.n.step false ev' = .ok c'.n

theorem TInv.safe1 {g : Gh} {c : Team} {ev : TEv} (h : TInv c.n.eng c.n.pending c.task c.past) (hI : EInv g c.n.eng) (hkn : Know (g.runs c.n.eng.out) c.n.eng c.task)
    (ho : TOk c ev) : Safe1 c ev := by
  intro c' hs
  cases ev with
  | node ev =>
    simp only [Team.step, out_bind] at hs
    obtain ⟨n', h1, hs⟩ := hs
    right
    refine ⟨ev, ho.1, ho.2.1, ?_⟩
    split at hs
    · next cmd _ =>
      rw [out_pure] at hs; subst hs
      have : (c.exec n' cmd).n = n' := by cases cmd <;> rfl
      rw [this]; exact h1
    · rw [out_pure] at hs; subst hs; exact h1
  | recv t =>
    left
    simp only [Team.step] at hs
    split at hs
    · rw [out_pure] at hs; subst hs; rfl
    · simp only [out_bind, out_pure] at hs
      obtain ⟨k', _, rfl⟩ := hs; rfl
  | act t a =>
    left
    simp only [Team.step] at hs
    split at hs
    · rw [out_pure] at hs; subst hs; rfl
    · simp only [out_bind, out_pure] at hs
      obtain ⟨k', _, rfl⟩ := hs; rfl
  | snap t r =>
    left
    simp only [Team.step] at hs
    split at hs <;> (rw [out_pure] at hs; subst hs; rfl)
  | report now t =>
    simp only [Team.step] at hs
    split at hs
    · rw [out_pure] at hs; subst hs; exact Or.inl rfl
    · next k hk =>
      split at hs
      · rw [out_pure] at hs; subst hs; exact Or.inl rfl
      · next r rs hrs =>
        split at hs
        · simp only [out_bind, out_pure] at hs
          obtain ⟨n', h1, rfl⟩ := hs
          exact Or.inr ⟨_, hkn.report_ok h hI hk hrs, fun _ => h.report_safe hI hk hrs, h1⟩
        · rw [out_pure] at hs; subst hs; exact Or.inl rfl
  | late now s t r =>
    left
    simp only [Team.step] at hs
    split at hs
    · next hp =>
      simp only [out_bind, out_pure] at hs
      obtain ⟨n', h1, rfl⟩ := hs
      exact late_same ((h.past t s hp).noMatch hI) h1
    · rw [out_pure] at hs; subst hs; rfl

theorem apart_iff {n n' : Node} {cs : List Cmd} (h : apart n n' = true) (ho : n'.eng.out = n.eng.out ++ cs) : (∀ c ∈ n.pending, c.noRb) ∨ ∀ c ∈ cs, c.noRb := by
  unfold apart at h
  rw [ho, List.drop_left, Bool.or_eq_true] at h
  rcases h with h | h
  · left
    intro c hc
    rw [← isRb_iff]
    simp only [Bool.not_eq_true', List.any_eq_false] at h
    simpa using h c hc
  · right
    intro c hc
    rw [← isRb_iff]
    rw [List.all_eq_true] at h
    simpa using h c hc

theorem given_note {n : Node} {ev : Ev} {i : Input} (hn : ∀ now s t r, ev ≠ .msg now (.replProgress s t r)) (hg : n.given ev = some i) :
    ∀ s t r, i ≠ .replProgress s t r := by
  intro s t r hi
  subst hi
  cases ev with
  | msg now j => cases hg; exact hn now s t r rfl
  | note now =>
    unfold Node.given at hg
    dsimp only at hg
    split at hg <;> cases hg
  | _ => cases hg

/-- the targets of a rebuild that is executed while none waits behind it are members -/
theorem rebuild_members {n : Node} {ts : List (NodeId × Repl.Entry)} {pd : List Cmd} (hs : NodeStr n) (hn : Ln n.eng) (hp : n.pending = .rebuild ts :: pd)
    {l : Leader} (hl : n.eng.leader = some l) (hpd : ∀ c ∈ pd, c.noRb) : ∀ t ∈ ts.map (·.1), n.eng.st.ms.effective.mem.Has t := by
  intro t ht
  have h1 := hs.eng.lead l hl t
  have h2 : n.eng.out = n.eng.out.take n.done ++ (.rebuild ts :: pd) := by
    rw [← hp]; exact (List.take_append_drop _ _).symm
  rw [h2, streams_append] at h1
  have h3 : streams (streams [] (n.eng.out.take n.done)) (.rebuild ts :: pd) = ts.map (·.1) := by
    show streams (ts.map (·.1)) pd = _
    exact streams_noRb hpd
  rw [h3] at h1
  exact ((hn.lead l hl).prog t).1 (h1.1 ht).1

/-- the invariant is kept -/
theorem TInv.step {cfg : Cfg} {old : List Resp} {c c' : Team} {ev : TEv} (hl : SafeLife cfg old c.n) (hl' : SafeLife cfg old c'.n)
    (h : TInv c.n.eng c.n.pending c.task c.past) (ho : TOk c ev) (hs : c.step false ev = .ok c') (ha : apart c.n c'.n = true) :
    TInv c'.n.eng c'.n.pending c'.task c'.past := by
  obtain ⟨⟨g0, a0, s0, c0, P, S, hi⟩, _⟩ := hl.life.inv
  obtain ⟨⟨g1, a1, s1, c1, P1, S1, hi'⟩, _⟩ := hl'.life.inv
  have hI := hi.flow.inv
  have hI' := hi'.flow.inv
  cases ev with
  | node ev =>
    simp only [Team.step, out_bind] at hs
    obtain ⟨n', h1, hs⟩ := hs
    by_cases hrun : ev = .run
    · subst hrun
      rcases run_view h1 with hnn | ⟨cmd, n1, k1, k2, k3, k4⟩
      · have hnx : Team.next c.n .run = none := by
          cases hx : Team.next c.n .run with
          | none => rfl
          | some cmd =>
            unfold Team.next at hx
            rw [Option.filter_eq_some_iff] at hx
            replace h1 : c.n.run1 false = .ok n' := h1
            unfold Node.run1 at h1
            rw [hx.1] at h1
            simp only [hx.2, if_true, out_bind, out_pure] at h1
            obtain ⟨n1, k3, k4⟩ := h1
            have hd := (exec_frame k3).done
            have := congrArg Node.done (k4.trans hnn)
            simp only at this
            omega
        rw [hnx] at hs
        simp only [out_pure] at hs
        subst hs
        show TInv n'.eng n'.pending c.task c.past
        rw [hnn]; exact h
      · have hnx : Team.next c.n .run = some cmd := by
          unfold Team.next
          simp only [k1, Option.filter, k2, if_true]
        rw [hnx] at hs
        simp only [out_pure] at hs
        subst hs
        have hn : (c.exec n' cmd).n = n' := by cases cmd <;> rfl
        have hpe := pending_exec k1 k3
        rw [hn, k4]
        rw [hpe] at h
        refine h.exec (n1 := n1) hI ?_ k3 _
        intro ts hc l hl1 hpd
        subst hc
        exact rebuild_members hl.life.str hl.ln hpe hl1 hpd
    · have hnx : Team.next c.n ev = none := by cases ev <;> first | rfl | exact absurd rfl hrun
      rw [hnx] at hs
      simp only [out_pure] at hs
      subst hs
      obtain ⟨hd, _, he | ⟨now, i, hg, hio, _, hin⟩⟩ := hi.view ho.1 hrun h1
      · show TInv n'.eng n'.pending c.task c.past
        have : n'.pending = c.n.pending := by unfold Node.pending; rw [hd, he]
        rw [he, this]; exact h
      · obtain ⟨cs, hcs, hpd⟩ := pending_input hd hi.done rfl hin
        show TInv n'.eng n'.pending c.task c.past
        rw [hpd]
        have hnr := given_note ho.2.2 hg
        exact h.pv hI hI' hl'.ln (Eng.sent_input hI hio hin) (Eng.grow_input _ _ _ hin).1 (Props.C06_vote_forward hI hio hin)
          (Eng.pv_input hI i hio (fun s t r hx => absurd hx (hnr s t r)) _ hin) (Eng.one_input hI hio hin) (Eng.fresh_input hI hio hin) hcs (apart_iff ha hcs)
  | recv t =>
    simp only [Team.step] at hs
    split at hs
    · rw [out_pure] at hs; subst hs; exact h
    · next k hk =>
      simp only [out_bind, out_pure] at hs
      obtain ⟨k', hr, rfl⟩ := hs
      obtain ⟨r1, r2, r3⟩ := recv_same hr
      refine h.put hk r1 fun l hl _ hg => ?_
      obtain ⟨s1, F, s2, s3⟩ := hg
      exact ⟨s1, F, by rw [r2]; exact s2, fun he => ((s3 (by rw [← r3]; exact he)).recv hr).1⟩
  | act t a =>
    simp only [Team.step] at hs
    split at hs
    · rw [out_pure] at hs; subst hs; exact h
    · next k hk =>
      simp only [out_bind, out_pure] at hs
      obtain ⟨k', hr, rfl⟩ := hs
      refine h.put hk (act_sess hr) fun l hl1 _ hg => ?_
      cases hen : k.ended with
      | true => rw [act_ended hr hen]; exact hg
      | false =>
        obtain ⟨s1, F, s2, s3⟩ := hg
        have hfo := s2.fok (h.inf l hl1 t (h.tk t k hk).1)
        obtain ⟨F', x1, x2⟩ := (s3 hen).act s2 hfo (by rw [(hI.pj.lead l hl1).last]; exact snap_in_log hi) (ho k hk).1 hr hen
        exact ⟨s1, F', x1, x2⟩
  | snap t r =>
    simp only [Team.step] at hs
    split at hs
    · rw [out_pure] at hs; subst hs; exact h
    · next k hk =>
      rw [out_pure] at hs; subst hs
      obtain ⟨r1, r2, r3⟩ := sentSnap_same k r
      refine h.put hk r1 fun l hl _ hg => ?_
      obtain ⟨s1, F, s2, s3⟩ := hg
      refine ⟨s1, F, by rw [r2]; exact s2, fun he => ?_⟩
      rw [r3] at he
      exact (s3 he).sentSnap he r
  | report now t =>
    simp only [Team.step] at hs
    split at hs
    · rw [out_pure] at hs; subst hs; exact h
    · next k hk =>
      split at hs
      · rw [out_pure] at hs; subst hs; exact h
      · next r rs hrs =>
        split at hs
        · next hidle =>
          simp only [out_bind, out_pure] at hs
          obtain ⟨n', h1, rfl⟩ := hs
          show TInv n'.eng n'.pending (fun i => if i = t then some { k with reports := rs } else c.task i) c.past
          cases hm : c.n.eng.sessionMatch k.sess with
          | false =>
            rw [late_same hm h1]
            exact h.put hk rfl fun l _ hx _ => by rw [hm] at hx; cases hx
          | true =>
            simp only [Node.step, hidle, external, Bool.and_self, if_true, out_bind, lift_ok, out_pure] at h1
            obtain ⟨e', hin, rfl⟩ := h1
            obtain ⟨cs, hcs, hpd⟩ := pending_input (n := c.n) (n' := { c.n with eng := e' }) rfl hi.done rfl hin
            obtain ⟨l, l', hrep⟩ := Eng.pipe_report hm hin
            rw [hpd]
            refine h.reported hI hm hrep hcs ?_ hk hrs
            rw [← (hI.pj.lead l hrep.1).vote, ← (hI'.pj.lead l' hrep.2.1).vote]
            exact hrep.2.2.1
        · rw [out_pure] at hs; subst hs; exact h
  | late now s t r =>
    simp only [Team.step] at hs
    split at hs
    · next hp =>
      simp only [out_bind, out_pure] at hs
      obtain ⟨n', h1, rfl⟩ := hs
      have := late_same ((h.past t s hp).noMatch hI) h1
      subst this; exact h
    · rw [out_pure] at hs; subst hs; exact h

theorem TInv.restart {cfg : Cfg} {old : List Resp} {n n' : Node} {k now : Nat} (hl : SafeLife cfg old n) (hf : Fits (n.crashDisk k) n.sm.reboot)
    (hr : restart false now cfg (n.crashDisk k) n.sm = .ok n') : TInv n'.eng n'.pending (fun _ => none) (fun _ => []) := by
  have hl' : SafeLife cfg (old ++ n.sent.map (·.2.2)) n' := .crash k now hl hf hr
  obtain ⟨⟨g0, a0, s0, c0, P, S, hi⟩, _⟩ := hl.life.inv
  obtain ⟨⟨g1, a1, s1, c1, P1, S1, hi'⟩, _⟩ := hl'.life.inv
  obtain ⟨st, store, s2, h1, h2, h3, _⟩ := restart_startup hr
  obtain ⟨st', store', s2', hin, hld⟩ := initialState_ok now (hi.crash_ok k) hf
  rw [h1] at hin
  cases hin
  obtain ⟨base, hst⟩ := hld.startOk (cfg := cfg) (hi.crash_ok k) hf
  have hpv := Eng.pv_startup (PV.refl _) _ h2
  have hone := Eng.one_startup hst h2
  have hsent := Eng.sent_startup hst h2
  have hcf : n'.eng.cfg = cfg := (Eng.grow_startup _ _ h2).1
  refine ⟨inf_pv hi'.flow.inv hl'.ln hsent hcf hpv (fun l hl => by cases hl), (fun t k hk => by cases hk), (fun t s hs => by cases hs), fun l hl => ?_⟩
  obtain ⟨cs, hcs, ⟨l0, k1, _⟩ | ⟨as, ts, bs, f, m1, m2, m3, m4⟩⟩ := hpv.lead l hl
  · cases k1
  · have hpd : n'.pending = cs := by
      unfold Node.pending
      have hcs : n'.eng.out = [] ++ cs := hcs
      rw [h3, hcs]; rfl
    refine Or.inr ⟨as, ts, bs, f, by rw [hpd, m1], ?_, m2, m3, m4, fun t k hk => by cases hk⟩
    rcases hone with ⟨xs, x1, x2⟩ | ⟨pre, us, post, x1, x2, x3, _⟩
    · have : xs = cs := List.append_cancel_left (x1.symm.trans hcs)
      subst this
      exact absurd (x2 (.rebuild ts) (by rw [m1]; simp)) (fun hh => hh)
    · have := List.append_cancel_left (x1.symm.trans hcs)
      rw [m1] at this
      exact rb_unique this.symm x2 x3

theorem TInv.suits {g : Gh} {e : Eng} {pd : List Cmd} {task : NodeId → Option Task} {past : NodeId → List Session} (h : TInv e pd task past) (hI : EInv g e)
    {t : NodeId} {k : Task} {l : Leader} (hk : task t = some k) (hm : e.sessionMatch k.sess = true) (hl : e.leader = some l) : Suits e pd l t k := by
  rcases h.lead l hl with ⟨_, a2⟩ | ⟨_, _, _, _, _, _, _, _, _, b6⟩
  · exact a2 t k hk hm
  · have := (b6 t k hk).noMatch hI
    rw [hm] at this; cases this

/-- the log and the reports are kept -/
theorem know_step {g0 : Gh} {a0 a1 : IOId} {s0 c0 s1 c1 : Option LogId} {P S P' S' : List Cmd} {c c' : Team} {ev : TEv} (hi : RInv g0 a0 s0 c0 P S c.n) (hi' : RInv g0 a1 s1 c1 P' S' c'.n)
    (hn : Ln c.n.eng) (hn' : Ln c'.n.eng) (h : TInv c.n.eng c.n.pending c.task c.past) (hav : Avail g0 c.n.eng) (hkn : Know (g0.runs c.n.eng.out) c.n.eng c.task)
    (ho : TOk c ev) (hs : c.step false ev = .ok c') : Avail g0 c'.n.eng ∧ Know (g0.runs c'.n.eng.out) c'.n.eng c'.task := by
  have hI := hi.flow.inv
  have hI' := hi'.flow.inv
  have hoks := hi'.flow.oks
  have same : ∀ n' : Node, n'.eng = c.n.eng → Avail g0 n'.eng ∧ Know (g0.runs n'.eng.out) n'.eng c.task := by
    intro n' h; rw [h]; exact ⟨hav, hkn⟩
  cases ev with
  | node ev =>
    simp only [Team.step, out_bind] at hs
    obtain ⟨n', h1, hs⟩ := hs
    by_cases hrun : ev = .run
    · subst hrun
      rcases run_view h1 with hnn | ⟨cmd, n1, k1, k2, k3, k4⟩
      · have hnx : Team.next c.n .run = none := by
          cases hx : Team.next c.n .run with
          | none => rfl
          | some cmd =>
            unfold Team.next at hx
            rw [Option.filter_eq_some_iff] at hx
            replace h1 : c.n.run1 false = .ok n' := h1
            unfold Node.run1 at h1
            rw [hx.1] at h1
            simp only [hx.2, if_true, out_bind, out_pure] at h1
            obtain ⟨n1, k3, k4⟩ := h1
            have hd := (exec_frame k3).done
            have := congrArg Node.done (k4.trans hnn)
            simp only at this
            omega
        rw [hnx] at hs
        simp only [out_pure] at hs
        subst hs
        exact same n' (by rw [hnn])
      · have hnx : Team.next c.n .run = some cmd := by
          unfold Team.next
          simp only [k1, Option.filter, k2, if_true]
        rw [hnx] at hs
        simp only [out_pure] at hs
        subst hs
        have hnn : (c.exec n' cmd).n = n' := by cases cmd <;> rfl
        rw [hnn, k4]
        obtain ⟨s1, s2, s3, s4⟩ := exec_same k3
        have hout : n1.eng.out = c.n.eng.out := by
          obtain ⟨p, x, h3, _⟩ := (exec_frame k3).eng
          rw [h3]
        refine ⟨?_, ?_⟩
        · show Avail g0 n1.eng
          unfold Avail
          rw [s1, s3, hout]; exact hav
        · show Know (g0.runs n1.eng.out) n1.eng _
          rw [hout]
          exact hkn.exec k3 _
    · have hnx : Team.next c.n ev = none := by cases ev <;> first | rfl | exact absurd rfl hrun
      rw [hnx] at hs
      simp only [out_pure] at hs
      subst hs
      obtain ⟨hd, _, he | ⟨now, i, hg, hio, _, hin⟩⟩ := hi.view ho.1 hrun h1
      · exact same n' he
      · obtain ⟨cs, hcs, hpd⟩ := pending_input hd hi.done rfl hin
        have hnr := given_note ho.2.2 hg
        have hpl : ∀ l, n'.eng.leader = some l → ∀ c ∈ cs, c.plain = true := fun l hl => Props.emits_cs (Eng.lead_input hI hio hin hl).1 hcs
        have hpv := Eng.pv_input hI i hio (fun s t r hx => absurd hx (hnr s t r)) _ hin
        have hcfg := (Eng.grow_input _ _ _ hin).1
        exact ⟨hav.pv (fun _ => ⟨hI, hn⟩) hI' hn' hoks (Eng.sent_input hI hio hin) hcfg hpv hcs (fun _ => hpl)
            (fun _ l hl u hu => Props.C20_not_in_flight hI hio hin hcs hu hl),
          hkn.pv h hI hI' hoks hcfg (Props.C06_vote_forward hI hio hin) hpv (Eng.fresh_input hI hio hin) hcs hpl⟩
  | recv t =>
    simp only [Team.step] at hs
    split at hs
    · rw [out_pure] at hs; subst hs; exact ⟨hav, hkn⟩
    · next k hk =>
      simp only [out_bind, out_pure] at hs
      obtain ⟨k', hr, rfl⟩ := hs
      obtain ⟨r1, r2, r3⟩ := recv_same hr
      exact ⟨hav, hkn.put hk r1 (fun hb => hb.recv hr) fun l _ _ hg => by rw [r2]; exact hg⟩
  | act t a =>
    simp only [Team.step] at hs
    split at hs
    · rw [out_pure] at hs; subst hs; exact ⟨hav, hkn⟩
    · next k hk =>
      simp only [out_bind, out_pure] at hs
      obtain ⟨k', hr, rfl⟩ := hs
      refine ⟨hav, hkn.put hk (act_sess hr) (fun hb => hb.act (snap_com hi).le hr) fun l hl hm hg => ?_⟩
      rcases act_reports hr with e1 | ⟨hen, r, e1, e2⟩
      · rw [e1]; exact hg
      · obtain ⟨hmem, F, hline, hb⟩ := h.suits hI hk hm hl
        have hadd : ∀ m, .matching m ∈ k'.reports → .matching m ∈ k.reports ∨ r = .matching m := by
          intro m hm'
          rw [e1] at hm'
          rcases List.mem_append.1 hm' with x | x
          · exact Or.inl x
          · rw [List.mem_singleton] at x; exact Or.inr x.symm
        cases ha : k.action with
        | none =>
          have hnm : ∀ m, r ≠ .matching m := by
            intro m hx
            rcases e2 m hx with ⟨p, q, x, _⟩ | x <;> (rw [ha] at x; cases x)
          rcases hg with hg | ⟨hg1, hg2⟩
          · exact Or.inl fun m hm' => (hadd m hm').elim (hg m) fun x => absurd x (hnm m)
          · exact Or.inr ⟨hg1, fun m hm' => (hadd m hm').elim (hg2 m) fun x => absurd x (hnm m)⟩
        | some d =>
          cases d with
          | logs p q =>
            obtain ⟨_, _, hrd, p0, hE, hp0, hpp⟩ := read_ready hi hav hn hl (h.tk t k hk).1 hmem hline (hb hen) ha
            left
            have hg' : ∀ m, .matching m ∈ k.reports → Held (g0.runs c.n.eng.out) m := by
              rcases hg with hg | ⟨⟨x, hg1⟩, _⟩
              · exact hg
              · rw [hE] at hg1; cases hg1
            intro m hm'
            rcases hadd m hm' with x | x
            · exact hg' m x
            · rcases e2 m x with ⟨p1, q1, y1, y2⟩ | y
              · rw [ha] at y1; cases y1
                rcases (ho k hk).2 hm p q m ha y2 with rfl | ⟨en, hen', rfl⟩
                · rcases hpp with rfl | hpp
                  · exact hp0
                  · exact hg' _ hpp
                · exact hrd en hen'
              · rw [ha] at y; cases y
          | callback rr =>
            obtain ⟨x, hF⟩ := (hb hen).callback ha
            obtain ⟨z1, z2⟩ := hline.snap hF
            rw [z2] at hF
            right
            refine ⟨⟨x, hF⟩, fun m hm' => ?_⟩
            rcases hadd m hm' with y | y
            · rw [z1] at y; cases y
            · rcases e2 m y with ⟨p1, q1, y1, _⟩ | y1
              · rw [ha] at y1; cases y1
              · exact (hkn.snap t k hk).2.2 m y1
          | committed =>
            have hnm : ∀ m, r ≠ .matching m := by
              intro m hx
              rcases e2 m hx with ⟨p, q, x, _⟩ | x <;> (rw [ha] at x; cases x)
            rcases hg with hg | ⟨hg1, hg2⟩
            · exact Or.inl fun m hm' => (hadd m hm').elim (hg m) fun x => absurd x (hnm m)
            · exact Or.inr ⟨hg1, fun m hm' => (hadd m hm').elim (hg2 m) fun x => absurd x (hnm m)⟩
          | snapshot x =>
            have hnm : ∀ m, r ≠ .matching m := by
              intro m hx
              rcases e2 m hx with ⟨p, q, x, _⟩ | x <;> (rw [ha] at x; cases x)
            rcases hg with hg | ⟨hg1, hg2⟩
            · exact Or.inl fun m hm' => (hadd m hm').elim (hg m) fun x => absurd x (hnm m)
            · exact Or.inr ⟨hg1, fun m hm' => (hadd m hm').elim (hg2 m) fun x => absurd x (hnm m)⟩
  | snap t r =>
    simp only [Team.step] at hs
    split at hs
    · rw [out_pure] at hs; subst hs; exact ⟨hav, hkn⟩
    · next k hk =>
      rw [out_pure] at hs; subst hs
      obtain ⟨r1, r2, r3⟩ := sentSnap_same k r
      exact ⟨hav, hkn.put hk r1 (fun hb => hb.sentSnap r) fun l _ _ hg => by rw [r2]; exact hg⟩
  | report now t =>
    simp only [Team.step] at hs
    split at hs
    · rw [out_pure] at hs; subst hs; exact ⟨hav, hkn⟩
    · next k hk =>
      split at hs
      · rw [out_pure] at hs; subst hs; exact ⟨hav, hkn⟩
      · next r rs hrs =>
        split at hs
        · next hidle =>
          simp only [out_bind, out_pure] at hs
          obtain ⟨n', h1, rfl⟩ := hs
          cases hm : c.n.eng.sessionMatch k.sess with
          | false =>
            rw [late_same hm h1]
            exact ⟨hav, hkn.put hk rfl (fun hb => hb) fun l _ hx _ => by rw [hm] at hx; cases hx⟩
          | true =>
            have hok : InputOk c.n.eng (.replProgress k.sess t r) := hkn.report_ok (now := now) h hI hk hrs
            simp only [Node.step, hidle, external, Bool.and_self, if_true, out_bind, lift_ok, out_pure] at h1
            obtain ⟨e', hin, rfl⟩ := h1
            obtain ⟨cs, hcs, hpd⟩ := pending_input (n := c.n) (n' := { c.n with eng := e' }) rfl hi.done rfl hin
            obtain ⟨l, l', hrep⟩ := Eng.pipe_report hm hin
            have hpl : ∀ c ∈ cs, c.plain = true := Props.emits_cs (Eng.lead_input hI hok hin hrep.2.1).1 hcs
            obtain ⟨hmem, F, hline, _⟩ := h.suits hI hk hm hrep.1
            rw [hrs] at hline
            have hgd : Guard (nextIndex l.lastLogId) (l.progress.ent t) r := by
              cases hline with
              | cons g1 _ _ => exact g1
            refine ⟨hav.reported hI hn hn' hoks hrep hcs hpl (fun u hu => Props.C20_not_in_flight hI hok hin hcs hu hrep.2.1) hgd ?_,
              hkn.reported h hI hoks hm hrep hcs hpl hk hrs⟩
            rintro m p q rfl hE
            rcases hkn.rep t k l hk hm hrep.1 with hg | ⟨⟨x, hg⟩, _⟩
            · exact hg m (by rw [hrs]; simp)
            · rw [hE] at hg; cases hg
        · rw [out_pure] at hs; subst hs; exact ⟨hav, hkn⟩
  | late now s t r =>
    simp only [Team.step] at hs
    split at hs
    · next hp =>
      simp only [out_bind, out_pure] at hs
      obtain ⟨n', h1, rfl⟩ := hs
      have := late_same ((h.past t s hp).noMatch hI) h1
      subst this; exact ⟨hav, hkn⟩
    · rw [out_pure] at hs; subst hs; exact ⟨hav, hkn⟩

theorem know_restart {cfg : Cfg} {old : List Resp} {n n' : Node} {k now : Nat} (hl : SafeLife cfg old n) (hf : Fits (n.crashDisk k) n.sm.reboot)
    (hr : restart false now cfg (n.crashDisk k) n.sm = .ok n') {g1 : Gh} {a1 : IOId} {s1 c1 : Option LogId} {P1 S1 : List Cmd} (hi' : RInv g1 a1 s1 c1 P1 S1 n') :
    Avail g1 n'.eng ∧ Know (g1.runs n'.eng.out) n'.eng (fun _ => none) := by
  have hl' : SafeLife cfg (old ++ n.sent.map (·.2.2)) n' := .crash k now hl hf hr
  obtain ⟨⟨g0, a0, s0, c0, P, S, hi⟩, _⟩ := hl.life.inv
  obtain ⟨st, store, s2, h1, h2, h3, _⟩ := restart_startup hr
  obtain ⟨st', store', s2', hin, hld⟩ := initialState_ok now (hi.crash_ok k) hf
  rw [h1] at hin
  cases hin
  obtain ⟨base, hst⟩ := hld.startOk (cfg := cfg) (hi.crash_ok k) hf
  have hpv := Eng.pv_startup (PV.refl _) _ h2
  have hsent := Eng.sent_startup hst h2
  have hcf : n'.eng.cfg = cfg := (Eng.grow_startup _ _ h2).1
  refine ⟨?_, (fun t k hk => by cases hk), fun t k l hk => by cases hk⟩
  exact Avail.pv (cs := n'.eng.out) (fun l hl => by cases hl) (fun hx => absurd rfl hx) hi'.flow.inv hl'.ln hi'.flow.oks hsent hcf hpv rfl (fun hx => absurd rfl hx) (fun hx => absurd rfl hx)

namespace TeamLife
variable {cfg : Cfg} {old : List Resp} {c : Team}

/-- the node lives safely, its tasks hold what is in flight, what is in flight is in the log, and what is reported is in it -/
theorem all (h : TeamLife cfg old c) : SafeLife cfg old c.n ∧ TInv c.n.eng c.n.pending c.task c.past ∧
    ∃ g0 a0 s0 c0 P S, RInv g0 a0 s0 c0 P S c.n ∧ Avail g0 c.n.eng ∧ Know (g0.runs c.n.eng.out) c.n.eng c.task := by
  induction h with
  | fresh now persist =>
    have hl : SafeLife cfg [] (Node.fresh cfg now persist) := .fresh now persist
    obtain ⟨⟨g0, a0, s0, c0, P, S, hi⟩, _⟩ := hl.life.inv
    exact ⟨hl, ⟨(fun l hl => by cases hl), (fun t k hk => by cases hk), (fun t s hs => by cases hs), (fun l hl => by cases hl)⟩,
      g0, a0, s0, c0, P, S, hi, (fun l hl => by cases hl), (fun t k hk => by cases hk), (fun t k l hk => by cases hk)⟩
  | @step old c c' ev _ ho hs ha ih =>
    obtain ⟨hl, ht, g0, a0, s0, c0, P, S, hi, hav, hkn⟩ := ih
    obtain ⟨hl', P', S', hi'⟩ : SafeLife cfg old c'.n ∧ ∃ P' S', RInv g0 a0 s0 c0 P' S' c'.n := by
      rcases ht.safe1 hi.flow.inv hkn ho c' hs with h1 | ⟨ev', h1, h2, h3⟩
      · rw [h1]; exact ⟨hl, P, S, hi⟩
      · obtain ⟨P', S', h4, _⟩ := hi.step h1 h3
        exact ⟨.step ev' hl h1 h2 h3, P', S', h4⟩
    exact ⟨hl', ht.step hl hl' ho hs ha, g0, a0, s0, c0, P', S', hi', know_step hi hi' hl.ln hl'.ln ht hav hkn ho hs⟩
  | crash k now _ hf hr ih =>
    have hl' := SafeLife.crash k now ih.1 hf hr
    obtain ⟨⟨g0, a0, s0, c0, P, S, hi⟩, _⟩ := hl'.life.inv
    exact ⟨hl', TInv.restart ih.1 hf hr, g0, a0, s0, c0, P, S, hi, know_restart ih.1 hf hr hi⟩

/-- **The node of a team lives safely**, and its tasks hold what is in flight. -/
theorem inv (h : TeamLife cfg old c) : SafeLife cfg old c.n ∧ TInv c.n.eng c.n.pending c.task c.past := ⟨h.all.1, h.all.2.1⟩

end TeamLife
end Openraft.Runtime
