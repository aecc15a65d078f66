import Verif.Runtime.Avail

/-!
# What the replication tasks report is in the log

`Know`: what the tasks of the session in force report as matching is in the log of the leader, and what they say of snapshots
is not after its committed position.
-/

set_option autoImplicit false

namespace Openraft.Runtime
open Openraft.Engine
open Openraft.Repl (Inflight)
open Openraft.Engine.Eng (ReplResult Report.handle)

/-- the snapshots that a task speaks of are not after a position -/
def SnapBelow (k : Task) (o : Option LogId) : Prop :=
  (∀ x, k.sending = some x → x ≤ o) ∧ (∀ x, Data.callback (.installed x) ∈ k.inbox → x ≤ o) ∧ ∀ x, k.action = some (.callback (.installed x)) → x ≤ o

theorem SnapBelow.mono {k : Task} {o o' : Option LogId} (h : SnapBelow k o) (hm : o ≤ o') : SnapBelow k o' :=
  ⟨fun x hx => (h.1 x hx).trans hm, fun x hx => (h.2.1 x hx).trans hm, fun x hx => (h.2.2 x hx).trans hm⟩

theorem SnapBelow.new (s : Session) (m o : Option LogId) : SnapBelow (.new s m) o :=
  ⟨(fun _ hx => by cases hx), (fun _ hx => by cases hx), (fun _ hx => by cases hx)⟩

theorem SnapBelow.give {k : Task} {o : Option LogId} {d : Data} (h : SnapBelow k o) (hd : ∀ x, d = .callback (.installed x) → x ≤ o) : SnapBelow (k.give d) o := by
  unfold Task.give
  split
  · exact h
  · refine ⟨h.1, fun x hx => ?_, h.2.2⟩
    rcases List.mem_append.1 hx with hx | hx
    · exact h.2.1 x hx
    · rw [List.mem_singleton] at hx; exact hd x hx.symm

theorem SnapBelow.gives {k : Task} {o : Option LogId} {ds : List Data} (h : SnapBelow k o) (hd : ∀ x, Data.callback (.installed x) ∉ ds) :
    SnapBelow (ds.foldl Task.give k) o := by
  induction ds generalizing k with
  | nil => exact h
  | cons d ds ih =>
    exact ih (h.give fun x hx => absurd (by rw [hx]; simp) (hd x)) fun x hx => hd x (by simp [hx])

theorem SnapBelow.recv {dbg : Bool} {k k' : Task} {o : Option LogId} (h : SnapBelow k o) (hr : k.recv dbg = .ok k') : SnapBelow k' o := by
  unfold Task.recv at hr
  split at hr
  · rw [out_pure] at hr; subst hr; exact h
  · split at hr
    · rw [out_pure] at hr; subst hr; exact h
    · next q hq =>
      have hi : ∀ x, Data.callback (.installed x) ∈ q → x ≤ o := fun x hx => h.2.1 x (by rw [hq]; simp [hx])
      split at hr
      · rw [out_pure] at hr; subst hr; exact ⟨h.1, hi, fun x hx => by cases hx⟩
      · rw [out_pure] at hr; subst hr; exact ⟨h.1, hi, h.2.2⟩
    · next d q hd hq =>
      have hi : ∀ x, Data.callback (.installed x) ∈ q → x ≤ o := fun x hx => h.2.1 x (by rw [hq]; simp [hx])
      have hk : k' = { k with inbox := q, action := some d } := by
        cases d with
        | committed => exact absurd rfl hd
        | _ =>
          simp only [out_bind, out_pure] at hr
          obtain ⟨_, _, _, _, hr⟩ := hr
          exact hr.symm
      subst hk
      refine ⟨h.1, hi, fun x hx => ?_⟩
      have hx : some d = some (.callback (.installed x)) := hx
      cases hx
      exact h.2.1 x (by rw [hq]; simp)

theorem SnapBelow.act {k k' : Task} {snap o : Option LogId} {a : Ans} (h : SnapBelow k o) (hs : snap ≤ o) (hr : k.act snap a = .ok k') : SnapBelow k' o := by
  have key : ∀ k1 : Task, k1.sending = k.sending ∨ k1.sending = some snap → k1.inbox = k.inbox → k1.action = k.action ∨ (∀ x, k1.action ≠ some (.callback (.installed x))) → SnapBelow k1 o := by
    intro k1 h1 h2 h3
    refine ⟨fun x hx => ?_, fun x hx => h.2.1 x (by rw [← h2]; exact hx), fun x hx => ?_⟩
    · rcases h1 with h1 | h1
      · exact h.1 x (by rw [← h1]; exact hx)
      · rw [h1] at hx; cases hx; exact hs
    · rcases h3 with h3 | h3
      · exact h.2.2 x (by rw [← h3]; exact hx)
      · exact absurd hx (h3 x)
  unfold Task.act at hr
  split at hr
  · rw [out_pure] at hr; subst hr; exact h
  · split at hr
    · rw [out_pure] at hr; subst hr; exact h
    · cases a <;> simp only [out_bind, out_pure] at hr
      all_goals first
        | (subst hr; exact key _ (Or.inl rfl) rfl (Or.inr fun x hx => by cases hx))
        | (obtain ⟨_, _, rfl⟩ := hr; exact key _ (Or.inl rfl) rfl (Or.inr fun x hx => by cases hx))
    · cases a <;> simp only [out_bind, out_pure] at hr
      all_goals first
        | (subst hr; exact key _ (Or.inl rfl) rfl (Or.inr fun x hx => by dsimp only at hx; split at hx <;> cases hx))
        | (subst hr; exact key _ (Or.inl rfl) rfl (Or.inr fun x hx => by cases hx))
        | (obtain ⟨_, _, rfl⟩ := hr; exact key _ (Or.inl rfl) rfl (Or.inr fun x hx => by cases hx))
    · split at hr <;> (rw [out_pure] at hr; subst hr)
      · exact key _ (Or.inl rfl) rfl (Or.inr fun x hx => by cases hx)
      · exact key _ (Or.inr rfl) rfl (Or.inr fun x hx => by cases hx)
    · split at hr <;> (rw [out_pure] at hr; subst hr; exact key _ (Or.inl rfl) rfl (Or.inr fun x hx => by cases hx))

theorem SnapBelow.sentSnap {k : Task} {o : Option LogId} (h : SnapBelow k o) (r : SnapRes) : SnapBelow (k.sentSnap r) o := by
  unfold Task.sentSnap
  split
  · exact h
  · next x hx =>
    refine SnapBelow.give ⟨(fun _ hy => by cases hy), h.2.1, h.2.2⟩ fun y hy => ?_
    cases r with
    | installed w => cases hy; exact h.1 x hx
    | failed => cases hy
    | higher => cases hy

/-- the report that a round adds -/
theorem act_reports {k k' : Task} {snap : Option LogId} {a : Ans} (hr : k.act snap a = .ok k') :
    k'.reports = k.reports ∨ k.ended = false ∧ ∃ r, k'.reports = k.reports ++ [r] ∧ ∀ m, r = .matching m →
      (∃ p q, k.action = some (.logs p q) ∧ a = .matched m) ∨ k.action = some (.callback (.installed m)) := by
  unfold Task.act at hr
  split at hr
  · rw [out_pure] at hr; subst hr; exact Or.inl rfl
  · next he =>
    have he : k.ended = false := by simpa using he
    split at hr
    · rw [out_pure] at hr; subst hr; exact Or.inl rfl
    · cases a <;> simp only [out_bind, out_pure] at hr
      all_goals first | (subst hr; exact Or.inl rfl) | (obtain ⟨_, _, rfl⟩ := hr; exact Or.inl rfl)
    · next p q ha =>
      cases a with
      | matched m =>
        simp only [out_pure] at hr; subst hr
        exact Or.inr ⟨he, _, rfl, fun m' hm => by cases hm; exact Or.inl ⟨p, q, ha, rfl⟩⟩
      | conflict =>
        simp only [out_bind, out_pure] at hr
        obtain ⟨_, _, rfl⟩ := hr
        exact Or.inr ⟨he, _, rfl, fun m' hm => by cases hm⟩
      | error => simp only [out_pure] at hr; subst hr; exact Or.inr ⟨he, _, rfl, fun m' hm => by cases hm⟩
      | tooLarge => simp only [out_pure] at hr; subst hr; exact Or.inl rfl
      | higher => simp only [out_pure] at hr; subst hr; exact Or.inl rfl
    · split at hr <;> (rw [out_pure] at hr; subst hr; exact Or.inl rfl)
    · next r ha =>
      cases r with
      | installed x => simp only [out_pure] at hr; subst hr; exact Or.inr ⟨he, _, rfl, fun m' hm => by cases hm; exact Or.inr ha⟩
      | failed => simp only [out_pure] at hr; subst hr; exact Or.inr ⟨he, _, rfl, fun m' hm => by cases hm⟩
      | higher => simp only [out_pure] at hr; subst hr; exact Or.inl rfl

/-- a task that is about to send a range has it in flight, and nothing waits for it -/
theorem Bears.logs {N : Nat} {k : Task} {rs : List Inflight} {F : Repl.Entry} {p q : Option LogId} (h : Bears N k rs F) (ha : k.action = some (.logs p q)) :
    F.inflight = .logs p q ∧ rs.flatMap Data.of = [] := by
  obtain ⟨_, _, e3, e4⟩ := hold_act ha rfl h.fit.len
  refine ⟨?_, e3⟩
  have := h.fit
  rw [e4] at this
  cases hi : F.inflight with
  | none => rw [hi] at this; cases this
  | logs p' q' => rw [hi] at this; cases this; rfl
  | snapshot x => rw [hi] at this; rcases this with ⟨o, ho⟩ | ⟨r, ho, _⟩ <;> cases ho

theorem Bears.callback {N : Nat} {k : Task} {rs : List Inflight} {F : Repl.Entry} {r : SnapRes} (h : Bears N k rs F) (ha : k.action = some (.callback r)) :
    ∃ x, F.inflight = .snapshot x := by
  obtain ⟨_, _, _, e4⟩ := hold_act ha rfl h.fit.len
  have := h.fit
  rw [e4] at this
  cases hi : F.inflight with
  | none => rw [hi] at this; cases this
  | logs p' q' => rw [hi] at this; cases this
  | snapshot x => exact ⟨x, rfl⟩

/-- what is reported as matching is in the log; of a snapshot, it is not after the committed position -/
def RepOk (g : Gh) (E : Repl.Entry) (rs : List ReplResult) : Prop :=
  (∀ m, .matching m ∈ rs → Held g m) ∨ ((∃ x, E.inflight = .snapshot x) ∧ ∀ m, .matching m ∈ rs → m ≤ g.com)

structure Know (g : Gh) (e : Eng) (task : NodeId → Option Task) : Prop where
  snap : ∀ t k, task t = some k → SnapBelow k g.com
  rep : ∀ t k l, task t = some k → e.sessionMatch k.sess = true → e.leader = some l → RepOk g (l.progress.ent t) k.reports

theorem RepOk.runs {g : Gh} {E : Repl.Entry} {rs : List ReplResult} {cs : List Cmd} (h : RepOk g E rs) (w : g.Whole) (k : g.Oks cs) (hp : ∀ c ∈ cs, c.plain = true) :
    RepOk (g.runs cs) E rs := by
  rcases h with h | ⟨h1, h2⟩
  · exact Or.inl fun m hm => (w.runs k hp).2 m (h m hm)
  · exact Or.inr ⟨h1, fun m hm => (h2 m hm).trans (Gh.com_runs k).le⟩

theorem Know.put {g : Gh} {e : Eng} {task : NodeId → Option Task} (h : Know g e task) {t : NodeId} {k k' : Task} (hk : task t = some k) (hs : k'.sess = k.sess)
    (h1 : SnapBelow k g.com → SnapBelow k' g.com)
    (h2 : ∀ l, e.leader = some l → e.sessionMatch k.sess = true → RepOk g (l.progress.ent t) k.reports → RepOk g (l.progress.ent t) k'.reports) :
    Know g e (fun i => if i = t then some k' else task i) := by
  refine ⟨fun i x hx => ?_, fun i x l hx hm hl => ?_⟩
  · split at hx
    · next hi => cases hx; exact h1 (h.snap t k hk)
    · exact h.snap i x hx
  · split at hx
    · next hi => cases hx; subst hi; rw [hs] at hm; exact h2 l hl hm (h.rep i k l hk hm hl)
    · exact h.rep i x l hx hm hl

/-- an input other than a report of the session in force -/
theorem Know.pv {g0 : Gh} {e e' : Eng} {pd : List Cmd} {task : NodeId → Option Task} {past : NodeId → List Session} {cs : List Cmd} (h : Know (g0.runs e.out) e task) (ht : TInv e pd task past)
    (hI : EInv g0 e) (hI' : EInv g0 e') (hk : g0.Oks e'.out) (hc : e'.cfg = e.cfg) (hv : e.st.vote.data ≤ e'.st.vote.data) (hp : PV e e') (hf : FreshRb e e')
    (hcs : e'.out = e.out ++ cs) (hpl : ∀ l, e'.leader = some l → ∀ c ∈ cs, c.plain = true) : Know (g0.runs e'.out) e' task := by
  rw [hcs, Gh.oks_append] at hk
  rw [hcs, Gh.runs_append]
  refine ⟨fun t k hx => (h.snap t k hx).mono (Gh.com_runs hk.2).le, fun t k l hx hm hl => ?_⟩
  have hcut : ∀ ds, e'.out = e.out ++ ds → ds = cs := fun ds hd => List.append_cancel_left (hd.symm.trans hcs)
  have hcm := (ht.tk t k hx).2.1
  obtain ⟨ds, hds, ⟨l0, k1, k2, k3, k4, k5, k6⟩ | ⟨as, ts, bs, f, m1, m2, m3, m4⟩⟩ := hp.lead l hl
  · have := hcut ds hds
    subst this
    obtain ⟨l', x1, x2, x3⟩ := (sessionMatch_iff hcm).1 hm
    rw [hl] at x1; cases x1
    have hm0 : e.sessionMatch k.sess = true :=
      (sessionMatch_iff hcm).2 ⟨l0, k1, by rw [← kept_vote hI hI' k1 hl k2]; exact x2, by rw [← k3]; exact x3⟩
    have hr := (h.rep t k l0 hx hm0 k1).runs hI.lm.log.whole hk.2 (hpl l hl)
    have htn : t ≠ e'.cfg.id := by rw [hc]; exact (ht.tk t k hx).1
    rcases k6 t htn with ⟨_, s2⟩ | ⟨s1, q, _, _, s4⟩
    · rw [s2]; exact hr
    · left
      rcases ht.lead l0 k1 with ⟨_, a2⟩ | ⟨_, _, _, _, _, _, _, _, _, b6⟩
      · obtain ⟨_, F, y2, _⟩ := a2 t k hx hm0
        rw [(y2.none s1).1]; simp
      · have := (b6 t k hx).noMatch hI
        rw [hm0] at this; cases this
  · have hrb : Cmd.rebuild ts ∈ ds := by rw [m1]; simp
    have hnew : NewSt e e' := by
      rcases hf with ⟨xs, h1, h2⟩ | h1 | h1
      · have := hcut xs h1
        subst this
        have := hcut ds hds
        subst this
        exact absurd (h2 _ hrb) (fun hh => hh)
      · exact Or.inl (Option.isSome_iff_exists.1 (by rw [Option.isSome_iff_exists]; exact h1))
      · exact Or.inr h1
    have := ((ht.tk t k hx).2.new hI hv hnew).noMatch hI'
    rw [hm] at this; cases this

/-- a report of the session in force -/
theorem Know.reported {g0 : Gh} {e e' : Eng} {pd : List Cmd} {task : NodeId → Option Task} {past : NodeId → List Session} {cs : List Cmd} {l l' : Leader} {t : NodeId} {k : Task}
    {r : ReplResult} {rs : List ReplResult} (h : Know (g0.runs e.out) e task) (ht : TInv e pd task past) (hI : EInv g0 e) (hk : g0.Oks e'.out)
    (hms : e.sessionMatch k.sess = true) (hr : Eng.Reported false t r e e' l l') (hcs : e'.out = e.out ++ cs) (hpl : ∀ c ∈ cs, c.plain = true)
    (hkk : task t = some k) (hrs : k.reports = r :: rs) : Know (g0.runs e'.out) e' (fun i => if i = t then some { k with reports := rs } else task i) := by
  obtain ⟨h1, h2, h3, h4, h5, h6, _, h7, h8⟩ := hr
  rw [hcs, Gh.oks_append] at hk
  rw [hcs, Gh.runs_append]
  have hm : ∀ s, s.vote.committed = true → e'.sessionMatch s = true → e.sessionMatch s = true := by
    intro s hs hx
    rw [sessionMatch_iff hs] at hx ⊢
    obtain ⟨l2, x1, x2, x3⟩ := hx
    rw [h2] at x1; cases x1
    exact ⟨l, h1, by rw [← h3]; exact x2, by rw [← h5]; exact x3⟩
  have hcom := (Gh.com_runs hk.2).le
  refine ⟨fun i x hx => ?_, fun i x l2 hx hmx hl2 => ?_⟩
  · split at hx
    · next hi => cases hx; exact (h.snap t k hkk).mono hcom
    · exact (h.snap i x hx).mono hcom
  · rw [h2] at hl2; cases hl2
    split at hx
    · next hi =>
      cases hx
      subst hi
      have hr0 := (h.rep i k l hkk hms h1).runs hI.lm.log.whole hk.2 hpl
      rcases hr0 with hr0 | ⟨⟨x, hr1⟩, hr2⟩
      · exact Or.inl fun m hm' => hr0 m (by rw [hrs]; exact List.mem_cons_of_mem _ hm')
      · left
        rcases ht.lead l h1 with ⟨_, a2⟩ | ⟨_, _, _, _, _, _, _, _, _, b6⟩
        · obtain ⟨_, F, y2, _⟩ := a2 i k hkk hms
          rw [hrs] at y2
          cases y2 with
          | cons g1 g2 g3 =>
            rw [h8] at g2; cases g2
            have hno : (l'.progress.ent i).inflight = .none := by
              rcases handle_cases h8 with ⟨m, _, _, _, ⟨p0, q0, c3, _⟩ | ⟨_, c4⟩⟩ | ⟨_, _, c4⟩
              · rw [hr1] at c3; cases c3
              · exact c4
              · exact c4
            dsimp only
            rw [(g3.none hno).1]; simp
        · have := (b6 i k hkk).noMatch hI
          rw [hms] at this; cases this
    · next hi =>
      rw [h7 i hi]
      exact (h.rep i x l hx (hm _ (ht.tk i x hx).2.1 hmx) h1).runs hI.lm.log.whole hk.2 hpl

/-- a command is executed -/
theorem Know.exec {g : Gh} {c : Team} {cmd : Cmd} {n1 : Node} (h : Know g c.n.eng c.task) (hx : c.n.exec false cmd = .ok n1) (n' : Node) :
    Know g n1.eng (c.exec n' cmd).task := by
  obtain ⟨s1, s2, s3, s4⟩ := exec_same hx
  have hsm : ∀ s, n1.eng.sessionMatch s = true → c.n.eng.sessionMatch s = true := by
    intro s hm
    obtain ⟨p, x, h3, _⟩ := (exec_frame hx).eng
    rw [h3] at hm; exact hm
  have key : ∀ (task' : NodeId → Option Task), (∀ t k', task' t = some k' → (∃ k, c.task t = some k ∧ k'.sess = k.sess ∧ k'.reports = k.reports ∧
      (SnapBelow k g.com → SnapBelow k' g.com)) ∨ ∃ s m, k' = .new s m) → Know g n1.eng task' := by
    intro task' hk
    refine ⟨fun t k' hk' => ?_, fun t k' l hk' hm hl => ?_⟩
    · rcases hk t k' hk' with ⟨k, a1, _, _, a4⟩ | ⟨s, m, rfl⟩
      · exact a4 (h.snap t k a1)
      · exact SnapBelow.new _ _ _
    · rcases hk t k' hk' with ⟨k, a1, a2, a3, _⟩ | ⟨s, m, rfl⟩
      · rw [a3]
        rw [a2] at hm
        exact h.rep t k l a1 (hsm _ hm) (by rw [← s1]; exact hl)
      · left; intro m hm; cases hm
  have same : (c.exec n' cmd).task = c.task → Know g n1.eng (c.exec n' cmd).task := by
    intro h1
    rw [h1]
    exact key _ fun t k hk => Or.inl ⟨k, hk, rfl, rfl, fun x => x⟩
  cases cmd with
  | replicate t q =>
    refine key _ fun i k' hk' => Or.inl ?_
    simp only [Team.exec] at hk'
    split at hk'
    · obtain ⟨k, hk, rfl⟩ := Option.map_eq_some_iff.1 hk'
      obtain ⟨g1, g2, _⟩ := gives_same k (Data.of q)
      refine ⟨k, hk, g1, g2, fun hb => hb.gives fun x hx => ?_⟩
      cases q <;> simp [Data.of] at hx
    · exact ⟨k', hk', rfl, rfl, fun x => x⟩
  | replCommitted o =>
    refine key _ fun i k' hk' => Or.inl ?_
    simp only [Team.exec] at hk'
    obtain ⟨k, hk, rfl⟩ := Option.map_eq_some_iff.1 hk'
    obtain ⟨g1, g2, _⟩ := give_same k .committed
    exact ⟨k, hk, g1, g2, fun hb => hb.give fun x hx => by cases hx⟩
  | rebuild ts =>
    refine key _ fun i k' hk' => Or.inr ?_
    simp only [Team.exec, Team.spawn] at hk'
    split at hk'
    · cases hk'; exact ⟨_, _, rfl⟩
    · cases hk'
  | _ => exact same rfl

/-! ## What a task is about to read -/

/-- a `Replicate` command that no longer waits was executed -/
theorem replicate_done {n : Node} {A B : List Cmd} {t : NodeId} {p q : Option LogId} (h : n.eng.out = A ++ .replicate t (.logs p q) :: B)
    (hr : (reqs t n.pending).flatMap Data.of = []) : ∃ B1, n.eng.out.take n.done = A ++ .replicate t (.logs p q) :: B1 ∧ B = B1 ++ n.pending := by
  unfold Node.pending at hr ⊢
  rw [h] at hr ⊢
  rcases Nat.lt_or_ge A.length n.done with h1 | h1
  · obtain ⟨j, hj⟩ := Nat.exists_eq_add_of_lt h1
    refine ⟨B.take j, ?_, ?_⟩
    · rw [List.take_append, List.take_of_length_le (by omega)]
      have : n.done - A.length = j + 1 := by omega
      rw [this, List.take_succ_cons]
    · rw [List.drop_append, List.drop_eq_nil_of_le (by omega)]
      have : n.done - A.length = j + 1 := by omega
      rw [this, List.drop_succ_cons, List.nil_append, List.take_append_drop]
  · exfalso
    rw [List.drop_append] at hr
    have h0 : n.done - A.length = 0 := by omega
    rw [h0, List.drop_zero, reqs_append, List.flatMap_append, List.append_eq_nil_iff] at hr
    have h2 := hr.2
    unfold reqs at h2
    rw [List.filterMap_cons] at h2
    simp [Cmd.req, Data.of] at h2

/-- the log as the tasks read it when a task is about to send a range: it has the whole range, and what it has the engine has -/
theorem read_ready {g0 : Gh} {a0 : IOId} {s0 c0 : Option LogId} {P S : List Cmd} {n : Node} (hi : RInv g0 a0 s0 c0 P S n) {l : Leader} {t : NodeId} {k : Task} {p q : Option LogId} {F : Repl.Entry} {N : Nat}
    (hav : Avail g0 n.eng) (hn : Ln n.eng) (hl : n.eng.leader = some l) (htn : t ≠ n.eng.cfg.id) (hmem : n.eng.st.ms.effective.mem.Has t)
    (hline : Line N (l.progress.ent t) k.reports F) (hb : Bears N k (reqs t n.pending) F) (ha : k.action = some (.logs p q)) :
    (∃ x, q = some x ∧ (nextIndex p ≤ x.index → ∃ e ∈ n.rd.entries, e.id = x) ∧ ∀ i, nextIndex p ≤ i → i ≤ x.index → ∃ e ∈ n.rd.entries, e.id.index = i) ∧
    Cons (n.rd.entries.map (·.id)) ∧ (∀ e ∈ n.rd.entries, Held (g0.runs n.eng.out) (some e.id)) ∧
    ∃ p0, (l.progress.ent t).inflight = .logs p0 q ∧ Held (g0.runs n.eng.out) p0 ∧ (p = p0 ∨ .matching p ∈ k.reports) := by
  obtain ⟨hF, hnone⟩ := hb.logs ha
  obtain ⟨p1, hE, hp1, hpr⟩ := hline.logs hF
  obtain ⟨v1, v2, A, B, p0, x, v3, v4, v5, v6, v7, v8, v9⟩ := hav l hl t (((hn.lead l hl).prog t).2 hmem) htn p1 q hE
  obtain ⟨B1, b1, b2⟩ := replicate_done v3 hnone
  have hoks := hi.flow.oks
  have hrest : n.eng.out = n.eng.out.take n.done ++ n.pending := (List.take_append_drop _ _).symm
  rw [hrest, b1, Gh.oks_append] at hoks
  have hoks1 := hoks.1
  rw [Gh.oks_append] at hoks1
  have hpl1 : ∀ c ∈ Cmd.replicate t (.logs p0 q) :: B1, c.plain = true := by
    intro c hc
    rcases List.mem_cons.1 hc with rfl | hc
    · rfl
    · exact v4 c (by rw [b2]; simp [hc])
  have hpl2 : ∀ c ∈ n.pending, c.plain = true := fun c hc => v4 c (by rw [b2]; simp [hc])
  obtain ⟨w1, w2⟩ := v5.runs hoks1.2 hpl1
  rw [← Gh.runs_append, ← b1] at w1 w2
  rw [← b1] at hoks
  obtain ⟨w3, w4⟩ := w1.runs hoks.2 hpl2
  rw [← Gh.runs_append, ← hrest] at w3 w4
  have hpb : nextIndex (g0.runs (n.eng.out.take n.done)).store.purged ≤ nextIndex p := by
    have := Gh.purged_runs hoks.2
    rw [← Gh.runs_append, ← hrest] at this
    omega
  have hrd : n.rd = (g0.runs (n.eng.out.take n.done)).store := by rw [hi.split]; exact hi.d.rd
  have hin : ∀ y ∈ (g0.runs A).ids, nextIndex p ≤ y.index → y ∈ (g0.runs (n.eng.out.take n.done)).ids := by
    intro y hy hyi
    rcases w2 (some y) (fun z hz => by cases hz; exact Or.inl hy) y rfl with h | h
    · exact h
    · have := h.2; omega
  refine ⟨⟨x, v7, fun hx => ?_, fun i h1 h2 => ?_⟩, by rw [hrd]; exact (cons_append.1 w1.cons).2.1, fun e he => ?_, p1, hE, v2, hpr⟩
  · rw [hrd]
    exact List.mem_map.1 (hin x v8 hx)
  · rw [hrd]
    obtain ⟨y, hy, hyi⟩ := v9 i (by omega) h2
    obtain ⟨e, he, hey⟩ := List.mem_map.1 (hin y hy (by omega))
    exact ⟨e, he, by rw [hey]; exact hyi⟩
  · rw [hrd] at he
    exact w4 (some e.id) fun z hz => by cases hz; exact Or.inl (List.mem_map.2 ⟨e, he, rfl⟩)

end Openraft.Runtime
