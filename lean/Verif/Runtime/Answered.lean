import Verif.Runtime.Progress
import Verif.Runtime.Worker

/-!
# A caller whose entry is committed is answered

Infinite runs in which each part of a node keeps working: commands are executed, writes are finished, the state machine worker works,
and the main loop takes notifications. The caller that waits for an entry that is committed is answered, unless the state machine gets
over the entry by a snapshot.
-/

set_option autoImplicit false

namespace Openraft.Runtime
open Openraft.Engine Openraft.LogIdList
open Openraft.Repl (Panic dassert)
open Openraft.Cluster (Payload)

variable {dbg : Bool} {n n' : Node}

/-- An infinite run in which no part of the node stops working. `run`: the loop of `run_engine_commands`
(`core/raft_core.rs:868-900`) goes on as long as the next command can be executed. `flush`, `sm`: the log store and the state machine worker
(`core/sm/worker.rs:96-160`) do what they were asked to do. `note`: the main loop (`core/raft_core.rs:906-981`) takes notifications again
and again if there are some again and again. -/
structure Works (dbg : Bool) (σ : Nat → Node) (ev : Nat → Ev) : Prop where
  ok : ∀ i, EvOk (σ i) (ev i)
  step : ∀ i, (σ i).step dbg (ev i) = .ok (σ (i + 1))
  run : ∀ i, (σ i).idle = false → ∃ j, i ≤ j ∧ ev j = .run
  flush : ∀ i, (σ i).pend ≠ [] → ∃ j, i ≤ j ∧ ev j = .flush
  sm : ∀ i, (σ i).smq ≠ [] → ∃ j, i ≤ j ∧ ev j = .sm
  note : (∀ k, ∃ j, k ≤ j ∧ (σ j).idle = true ∧ (σ j).rx ≠ []) → ∀ i, ∃ j now, i ≤ j ∧ (σ j).idle = true ∧ ev j = .note now

/-! ## what a step does to the queues -/

theorem exec_queues {c : Cmd} {n1 : Node} (hr : n.exec dbg c = .ok n1) :
    (∃ cs, n1.smq = n.smq ++ cs ∧ ∀ m io, SmCmd.install m io ∈ cs → c = .sm (.install m io)) ∧ ∃ ns, n1.rx = n.rx ++ ns := by
  have base : ∀ m : Node, m.smq = n.smq → (∃ ns, m.rx = n.rx ++ ns) →
      (∃ cs, m.smq = n.smq ++ cs ∧ ∀ m io, SmCmd.install m io ∈ cs → c = .sm (.install m io)) ∧ ∃ ns, m.rx = n.rx ++ ns :=
    fun m h1 h2 => ⟨⟨[], by rw [h1, List.append_nil], fun _ _ h => by cases h⟩, h2⟩
  have same : ∀ m : Node, m.rx = n.rx → ∃ ns, m.rx = n.rx ++ ns := fun m h => ⟨[], by rw [h, List.append_nil]⟩
  cases c with
  | updateIO w io =>
    simp only [Node.exec, out_bind, out_pure] at hr
    obtain ⟨n2, h1, hr⟩ := hr
    rw [submit_ok h1] at hr; subst hr
    exact base _ rfl ⟨_, rfl⟩
  | append v es =>
    simp only [Node.exec, out_bind, out_pure, lift_ok, unwrap_ok] at hr
    obtain ⟨l, hl, n2, h1, hr⟩ := hr
    rw [submit_ok h1] at hr; subst hr
    exact base _ rfl (same _ rfl)
  | saveVote v =>
    simp only [Node.exec, out_bind, out_pure] at hr
    obtain ⟨n2, h1, hr⟩ := hr
    rw [submit_ok h1] at hr; subst hr
    exact base _ rfl ⟨_, by simp only [Node.saveVote, List.append_assoc]; rfl⟩
  | purge u =>
    simp only [Node.exec, out_pure] at hr; subst hr
    exact base _ rfl (same _ rfl)
  | truncate s =>
    simp only [Node.exec, out_pure] at hr; subst hr
    exact base _ rfl (same _ rfl)
  | saveCommitted s =>
    simp only [Node.exec, out_pure] at hr; subst hr
    exact base _ rfl (same _ rfl)
  | sendVote v l =>
    simp only [Node.exec, out_bind, out_pure] at hr
    obtain ⟨_, _, hr⟩ := hr; subst hr
    exact base _ rfl (same _ rfl)
  | transfer v t l =>
    simp only [Node.exec, out_bind, out_pure] at hr
    obtain ⟨_, _, hr⟩ := hr; subst hr
    exact base _ rfl (same _ rfl)
  | replCommitted s =>
    simp only [Node.exec, out_pure] at hr; subst hr
    exact base _ rfl (same _ rfl)
  | heartbeat a b c =>
    simp only [Node.exec, out_pure] at hr; subst hr
    exact base _ rfl (same _ rfl)
  | apply a u =>
    simp only [Node.exec, out_bind, out_pure, lift_ok, unwrap_ok] at hr
    obtain ⟨first, hfi, _, _, hr⟩ := hr; subst hr
    exact ⟨⟨_, rfl, fun m io h => by simp at h⟩, same _ rfl⟩
  | replicate t r =>
    simp only [Node.exec] at hr
    split at hr
    · rw [out_pure] at hr; subst hr
      exact base _ rfl (same _ rfl)
    · cases hr
  | rebuild ts =>
    simp only [Node.exec, Node.rebuild, out_bind] at hr
    obtain ⟨_, _, hr⟩ := hr
    split at hr
    · rw [out_pure] at hr; subst hr
      exact base _ rfl (same _ rfl)
    · cases hr
  | sm c =>
    cases c with
    | install m io =>
      simp only [Node.exec, out_bind, out_pure] at hr
      obtain ⟨n2, h1, hr⟩ := hr
      rw [submit_ok h1] at hr; subst hr
      exact ⟨⟨[.install m io], rfl, fun m' io' h => by simp at h; rw [h.1, h.2]⟩, same _ rfl⟩
    | build =>
      simp only [Node.exec, out_pure] at hr; subst hr
      exact ⟨⟨[.build], rfl, fun m io h => by simp at h⟩, same _ rfl⟩
    | apply a b =>
      simp only [Node.exec, out_pure] at hr; subst hr
      exact ⟨⟨[.apply a b], rfl, fun m io h => by simp at h⟩, same _ rfl⟩
  | respond w tx r =>
    simp only [Node.exec, out_pure] at hr; subst hr
    exact base _ rfl (same _ rfl)

/-- the queue of the state machine worker grows at its end; its first command is taken by the worker -/
theorem View.smq {ev : Ev} (h : View dbg n n' ev) : (∃ cs, n'.smq = n.smq ++ cs) ∨ ev = .sm ∧ ∃ c, n.smq = c :: n'.smq := by
  have same : n'.smq = n.smq → (∃ cs, n'.smq = n.smq ++ cs) ∨ ev = .sm ∧ ∃ c, n.smq = c :: n'.smq :=
    fun h => Or.inl ⟨[], by rw [h, List.append_nil]⟩
  cases h with
  | none ev h1 h2 => subst h1; exact same rfl
  | run c n1 _ _ h1 h2 => subst h2; obtain ⟨⟨cs, h3, _⟩, _⟩ := exec_queues h1; exact Or.inl ⟨cs, h3⟩
  | input ev h1 _ h2 _ _ => exact same (congrArg (·.2.2.2.1) h2)
  | note now x xs _ h1 h2 _ _ _ => exact same (congrArg (·.2.2.2.1) h2)
  | flush op ops h1 h2 => subst h2; exact same rfl
  | apply a u q es h1 h2 h3 => right; rw [h3]; exact ⟨rfl, _, h1⟩
  | install m io q h1 h2 h3 => right; rw [h3]; exact ⟨rfl, _, h1⟩
  | startBuild q h1 h2 => subst h2; exact Or.inr ⟨rfl, _, h1⟩
  | build k m h1 h2 h3 h4 h5 => exact same h5

/-- the queue of notifications grows at its end; its first one is taken by the main loop when it is idle -/
theorem View.rx {ev : Ev} (h : View dbg n n' ev) : (∃ ns, n'.rx = n.rx ++ ns) ∨ (∃ now, ev = .note now) ∧ n.idle = true ∧ ∃ x, n.rx = x :: n'.rx := by
  have same : n'.rx = n.rx → (∃ ns, n'.rx = n.rx ++ ns) ∨ (∃ now, ev = .note now) ∧ n.idle = true ∧ ∃ x, n.rx = x :: n'.rx :=
    fun h => Or.inl ⟨[], by rw [h, List.append_nil]⟩
  cases h with
  | none ev h1 h2 => subst h1; exact same rfl
  | run c n1 _ _ h1 h2 => subst h2; obtain ⟨_, ns, h3⟩ := exec_queues h1; exact Or.inl ⟨ns, h3⟩
  | input ev h1 _ h2 _ _ => exact same (congrArg (·.2.1) h2)
  | note now x xs hid h1 h2 _ _ _ =>
    have q2 : n'.rx = xs := congrArg (·.2.1) h2
    right; rw [q2]; exact ⟨⟨now, rfl⟩, hid, x, h1⟩
  | flush op ops h1 h2 => subst h2; exact Or.inl ⟨_, rfl⟩
  | apply a u q es h1 h2 h3 => exact Or.inl ⟨_, h2.symm⟩
  | install m io q h1 h2 h3 => exact Or.inl ⟨_, h2⟩
  | startBuild q h1 h2 => subst h2; exact same rfl
  | build k m h1 h2 => exact Or.inl ⟨_, h2⟩

/-- a node that can execute a command does not change its engine but by executing it -/
theorem View.still {ev : Ev} (h : View dbg n n' ev) (hi : n.idle = false) : ev = .run ∨ n'.eng = n.eng ∧ n'.done = n.done := by
  cases h with
  | none ev h1 h2 => subst h1; exact Or.inr ⟨rfl, rfl⟩
  | run c n1 _ _ h1 h2 => exact Or.inl rfl
  | input ev h1 h _ _ _ => rw [h] at hi; cases hi
  | note now x xs h h1 h2 _ _ _ => rw [h] at hi; cases hi
  | flush op ops h1 h2 => subst h2; exact Or.inr ⟨rfl, rfl⟩
  | apply a u q es h1 h2 h3 h4 h5 h6 h7 _ => exact Or.inr ⟨h7, h6⟩
  | install m io q h1 h2 h3 h4 h5 h6 h7 => exact Or.inr ⟨h7, h6⟩
  | startBuild q h1 h2 => subst h2; exact Or.inr ⟨rfl, rfl⟩
  | build k m h1 h2 h3 h4 h5 h6 h7 => exact Or.inr ⟨h7, h6⟩

theorem idle_same (h1 : n'.eng = n.eng) (h2 : n'.done = n.done) : n'.idle = n.idle := by
  unfold Node.idle Node.head Node.ready Node.holds
  rw [h1, h2]

/-! ## infinite runs -/

namespace Works
variable {σ : Nat → Node} {ev : Nat → Ev}

/-- a command that can be executed is executed -/
theorem runs (h : Works dbg σ ev) (i : Nat) (hi : (σ i).idle = false) :
    ∃ j, i ≤ j ∧ ev j = .run ∧ (σ j).eng = (σ i).eng ∧ (σ j).done = (σ i).done := by
  classical
  obtain ⟨j, hj, he⟩ := h.run i hi
  have hex : ∃ d, ev (i + d) = .run := ⟨j - i, by rw [show i + (j - i) = j by omega]; exact he⟩
  have hmin := fun d => Nat.find_min (m := d) hex
  have hstay : ∀ d, d ≤ Nat.find hex → (σ (i + d)).eng = (σ i).eng ∧ (σ (i + d)).done = (σ i).done := by
    intro d
    induction d with
    | zero => intro _; exact ⟨rfl, rfl⟩
    | succ d ih =>
      intro hd
      obtain ⟨k1, k2⟩ := ih (by omega)
      have hidle : (σ (i + d)).idle = false := by rw [idle_same k1 k2]; exact hi
      rcases (step_view (h.step (i + d))).still hidle with k | ⟨k3, k4⟩
      · exact absurd k (hmin d (by omega))
      · exact ⟨by rw [← k1]; exact k3, by rw [← k2]; exact k4⟩
  obtain ⟨k1, k2⟩ := hstay _ (Nat.le_refl _)
  exact ⟨i + Nat.find hex, by omega, Nat.find_spec hex, k1, k2⟩

theorem busy_not_idle {n : Node} : n.idle = false ↔ ∃ c, n.head = some c ∧ n.ready c = true := by
  unfold Node.idle
  cases n.head with
  | none => simp
  | some c => simp

/-- the main loop gets back to waiting for messages again and again -/
theorem idles (h : Works dbg σ ev) (i : Nat) : ∃ j, i ≤ j ∧ (σ j).idle = true := by
  generalize hw : (σ i).eng.out.length - (σ i).done = w
  induction w using Nat.strongRecOn generalizing i with
  | _ w ih =>
    by_cases hi : (σ i).idle = true
    · exact ⟨i, Nat.le_refl _, hi⟩
    have hi : (σ i).idle = false := by simpa using hi
    obtain ⟨j, hj, he, k1, k2⟩ := h.runs i hi
    have hidle : (σ j).idle = false := by rw [idle_same k1 k2]; exact hi
    have hst := h.step j
    rw [he] at hst
    obtain ⟨c, hc, hrd⟩ := busy_not_idle.1 hidle
    have hlt : (σ j).done < (σ j).eng.out.length := (List.getElem?_eq_some_iff.1 hc).1
    cases step_view hst with
    | none _ _ h2 => exact absurd ⟨c, hc, hrd⟩ h2
    | input _ _ h2 _ _ _ => rw [hidle] at h2; cases h2
    | run c' n1 _ _ h1 h2 =>
      have d1 : (σ (j + 1)).done = (σ j).done + 1 := by rw [h2]; show n1.done + 1 = _; rw [(exec_frame h1).done]
      have d2 : (σ (j + 1)).eng.out = (σ j).eng.out := by rw [h2]; show n1.eng.out = _; exact exec_out h1
      rw [k1] at d2
      rw [k1] at hlt
      obtain ⟨t, t1, t2⟩ := ih ((σ (j + 1)).eng.out.length - (σ (j + 1)).done) (by rw [d2]; omega) (j + 1) rfl
      exact ⟨t, by omega, t2⟩

/-- such a run leaves nothing undone -/
theorem fair (h : Works dbg σ ev) : Fair dbg σ ev := by
  refine ⟨h.ok, h.step, fun i hb => ?_⟩
  by_contra hn
  push Not at hn
  have hq : ∀ j, i ≤ j → (σ j).queues = (σ i).queues := by
    intro j hj
    induction j, hj using Nat.le_induction with
    | base => rfl
    | succ j hj ih =>
      rw [← ih]
      have hna := hn j hj
      have hv := step_view (h.step j)
      generalize ev j = e at hv hna
      cases hv with
      | none ev h1 h2 => rw [h1]
      | run c n1 h1 h2 _ _ => exact absurd ⟨c, h1, h2⟩ hna
      | input ev h1 _ h2 _ _ => exact h2
      | note now x xs hid h1 h2 _ _ _ => exact absurd ⟨hid, by rw [h1]; simp⟩ hna
      | flush op ops h1 h2 => exact absurd (show (σ j).pend ≠ [] by rw [h1]; simp) hna
      | apply a u q es h1 h2 h3 => exact absurd (show (σ j).smq ≠ [] by rw [h1]; simp) hna
      | install m io q h1 h2 h3 => exact absurd (show (σ j).smq ≠ [] by rw [h1]; simp) hna
      | startBuild q h1 h2 => exact absurd (show (σ j).smq ≠ [] by rw [h1]; simp) hna
      | build k m h1 h2 => exact absurd (show k < (σ j).builds.length from (List.getElem?_eq_some_iff.1 h1).1) hna
  rcases hb with hb | hb | hb | hb
  · have hi := busy_not_idle.2 hb
    obtain ⟨j, hj, he, k1, k2⟩ := h.runs i hi
    refine hn j hj ?_
    rw [he]
    exact busy_not_idle.1 (by rw [idle_same k1 k2]; exact hi)
  · obtain ⟨j, hj, he⟩ := h.flush i hb
    refine hn j hj ?_
    rw [he]
    show (σ j).pend ≠ []
    rw [show (σ j).pend = (σ i).pend from congrArg (·.2.2.1) (hq j hj)]; exact hb
  · obtain ⟨j, hj, he⟩ := h.sm i hb
    refine hn j hj ?_
    rw [he]
    show (σ j).smq ≠ []
    rw [show (σ j).smq = (σ i).smq from congrArg (·.2.2.2.1) (hq j hj)]; exact hb
  · have hrx : ∀ j, i ≤ j → (σ j).rx ≠ [] := fun j hj => by
      rw [show (σ j).rx = (σ i).rx from congrArg (·.2.1) (hq j hj)]; exact hb
    obtain ⟨j, now, hj, hid, he⟩ := h.note (fun k => by
      obtain ⟨j, hj, hid⟩ := h.idles (max i k)
      exact ⟨j, by omega, hid, hrx j (by omega)⟩) i
    refine hn j hj ?_
    rw [he]
    exact ⟨hid, hrx j hj⟩

/-- the state machine worker gets to each of its commands -/
theorem smGets (h : Works dbg σ ev) (k : Nat) : ∀ i c, (σ i).smq[k]? = some c → ∃ j, i ≤ j ∧ ev j = .sm ∧ ∃ q, (σ j).smq = c :: q := by
  classical
  induction k using Nat.strongRecOn with
  | _ k ih =>
    intro i c hc
    have hne : (σ i).smq ≠ [] := by intro h0; rw [h0] at hc; cases hc
    obtain ⟨j, hj, he⟩ := h.sm i hne
    have hex : ∃ d, ev (i + d) = .sm := ⟨j - i, by rw [show i + (j - i) = j by omega]; exact he⟩
    have hmin := fun d => Nat.find_min (m := d) hex
    have hstay : ∀ d, d ≤ Nat.find hex → (σ (i + d)).smq[k]? = some c := by
      intro d
      induction d with
      | zero => intro _; exact hc
      | succ d ih' =>
        intro hd
        have k1 := ih' (by omega)
        rcases (step_view (h.step (i + d))).smq with ⟨cs, k2⟩ | ⟨k2, _⟩
        · rw [show i + (d + 1) = i + d + 1 from rfl, k2, List.getElem?_append_left (List.getElem?_eq_some_iff.1 k1).1]; exact k1
        · exact absurd k2 (hmin d (by omega))
    have hk := hstay _ (Nat.le_refl _)
    have hs := Nat.find_spec hex
    generalize Nat.find hex = d at hk hs
    cases k with
    | zero =>
      refine ⟨i + d, by omega, hs, ?_⟩
      cases hq : (σ (i + d)).smq with
      | nil => rw [hq] at hk; cases hk
      | cons a q => rw [hq] at hk; simp at hk; rw [hk]; exact ⟨q, rfl⟩
    | succ k =>
      have hst := step_view (h.step (i + d))
      have hlt := (List.getElem?_eq_some_iff.1 hk).1
      have hpop : ∃ c, (σ (i + d)).smq = c :: (σ (i + d + 1)).smq := by
        rw [hs] at hst
        cases hst with
        | none _ _ h2 => exact absurd (show (σ (i + d)).smq ≠ [] by intro h0; rw [h0] at hlt; simp at hlt) h2
        | input _ h2 _ _ _ _ => exact absurd (show (σ (i + d)).smq ≠ [] by intro h0; rw [h0] at hlt; simp at hlt) h2
        | apply a u q es h1 h2 h3 => rw [h3]; exact ⟨_, h1⟩
        | install m io q h1 h2 h3 => rw [h3]; exact ⟨_, h1⟩
        | startBuild q h1 h2 => rw [h2]; exact ⟨_, h1⟩
      obtain ⟨a, ha⟩ := hpop
      rw [ha] at hk
      obtain ⟨t, t1, t2⟩ := ih k (by omega) (i + d + 1) c (by simpa using hk)
      exact ⟨t, by omega, t2⟩

/-- the main loop gets to each of the notifications -/
theorem rxGets (h : Works dbg σ ev) (k : Nat) : ∀ i x, (σ i).rx[k]? = some x →
    ∃ j now, i ≤ j ∧ ev j = .note now ∧ (σ j).idle = true ∧ ∃ xs, (σ j).rx = x :: xs := by
  classical
  induction k using Nat.strongRecOn with
  | _ k ih =>
    intro i x hx
    by_contra hn
    -- as long as none is taken, the notification stays where it is
    have hstay : (∀ j now, i ≤ j → (σ j).idle = true → ev j ≠ .note now) → False := by
      intro hno
      have hs : ∀ j, i ≤ j → (σ j).rx[k]? = some x := by
        intro j hj
        induction j, hj using Nat.le_induction with
        | base => exact hx
        | succ j hj ih' =>
          rcases (step_view (h.step j)).rx with ⟨ns, k2⟩ | ⟨⟨now, k2⟩, k3, _⟩
          · rw [k2, List.getElem?_append_left (List.getElem?_eq_some_iff.1 ih').1]; exact ih'
          · exact absurd k2 (hno j now hj k3)
      obtain ⟨j, now, hj, hid, he⟩ := h.note (fun t => by
        obtain ⟨j, hj, hid⟩ := h.idles (max i t)
        refine ⟨j, by omega, hid, fun h0 => ?_⟩
        have := hs j (by omega)
        rw [h0] at this; cases this) i
      exact hno j now hj hid he
    have hex : ∃ d, (∃ now, ev (i + d) = .note now) ∧ (σ (i + d)).idle = true := by
      by_contra hc
      push Not at hc
      refine hstay fun j now hj hid he => ?_
      have := hc (j - i)
      rw [show i + (j - i) = j by omega] at this
      exact this ⟨now, he⟩ hid
    have hmin := fun d => Nat.find_min (m := d) hex
    have hkeep : ∀ d, d ≤ Nat.find hex → (σ (i + d)).rx[k]? = some x := by
      intro d
      induction d with
      | zero => intro _; exact hx
      | succ d ih' =>
        intro hd
        have k1 := ih' (by omega)
        rcases (step_view (h.step (i + d))).rx with ⟨cs, k2⟩ | ⟨k2, k3, _⟩
        · rw [show i + (d + 1) = i + d + 1 from rfl, k2, List.getElem?_append_left (List.getElem?_eq_some_iff.1 k1).1]; exact k1
        · exact absurd ⟨k2, k3⟩ (hmin d (by omega))
    have hk := hkeep _ (Nat.le_refl _)
    have hs := Nat.find_spec hex
    generalize Nat.find hex = d at hk hs
    obtain ⟨⟨now, he⟩, hid⟩ := hs
    cases k with
    | zero =>
      refine hn ⟨i + d, now, by omega, he, hid, ?_⟩
      cases hq : (σ (i + d)).rx with
      | nil => rw [hq] at hk; cases hk
      | cons a q => rw [hq] at hk; simp at hk; rw [hk]; exact ⟨q, rfl⟩
    | succ k =>
      have hst := step_view (h.step (i + d))
      have hlt := (List.getElem?_eq_some_iff.1 hk).1
      have hne : (σ (i + d)).rx ≠ [] := by intro h0; rw [h0] at hlt; simp at hlt
      have hpop : ∃ c, (σ (i + d)).rx = c :: (σ (i + d + 1)).rx := by
        rw [he] at hst
        cases hst with
        | none _ _ h2 => exact absurd ⟨hid, hne⟩ h2
        | input _ h2 _ _ _ _ => exact absurd ⟨hid, hne⟩ h2
        | note _ x xs _ h1 h2 _ _ _ =>
          have q2 : (σ (i + d + 1)).rx = xs := congrArg (·.2.1) h2
          rw [q2]; exact ⟨x, h1⟩
      obtain ⟨a, ha⟩ := hpop
      rw [ha] at hk
      obtain ⟨t, now', t1, t2⟩ := ih k (by omega) (i + d + 1) x (by simpa using hk)
      exact hn ⟨t, now', by omega, t2⟩

end Works

/-! ## the callers that wait -/

/-- an index that the state machine has not yet got over, or whose entry is in a report that is not yet handled -/
def Ahead (i : Nat) (n : Node) : Prop :=
  nextIndex n.sm.applied ≤ i ∨ ∃ l es, Note.applied l es ∈ n.rx ∧ ∃ y ∈ es, y.id.index = i

/-- the invariant: callers are in order; the snapshots the worker is told to install are those of the commands; the index of a waiting
caller is ahead -/
structure AInv (i : Nat) (n : Node) : Prop where
  sorted : BMap.Sorted n.clients
  src : ∀ m io, SmCmd.install m io ∈ n.smq → Cmd.sm (.install m io) ∈ n.eng.out
  ahead : ∀ tx, (i, tx) ∈ n.clients → Ahead i n

/-- no snapshot that was to be installed goes over the index -/
def Spared (i : Nat) (n : Node) : Prop := ∀ m io, Cmd.sm (.install m io) ∈ n.eng.out → nextIndex m.lastLogId ≤ i

theorem read_has {s : LogStore} (h : LogWf s) {a b i : Nat} (ha : nextIndex s.purged ≤ a) (hl : (s.read a b).length = b - a) (h1 : a ≤ i) (h2 : i < b) :
    ∃ y ∈ s.read a b, y.id.index = i := by
  have hlt : i - a < (s.read a b).length := by omega
  refine ⟨(s.read a b)[i - a], List.getElem_mem _, ?_⟩
  have he : (s.read a b)[i - a]? = some (s.read a b)[i - a] := List.getElem?_eq_getElem hlt
  generalize (s.read a b)[i - a] = e at he
  rw [h.read_eq b ha, List.getElem?_take] at he
  split at he
  · rw [List.getElem?_drop] at he
    have := h.consecutive _ e he
    omega
  · cases he

theorem sorted_key {m : List (Nat × Nat)} (h : BMap.Sorted m) {k v w : Nat} (h1 : (k, v) ∈ m) (h2 : BMap.get m k = some w) : w = v := by
  replace h2 := BMap.get_mem h2
  by_contra hne
  induction m with
  | nil => cases h1
  | cons a m ih =>
    have h' := List.pairwise_cons.1 (show List.Pairwise (· < ·) (a.1 :: BMap.keys m) from h)
    have hk : ∀ x, (k, x) ∈ m → k ∈ BMap.keys m := fun x hx => List.mem_map.2 ⟨(k, x), hx, rfl⟩
    rcases List.mem_cons.1 h1 with h1 | h1 <;> rcases List.mem_cons.1 h2 with h2 | h2
    · rw [← h1] at h2; exact hne (congrArg (·.2) h2)
    · have := h'.1 k (hk _ h2); rw [← h1] at this; exact Nat.lt_irrefl _ this
    · have := h'.1 k (hk _ h1); rw [← h2] at this; exact Nat.lt_irrefl _ this
    · exact ih h'.2 h1 h2

theorem sorted_filter {m : List (Nat × Nat)} (h : BMap.Sorted m) (p : Nat × Nat → Bool) : BMap.Sorted (m.filter p) := by
  have h1 : List.Sublist ((m.filter p).map (·.1)) (m.map (·.1)) := List.Sublist.map _ List.filter_sublist
  exact List.Pairwise.sublist h1 h

theorem answer_sorted (es : List Ent) (h : BMap.Sorted n.clients) : BMap.Sorted (n.answer es).clients := by
  induction es generalizing n with
  | nil => exact h
  | cons x es ih =>
    unfold Node.answer
    cases hg : BMap.get n.clients x.id.index with
    | none => exact ih h
    | some tx => exact ih (sorted_filter h _)

theorem answer_clients (es : List Ent) (n : Node) : ∀ c ∈ (n.answer es).clients, c ∈ n.clients ∧ ∀ y ∈ es, y.id.index ≠ c.1 := by
  induction es generalizing n with
  | nil => exact fun c hc => ⟨hc, fun y hy => by cases hy⟩
  | cons x es ih =>
    intro c hc
    unfold Node.answer at hc
    cases hg : BMap.get n.clients x.id.index with
    | none =>
      rw [hg] at hc
      obtain ⟨h1, h2⟩ := ih n c hc
      refine ⟨h1, fun y hy => ?_⟩
      rcases List.mem_cons.1 hy with rfl | hy
      · intro he
        have := BMap.get_isSome_iff.2 (List.mem_map.2 ⟨c, h1, rfl⟩ : c.1 ∈ BMap.keys n.clients)
        rw [← he, hg] at this; cases this
      · exact h2 y hy
    | some tx =>
      rw [hg] at hc
      obtain ⟨h1, h2⟩ := ih _ c hc
      obtain ⟨h3, h4⟩ := List.mem_filter.1 h1
      refine ⟨h3, fun y hy => ?_⟩
      rcases List.mem_cons.1 hy with rfl | hy
      · intro he; rw [← he] at h4; simp at h4
      · exact h2 y hy

/-- a caller that is not waiting any more has got the entry at its index -/
theorem answer_said (es : List Ent) {i tx : Nat} (h : BMap.Sorted n.clients) (hm : (i, tx) ∈ n.clients) :
    (∀ r ∈ n.replies, r ∈ (n.answer es).replies) ∧
    ((i, tx) ∈ (n.answer es).clients ∨ ∃ y ∈ es, y.id.index = i ∧ (tx, some y) ∈ (n.answer es).replies) := by
  have grow : ∀ (es : List Ent) (n : Node), ∀ r ∈ n.replies, r ∈ (n.answer es).replies := by
    intro es
    induction es with
    | nil => exact fun n r hr => hr
    | cons x es ih =>
      intro n r hr
      unfold Node.answer
      cases hg : BMap.get n.clients x.id.index with
      | none => exact ih n r hr
      | some tx => exact ih _ r (List.mem_append_left _ hr)
  refine ⟨grow es n, ?_⟩
  induction es generalizing n with
  | nil => exact Or.inl hm
  | cons x es ih =>
    unfold Node.answer
    cases hg : BMap.get n.clients x.id.index with
    | none =>
      rcases ih h hm with h1 | ⟨y, h1, h2⟩
      · exact Or.inl h1
      · exact Or.inr ⟨y, List.mem_cons_of_mem _ h1, h2⟩
    | some tx' =>
      by_cases hx : x.id.index = i
      · rw [hx] at hg
        have := sorted_key h hm hg
        subst this
        exact Or.inr ⟨x, List.mem_cons_self .., hx, grow es _ _ (List.mem_append_right _ (List.mem_singleton.2 rfl))⟩
      · have hin : (i, tx) ∈ BMap.remove n.clients x.id.index := List.mem_filter.2 ⟨hm, by simpa using fun h => hx h.symm⟩
        rcases ih (n := { n with clients := BMap.remove n.clients x.id.index, replies := n.replies ++ [(tx', some x)] })
          (sorted_filter h _) hin with h1 | ⟨y, h1, h2⟩
        · exact Or.inl h1
        · exact Or.inr ⟨y, List.mem_cons_of_mem _ h1, h2⟩

namespace AInv
variable {g0 : Gh} {a0 : IOId} {s0 c0 : Option LogId} {P S : List Cmd} {i : Nat}

/-- a step that changes no caller, no report of applied entries and no position of the state machine -/
theorem keep (h : AInv i n) (hc : n'.clients = n.clients) (hs : n'.sm.applied = n.sm.applied) (ho : n.eng.out <+: n'.eng.out)
    (hq : ∀ m io, SmCmd.install m io ∈ n'.smq → SmCmd.install m io ∈ n.smq)
    (hx : ∀ x ∈ n.rx, x ∈ n'.rx ∨ ∀ l es, x ≠ Note.applied l es) : AInv i n' := by
  refine ⟨by rw [hc]; exact h.sorted, fun m io hm => ho.subset (h.src m io (hq m io hm)), fun tx hm => ?_⟩
  rw [hc] at hm
  rcases h.ahead tx hm with k | ⟨l, es, k1, k2⟩
  · left; rw [hs]; exact k
  · right
    refine ⟨l, es, ?_, k2⟩
    rcases hx _ k1 with k | k
    · exact k
    · exact absurd rfl (k l es)

/-- where the index of a new entry is -/
theorem _root_.Openraft.Runtime.RInv.new_index {e : Eng} {p : Payload} {j : Nat} (hi : RInv g0 a0 s0 c0 P S n) (he : EInv g0 e)
    (hw : n.eng.writeEntry dbg p = .ok (some j, e)) : nextIndex n.eng.st.committed ≤ j ∧ n.eng.out <+: e.out := by
  obtain ⟨v, x, cs, h1, h2, h3⟩ := Eng.writeEntry_shape he hw
  have ho := he.lm.oks
  have hpre : n.eng.out <+: e.out := by rw [h1]; exact List.prefix_append _ _
  rw [h1, Gh.oks_append] at ho
  obtain ⟨ho1, ho2, ho3⟩ := ho
  obtain ⟨_, _, hidx, _, hanch⟩ := ho2
  have hidx := hidx x rfl
  have hrow := hi.z.row.runs ho1
  have hcom : (g0.runs n.eng.out).com = n.eng.st.committed := hi.flow.inv.lm.log.com
  refine ⟨?_, hpre⟩
  rw [← hcom]
  cases hc : (g0.runs n.eng.out).com with
  | none => exact Nat.zero_le _
  | some c =>
    have : c.index < nextIndex (g0.runs n.eng.out).store.lastLogId := by
      refine hrow.le_last ?_
      rcases hanch c hc with h7 | h7
      · exact List.mem_append_right _ h7
      · exact List.mem_append_left _ (by rw [h7]; simp)
    have : nextIndex (some c) = c.index + 1 := rfl
    omega

/-- the state machine is not beyond what is committed -/
theorem _root_.Openraft.Runtime.RInv.app_com (hi : RInv g0 a0 s0 c0 P S n) : nextIndex n.sm.applied ≤ nextIndex n.eng.st.committed := by
  have h1 := (hi.s.cur.le hi.oks).next
  have h2 := (Gh.com_runs hi.pend_oks).next
  rw [hi.pend_com] at h2
  omega

theorem register {e : Eng} {tx : Nat} {p : Payload} {o : Option Nat} (h : AInv i n) (hi : RInv g0 a0 s0 c0 P S n) (he : EInv g0 e)
    (hw : n.eng.writeEntry dbg p = .ok (o, e)) : AInv i (Node.register { n with eng := e } tx o) := by
  cases o with
  | none =>
    rw [Eng.writeEntry_none hw]
    exact h.keep rfl rfl (List.prefix_refl _) (fun m io hm => hm) fun x hx => Or.inl hx
  | some j =>
    obtain ⟨h1, h2⟩ := hi.new_index he hw
    refine ⟨BMap.sorted_insert h.sorted, fun m io hm => h2.subset (h.src m io hm), fun tx' hm => ?_⟩
    rcases BMap.mem_insert hm with h3 | h3
    · cases h3
      have := hi.app_com
      exact Or.inl (by show nextIndex n.sm.applied ≤ _; omega)
    · exact h.ahead tx' h3

theorem step {ev : Ev} (h : AInv i n) (hi : RInv g0 a0 s0 c0 P S n) (hsp : Spared i n) (ho : EvOk n ev) (hr : n.step dbg ev = .ok n') : AInv i n' := by
  obtain ⟨P', S', hi', _, _⟩ := hi.step ho hr
  have hout := (step_view hr).out
  cases ev with
  | msg now m =>
    simp only [Node.step] at hr
    split at hr
    · simp only [out_bind, lift_ok, out_pure] at hr
      obtain ⟨e, he, hr⟩ := hr
      subst hr
      exact h.keep rfl rfl hout (fun m io hm => hm) fun x hx => Or.inl hx
    · rw [out_pure] at hr; subst hr; exact h
  | write now tx' p =>
    simp only [Node.step] at hr
    split at hr
    · simp only [out_bind, lift_ok, out_pure] at hr
      obtain ⟨⟨o, e⟩, he, hr⟩ := hr
      subst hr
      refine h.register hi ?_ he
      cases o <;> exact hi'.flow.inv
    · rw [out_pure] at hr; subst hr; exact h
  | change now tx' c r =>
    simp only [Node.step] at hr
    split at hr
    · simp only [out_bind, lift_ok, out_pure] at hr
      obtain ⟨⟨o, e⟩, he, hr⟩ := hr
      subst hr
      have hinv : EInv g0 e := by cases o <;> exact hi'.flow.inv
      unfold Eng.changeMembership at he
      split at he
      · rw [pure_ok] at he; cases he
        exact h.keep rfl rfl (List.prefix_refl _) (fun m io hm => hm) fun x hx => Or.inl hx
      · exact h.register hi hinv he
    · rw [out_pure] at hr; subst hr; exact h
  | note now =>
    simp only [Node.step] at hr
    split at hr
    swap
    · rw [out_pure] at hr; subst hr; exact h
    cases hx : n.rx with
    | nil => rw [hx] at hr; simp only [out_pure] at hr; subst hr; exact h
    | cons x xs =>
      rw [hx] at hr
      have hpop : (∀ l es, x ≠ Note.applied l es) → ∀ y ∈ n.rx, y ∈ xs ∨ ∀ l es, y ≠ Note.applied l es := by
        intro hn y hy
        rw [hx] at hy
        rcases List.mem_cons.1 hy with rfl | hy
        · exact Or.inr hn
        · exact Or.inl hy
      cases x with
      | applied last es =>
        simp only [Node.handle, out_bind, lift_ok, out_pure] at hr
        obtain ⟨e, he, hr⟩ := hr; subst hr
        have hq := answer_queues es { n with rx := xs, eng := e }
        have hsm := (answer_rest es { n with rx := xs, eng := e }).2
        refine ⟨answer_sorted es h.sorted, fun m io hm => hout.subset (h.src m io (by rw [hq.2.2] at hm; exact hm)), fun tx hm => ?_⟩
        obtain ⟨h1, h2⟩ := answer_clients es _ _ hm
        rcases h.ahead tx h1 with k | ⟨l, es', k1, y, hy, k2⟩
        · left; rw [hsm]; exact k
        · right
          rw [hx] at k1
          rcases List.mem_cons.1 k1 with k1 | k1
          · simp only [Note.applied.injEq] at k1
            obtain ⟨rfl, rfl⟩ := k1
            exact absurd k2 (h2 y hy)
          · exact ⟨l, es', by rw [hq.1]; exact k1, y, hy, k2⟩
      | _ =>
        simp only [Node.handle, out_bind, lift_ok, out_pure] at hr
        obtain ⟨e, he, hr⟩ := hr; subst hr
        exact h.keep rfl rfl hout (fun m io hm => hm) (hpop (by simp))
  | run =>
    simp only [Node.step] at hr
    rcases run_view hr with rfl | ⟨c, n1, hc, hrd, h1, hr⟩
    · exact h
    subst hr
    obtain ⟨k1, k2, k3, k4, k5, k6⟩ := CInv.exec_keep h1
    obtain ⟨⟨cs, q1, q2⟩, ns, q3⟩ := exec_queues h1
    have hcl : ∀ x ∈ n1.clients, x ∈ n.clients := by
      intro x hx
      rcases k6 with ⟨s, hs, k6, _⟩ | ⟨_, k6, _⟩
      · rw [k6] at hx; exact (List.mem_filter.1 hx).1
      · rw [k6] at hx; exact hx
    refine ⟨?_, fun m io hm => ?_, fun tx hm => ?_⟩
    · show BMap.Sorted n1.clients
      rcases k6 with ⟨s, hs, k6, _⟩ | ⟨_, k6, _⟩
      · rw [k6]; exact sorted_filter h.sorted _
      · rw [k6]; exact h.sorted
    · have hm : SmCmd.install m io ∈ n1.smq := hm
      rw [q1] at hm
      show _ ∈ n1.eng.out
      rw [k1]
      rcases List.mem_append.1 hm with hm | hm
      · exact h.src m io hm
      · rw [← q2 m io hm]; exact List.mem_of_getElem? hc
    · rcases h.ahead tx (hcl _ hm) with k | ⟨l, es, k7, k8⟩
      · left; show nextIndex n1.sm.applied ≤ i; rw [k3]; exact k
      · right; exact ⟨l, es, by show _ ∈ n1.rx; rw [q3]; exact List.mem_append_left _ k7, k8⟩
  | flush =>
    simp only [Node.step, out_pure] at hr
    unfold Node.flush1 at hr
    cases hp : n.pend with
    | nil => rw [hp] at hr; simp only at hr; subst hr; exact h
    | cons op ops =>
      rw [hp] at hr; simp only at hr; subst hr
      exact h.keep rfl rfl hout (fun m io hm => hm) fun x hx => Or.inl (List.mem_append_left _ hx)
  | sm =>
    simp only [Node.step] at hr
    unfold Node.smStep at hr
    have hch := hi.s.chain
    cases hq : n.smq with
    | nil => rw [hq] at hr; simp only [out_pure] at hr; subst hr; exact h
    | cons c cs =>
      rw [hq] at hr hch
      cases c with
      | install m io =>
        simp only [out_pure] at hr; subst hr
        refine ⟨h.sorted, fun m io hm => h.src m io (by rw [hq]; exact List.mem_cons_of_mem _ hm), fun tx hm => ?_⟩
        left
        exact hsp m io (h.src m io (by rw [hq]; exact List.mem_cons_self ..))
      | build =>
        simp only [out_pure] at hr; subst hr
        exact h.keep rfl rfl hout (fun m io hm => by rw [hq]; exact List.mem_cons_of_mem _ hm) fun x hx => Or.inl hx
      | apply f l =>
        simp only at hr
        split at hr
        swap
        · cases hr
        next hlen =>
        rw [out_pure] at hr; subst hr
        have h1 : f.index = nextIndex n.sm.applied := hch.1
        have h2 : nextIndex n.sm.applied ≤ l.index := hch.2.2.1
        refine ⟨h.sorted, fun m io hm => h.src m io (by rw [hq]; exact List.mem_cons_of_mem _ hm), fun tx hm => ?_⟩
        rcases h.ahead tx hm with k | ⟨l', es', k1, k2⟩
        · by_cases hil : i ≤ l.index
          · right
            have hp := Nat.le_trans hi.d.purged.2 hi.snap_app.next
            exact ⟨l, _, List.mem_append_right _ (List.mem_singleton.2 rfl), read_has hi.rd_wf (by rw [h1]; exact hp) hlen (by omega) (by omega)⟩
          · left; show l.index + 1 ≤ i; omega
        · exact Or.inr ⟨l', es', List.mem_append_left _ k1, k2⟩
  | build k =>
    simp only [Node.step, out_pure] at hr
    unfold Node.buildDone at hr
    cases hb : n.builds[k]? with
    | none => rw [hb] at hr; simp only at hr; subst hr; exact h
    | some m =>
      rw [hb] at hr; simp only at hr; subst hr
      exact h.keep rfl rfl hout (fun m io hm => hm) fun x hx => Or.inl (List.mem_append_left _ hx)

/-- what becomes of a caller whose index is committed, in one step: it goes on waiting, it gets the entry, or a command that was
emitted before removes the index from the log -/
theorem kept {ev : Ev} {tx : Nat} (h : AInv i n) (hi : RInv g0 a0 s0 c0 P S n) (ho : EvOk n ev) (hr : n.step dbg ev = .ok n')
    (hm : (i, tx) ∈ n.clients) (hc : i < nextIndex n.eng.st.committed) :
    (i, tx) ∈ n'.clients ∨ (∃ e : Ent, e.id.index = i ∧ (tx, some e) ∈ n'.replies) ∨
    ∃ s, n.head = some (.truncate s) ∧ s.index ≤ i ∧ (tx, none) ∈ n'.replies := by
  obtain ⟨P', S', hi', _, _⟩ := hi.step ho hr
  have hreg : ∀ {e : Eng} {tx' : Nat} {p : Payload} {o : Option Nat}, EInv g0 e → n.eng.writeEntry dbg p = .ok (o, e) →
      (i, tx) ∈ (Node.register { n with eng := e } tx' o).clients := by
    intro e tx' p o he hw
    cases o with
    | none => exact hm
    | some j =>
      have h1 := (hi.new_index he hw).1
      exact BMap.mem_insert_ne hm (by show i ≠ j; omega)
  cases ev with
  | msg now m =>
    simp only [Node.step] at hr
    split at hr
    · simp only [out_bind, lift_ok, out_pure] at hr
      obtain ⟨e, he, hr⟩ := hr
      subst hr
      exact Or.inl hm
    · rw [out_pure] at hr; subst hr; exact Or.inl hm
  | write now tx' p =>
    simp only [Node.step] at hr
    split at hr
    · simp only [out_bind, lift_ok, out_pure] at hr
      obtain ⟨⟨o, e⟩, he, hr⟩ := hr
      subst hr
      refine Or.inl (hreg ?_ he)
      cases o <;> exact hi'.flow.inv
    · rw [out_pure] at hr; subst hr; exact Or.inl hm
  | change now tx' c r =>
    simp only [Node.step] at hr
    split at hr
    · simp only [out_bind, lift_ok, out_pure] at hr
      obtain ⟨⟨o, e⟩, he, hr⟩ := hr
      subst hr
      have hinv : EInv g0 e := by cases o <;> exact hi'.flow.inv
      unfold Eng.changeMembership at he
      split at he
      · rw [pure_ok] at he; cases he
        exact Or.inl hm
      · exact Or.inl (hreg hinv he)
    · rw [out_pure] at hr; subst hr; exact Or.inl hm
  | note now =>
    simp only [Node.step] at hr
    split at hr
    swap
    · rw [out_pure] at hr; subst hr; exact Or.inl hm
    cases hx : n.rx with
    | nil => rw [hx] at hr; simp only [out_pure] at hr; subst hr; exact Or.inl hm
    | cons x xs =>
      rw [hx] at hr
      cases x with
      | applied last es =>
        simp only [Node.handle, out_bind, lift_ok, out_pure] at hr
        obtain ⟨e, he, hr⟩ := hr; subst hr
        rcases (answer_said (n := { n with rx := xs, eng := e }) es h.sorted hm).2 with k | ⟨y, _, k⟩
        · exact Or.inl k
        · exact Or.inr (Or.inl ⟨y, k⟩)
      | _ =>
        simp only [Node.handle, out_bind, lift_ok, out_pure] at hr
        obtain ⟨e, he, hr⟩ := hr; subst hr
        exact Or.inl hm
  | run =>
    simp only [Node.step] at hr
    rcases run_view hr with rfl | ⟨c, n1, hc, hrd, h1, hr⟩
    · exact Or.inl hm
    subst hr
    obtain ⟨k1, k2, k3, k4, k5, k6⟩ := CInv.exec_keep h1
    rcases k6 with ⟨s, hs, k6, k7⟩ | ⟨_, k6, _⟩
    · by_cases hsi : i < s.index
      · left; show _ ∈ n1.clients; rw [k6]; exact List.mem_filter.2 ⟨hm, by simpa using hsi⟩
      · right; right
        refine ⟨s, by rw [hc, hs], by omega, ?_⟩
        show _ ∈ n1.replies
        rw [k7]
        exact List.mem_append_right _ (List.mem_map.2 ⟨(i, tx), List.mem_filter.2 ⟨hm, by simp; omega⟩, rfl⟩)
    · left; show _ ∈ n1.clients; rw [k6]; exact hm
  | flush =>
    simp only [Node.step, out_pure] at hr
    unfold Node.flush1 at hr
    cases hp : n.pend with
    | nil => rw [hp] at hr; simp only at hr; subst hr; exact Or.inl hm
    | cons op ops => rw [hp] at hr; simp only at hr; subst hr; exact Or.inl hm
  | sm =>
    simp only [Node.step] at hr
    unfold Node.smStep at hr
    cases hq : n.smq with
    | nil => rw [hq] at hr; simp only [out_pure] at hr; subst hr; exact Or.inl hm
    | cons c cs =>
      rw [hq] at hr
      cases c with
      | install m io => simp only [out_pure] at hr; subst hr; exact Or.inl hm
      | build => simp only [out_pure] at hr; subst hr; exact Or.inl hm
      | apply f l =>
        simp only at hr
        split at hr
        · rw [out_pure] at hr; subst hr; exact Or.inl hm
        · cases hr
  | build k =>
    simp only [Node.step, out_pure] at hr
    unfold Node.buildDone at hr
    cases hb : n.builds[k]? with
    | none => rw [hb] at hr; simp only at hr; subst hr; exact Or.inl hm
    | some m => rw [hb] at hr; simp only at hr; subst hr; exact Or.inl hm

end AInv

theorem SmOk.covers {V : Option LogId → Prop} {p q : Option LogId} {cs : List SmCmd} {i : Nat} (h : SmOk V p cs q) (h1 : nextIndex p ≤ i)
    (h2 : i < nextIndex q) (hs : ∀ m io, SmCmd.install m io ∈ cs → nextIndex m.lastLogId ≤ i) :
    ∃ f l, SmCmd.apply f l ∈ cs ∧ f.index ≤ i ∧ i ≤ l.index := by
  induction cs generalizing p with
  | nil => have : p = q := h; subst this; omega
  | cons c cs ih =>
    have hs' : ∀ m io, SmCmd.install m io ∈ cs → nextIndex m.lastLogId ≤ i := fun m io hm => hs m io (List.mem_cons_of_mem _ hm)
    have lift : (∃ f l, SmCmd.apply f l ∈ cs ∧ f.index ≤ i ∧ i ≤ l.index) → ∃ f l, SmCmd.apply f l ∈ c :: cs ∧ f.index ≤ i ∧ i ≤ l.index :=
      fun ⟨f, l, k1, k2⟩ => ⟨f, l, List.mem_cons_of_mem _ k1, k2⟩
    cases c with
    | apply f l =>
      by_cases hl : i ≤ l.index
      · exact ⟨f, l, List.mem_cons_self .., by rw [h.1]; exact h1, hl⟩
      · exact lift (ih h.2.2.2.2 (by simp only [nextIndex_some]; omega) hs')
    | install m io => exact lift (ih h.2.2.2 (hs m io (List.mem_cons_self ..)) hs')
    | build => exact lift (ih h h1 hs')

/-- **A caller whose entry is committed is answered.** -/
theorem Works.answered {σ : Nat → Node} {ev : Nat → Ev} (h : Works dbg σ ev) (hl : ∃ g0 a0 s0 c0 P S, RInv g0 a0 s0 c0 P S (σ 0))
    (hb : Born (σ 0)) (hq : (σ 0).smq = []) (hs : ∀ j, ¬ Halted (σ j)) {i tx t : Nat} (hsp : ∀ j, Spared i (σ j)) (hm : (i, tx) ∈ (σ t).clients)
    (hc : i < nextIndex (σ t).eng.st.committed) :
    ∃ j, t ≤ j ∧ ((∃ e : Ent, e.id.index = i ∧ (tx, some e) ∈ (σ j).replies) ∨
      (tx, none) ∈ (σ j).replies ∧ ∃ s, Cmd.truncate s ∈ (σ t).pending ∧ s.index ≤ i) := by
  obtain ⟨g0, a0, s0, c0, P0, S0, hi0⟩ := hl
  have hinv : ∀ j, ∃ P S, RInv g0 a0 s0 c0 P S (σ j) := by
    intro j
    induction j with
    | zero => exact ⟨P0, S0, hi0⟩
    | succ j ih => obtain ⟨P, S, k⟩ := ih; obtain ⟨P', S', k', _⟩ := k.step (h.ok j) (h.step j); exact ⟨P', S', k'⟩
  have hai : ∀ j, AInv i (σ j) := by
    intro j
    induction j with
    | zero =>
      refine ⟨?_, ?_, ?_⟩
      · rw [hb.clients]; exact List.Pairwise.nil
      · rw [hq]; intro m io hm; cases hm
      · rw [hb.clients]; intro tx hm; cases hm
    | succ j ih => obtain ⟨P, S, k⟩ := hinv j; exact ih.step k (hsp j) (h.ok j) (h.step j)
  have hfair := h.fair
  -- what is committed stays committed
  have hcom : ∀ j, (g0.runs (σ j).eng.out).com = (σ j).eng.st.committed := fun j => by
    obtain ⟨P, S, k⟩ := hinv j; exact k.flow.inv.lm.log.com
  have hpast : ∀ (cs : List Cmd), (σ t).eng.out <+: cs → g0.Oks cs → i < nextIndex (g0.runs cs).com := by
    rintro _ ⟨ds, rfl⟩ ho
    rw [Gh.oks_append] at ho
    have := (Gh.com_runs ho.2).next
    rw [hcom t] at this
    rw [Gh.runs_append]; omega
  have hcj : ∀ j, t ≤ j → i < nextIndex (σ j).eng.st.committed := fun j hj => by
    obtain ⟨P, S, k⟩ := hinv j
    rw [← hcom j]
    exact hpast _ (hfair.mono t j hj).2.1 k.flow.inv.lm.oks
  by_contra hn
  have hno : ∀ j, t ≤ j → ¬ ((∃ e : Ent, e.id.index = i ∧ (tx, some e) ∈ (σ j).replies) ∨
      (tx, none) ∈ (σ j).replies ∧ ∃ s, Cmd.truncate s ∈ (σ t).pending ∧ s.index ≤ i) := fun j hj hh => hn ⟨j, hj, hh⟩
  -- the caller waits for ever
  have hstay : ∀ j, t ≤ j → (i, tx) ∈ (σ j).clients := by
    intro j hj
    induction j, hj using Nat.le_induction with
    | base => exact hm
    | succ j hj ih =>
      obtain ⟨P, S, k⟩ := hinv j
      rcases (hai j).kept k (h.ok j) (h.step j) ih (hcj j hj) with k1 | k1 | ⟨s, k1, k2, k3⟩
      · exact k1
      · exact absurd (Or.inl k1) (hno (j + 1) (by omega))
      · refine absurd (Or.inr ⟨k3, s, ?_, k2⟩) (hno (j + 1) (by omega))
        have h7 : nextIndex (g0.runs (P ++ S)).com ≤ s.index := (k.head k1).1.2
        obtain ⟨m1, m2, _⟩ := hfair.mono t j hj
        have hlt : (σ j).done < (σ t).eng.out.length := by
          by_contra hge
          have : (σ t).eng.out <+: P ++ S := by
            rw [← k.split]
            exact List.prefix_take_iff.2 ⟨m2, by omega⟩
          have := hpast _ this k.oks
          omega
        have hget : (σ t).eng.out[(σ j).done]? = some (.truncate s) := by
          obtain ⟨ds, hds⟩ := m2
          unfold Node.head at k1
          rw [← hds, List.getElem?_append_left hlt] at k1
          exact k1
        unfold Node.pending
        refine List.mem_of_getElem? (i := (σ j).done - (σ t).done) ?_
        rw [List.getElem?_drop, show (σ t).done + ((σ j).done - (σ t).done) = (σ j).done by omega]
        exact hget
  -- a report with the entry is fatal
  have hrx : ∀ j, t ≤ j → ∀ l es, Note.applied l es ∈ (σ j).rx → ∀ y ∈ es, y.id.index ≠ i := by
    intro j hj l es hx y hy hyi
    obtain ⟨k, hk⟩ := List.getElem?_of_mem hx
    obtain ⟨r, now, hr, he, hid, xs, hxs⟩ := h.rxGets k j _ hk
    have hst := h.step r
    rw [he] at hst
    simp only [Node.step, if_pos hid, hxs, Node.handle, out_bind, lift_ok, out_pure] at hst
    obtain ⟨e, _, hst⟩ := hst
    have h3 := hstay (r + 1) (by omega)
    rw [← hst] at h3
    exact (answer_clients es _ _ h3).2 y hy hyi
  -- all commands up to now are executed
  obtain ⟨j, hj, hd⟩ : ∃ j, t ≤ j ∧ (σ t).eng.out.length ≤ (σ j).done := by
    by_cases h0 : (σ t).eng.out.length = 0
    · exact ⟨t, Nat.le_refl _, by omega⟩
    · obtain ⟨j, hj, hd⟩ := hfair.all hs t ((σ t).eng.out.length - 1) (by omega)
      exact ⟨j, hj, by omega⟩
  obtain ⟨P, S, k⟩ := hinv j
  have hpc : i < nextIndex (g0.runs (P ++ S)).com := by
    refine hpast _ ?_ k.oks
    rw [← k.split]
    exact List.prefix_take_iff.2 ⟨(hfair.mono t j hj).2.1, hd⟩
  rcases (hai j).ahead tx (hstay j hj) with k1 | ⟨l, es, k1, y, k2, k3⟩
  swap
  · exact hrx j hj l es k1 y k2 k3
  obtain ⟨f, l, hm1, hf, hl'⟩ := k.s.chain.covers k1 hpc fun m io hmi => hsp j m io ((hai j).src m io hmi)
  obtain ⟨q, hq1⟩ := List.getElem?_of_mem hm1
  obtain ⟨r, hr, he, qs, hqs⟩ := h.smGets q j _ hq1
  obtain ⟨P', S', k'⟩ := hinv r
  have hst := h.step r
  rw [he] at hst
  simp only [Node.step, Node.smStep, hqs] at hst
  split at hst
  swap
  · cases hst
  next hlen =>
  rw [out_pure] at hst
  have hch := k'.s.chain
  rw [hqs] at hch
  have hp := Nat.le_trans k'.d.purged.2 k'.snap_app.next
  obtain ⟨y, hy, hyi⟩ := read_has k'.rd_wf (by rw [hch.1]; exact hp) hlen hf (by omega)
  exact hrx (r + 1) (by omega) l _ (by rw [← hst]; exact List.mem_append_right _ (List.mem_singleton.2 rfl)) y hy hyi

/-- **A caller whose entry is removed from the log does not wait for ever.** -/
theorem Works.removed {σ : Nat → Node} {ev : Nat → Ev} (h : Works dbg σ ev) (hs : ∀ j, ¬ Halted (σ j)) {i tx t : Nat} {s : LogId}
    (hm : Cmd.truncate s ∈ (σ t).pending) (hsi : s.index ≤ i) : ∃ j, t ≤ j ∧ (i, tx) ∉ (σ j).clients := by
  unfold Node.pending at hm
  obtain ⟨k, hk⟩ := List.getElem?_of_mem hm
  rw [List.getElem?_drop] at hk
  have hlt := (List.getElem?_eq_some_iff.1 hk).1
  obtain ⟨j, hj, hd⟩ := h.fair.all hs t ((σ t).done + k) hlt
  -- the step that executes the truncation
  obtain ⟨r, hr, hrd, hrs⟩ : ∃ r, t ≤ r ∧ (σ r).done = (σ t).done + k ∧ (σ (r + 1)).done = (σ t).done + k + 1 := by
    clear hm
    induction j, hj using Nat.le_induction with
    | base => omega
    | succ j hj ih =>
      by_cases hlt' : (σ t).done + k < (σ j).done
      · exact ih hlt'
      · rcases (step_view (h.step j)).work with k1 | ⟨k1, _⟩
        · exact ⟨j, hj, by omega, by omega⟩
        · omega
  have hhead : (σ r).head = some (.truncate s) := by
    unfold Node.head
    obtain ⟨ds, hds⟩ := (h.fair.mono t r hr).2.1
    rw [hrd, ← hds, List.getElem?_append_left hlt]
    exact hk
  refine ⟨r + 1, by omega, ?_⟩
  have hv := step_view (h.step r)
  generalize σ (r + 1) = n' at hv hrs
  generalize ev r = e at hv
  have hcl : ∀ c n1, (σ r).head = some c → (σ r).exec dbg c = .ok n1 → (i, tx) ∉ n1.clients := by
    intro c n1 hc hx
    rw [hhead] at hc; cases hc
    obtain ⟨_, _, _, _, _, k6⟩ := CInv.exec_keep hx
    rcases k6 with ⟨s', hs', k6, _⟩ | ⟨k6, _⟩
    · cases hs'
      rw [k6]
      intro hin
      have := (List.mem_filter.1 hin).2
      simp at this; omega
    · exact absurd rfl (k6 s)
  cases hv with
  | none ev h1 h2 => rw [h1] at hrs; omega
  | run c n1 h1 h2 h3 h4 => rw [h4]; exact hcl c n1 h1 h3
  | input ev h1 _ h2 _ _ => have q1 : n'.done = (σ r).done := congrArg (·.1) h2; omega
  | note now x xs _ h1 h2 _ _ _ => have q1 : n'.done = (σ r).done := congrArg (·.1) h2; omega
  | flush op ops h1 h2 => rw [h2] at hrs; exact absurd hrs (by show ¬ (σ r).done = _; omega)
  | apply a u q es h1 h2 h3 h4 h5 h6 h7 _ => omega
  | install m io q h1 h2 h3 h4 h5 h6 h7 => omega
  | startBuild q h1 h2 => rw [h2] at hrs; exact absurd hrs (by show ¬ (σ r).done = _; omega)
  | build k m h1 h2 h3 h4 h5 h6 h7 => omega

end Openraft.Runtime
