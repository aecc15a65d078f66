import Verif.Cluster.Steps2

/-!
# The invariants hold in all reachable states

and what two states of one execution have to do with each other.
-/

set_option autoImplicit false

namespace Openraft.Cluster

variable {m0 : Membership} {R : Rules}

/-- Zero or more steps. -/
inductive Steps (m0 : Membership) (R : Rules) (s : State) : State → Prop
  | refl : Steps m0 R s s
  | step {s' : State} (e : Event) : Steps m0 R s s' → ok m0 R s' e = true → Steps m0 R s (next m0 s' e)

theorem Reachable.steps {s s' : State} (h : Reachable m0 R s) (hs : Steps m0 R s s') : Reachable m0 R s' := by
  induction hs with
  | refl => exact h
  | step e _ hok ih => exact ih.step e hok

theorem Steps.trans {s1 s2 s3 : State} (h1 : Steps m0 R s1 s2) (h2 : Steps m0 R s2 s3) : Steps m0 R s1 s3 := by
  induction h2 with
  | refl => exact h1
  | step e _ hok ih => exact ih.step e hok

theorem steps_run {s0 s s' : State} {es : List Event} (h : Steps m0 R s0 s) (hr : run m0 R s es = some s') :
    Steps m0 R s0 s' := by
  induction es generalizing s with
  | nil => simp only [run, Option.some.injEq] at hr; exact hr ▸ h
  | cons e es ih =>
    simp only [run] at hr
    split at hr
    · rename_i hok; exact ih (h.step e hok) hr
    · cases hr

/-- the history of a fresh cluster -/
def Ghost.init (m0 : Membership) (keep : Bool) : Ghost where
  ll L := if L = ⟨0, 0⟩ then [initEntry m0] else []
  cl _ := none
  el _ := none
  acks := []
  grants := []
  commits := []
  keep := keep

theorem init_inv (m0 : Membership) (keep : Bool) : Inv m0 init (Ghost.init m0 keep) where
  ghost := {
    ll0 := by simp [Ghost.init]
    llEl := by
      intro L h
      right
      by_contra h0
      exact h (by simp [Ghost.init, h0])
    goodL := by
      intro L i e he
      by_cases h : L = ⟨0, 0⟩
      · subst h
        simp only [Ghost.init, if_true] at he ⊢
        have hi := lt_of_get he
        simp at hi; subst hi
        simp at he; subst he
        simp [initEntry]
      · simp [Ghost.init, h] at he
    goodC := by intro L l h; simp [Ghost.init] at h
    clLt := by intro L l h; simp [Ghost.init] at h
    elCl := by intro L l h; simp [Ghost.init] at h
    grantLast := by intro a h; simp [Ghost.init] at h
    grantGood := by intro a h; simp [Ghost.init] at h
    grantAck := by intro a h; simp [Ghost.init] at h
    ackEl := by intro a h; simp [Ghost.init] at h
    commit := by intro a h; simp [Ghost.init] at h
    change := by intro X x e m h; simp [Ghost.init] at h }
  node n := {
    good := by intro i e he; simp [init, Node.mem] at he
    lids := by intro e he; simp [init, Node.mem] at he
    voteEl := by intro h; simp [init] at h
    bufNil := by intro _; rfl
    lead := by intro ld h; simp [init] at h
    cand := by intro ld h; simp [init] at h
    ownCl := by intro L h; simp [Ghost.init] at h
    acks := by intro a h; simp [Ghost.init] at h
    grants := by intro a h; simp [Ghost.init] at h
    commLe := by simp [init]
    comm := Or.inl (by simp [init, Node.mem])
    sm := by simp [init]
    acc := by intro _ h; simp [init] at h }
  msg := by intro a h; simp [init] at h
  task := by intro a h; simp [init] at h
  hist := by intro a h; simp [init] at h

theorem steps_inv (hR : R.Safe) (hm0 : m0.configs ≠ []) {s s' : State} {g : Ghost} (h : Inv m0 s g)
    (hk : g.keep = true → R.keepCommitted = true) (hs : Steps m0 R s s') :
    ∃ g', GhostLe g g' ∧ Inv m0 s' g' := by
  induction hs with
  | refl => exact ⟨g, GhostLe.refl g, h⟩
  | step e _ hok ih =>
    obtain ⟨g1, hle, h1⟩ := ih
    obtain ⟨g2, hle2, h2⟩ := step_inv hR hm0 h1 (by rw [hle.keep]; exact hk) hok
    exact ⟨g2, hle.trans hle2, h2⟩

theorem reach_inv (hR : R.Safe) (hm0 : m0.configs ≠ []) {s : State} (h : Reachable m0 R s) :
    ∃ g, g.keep = R.keepCommitted ∧ Inv m0 s g := by
  induction h with
  | init => exact ⟨Ghost.init m0 R.keepCommitted, rfl, init_inv m0 _⟩
  | step e _ hok ih =>
    obtain ⟨g1, hk, h1⟩ := ih
    obtain ⟨g2, hle2, h2⟩ := step_inv hR hm0 h1 (by rw [hk]; exact id) hok
    exact ⟨g2, hle2.keep.trans hk, h2⟩

/-- Two states of one execution. -/
theorem two_inv (hR : R.Safe) (hm0 : m0.configs ≠ []) {s s' : State} (h : Reachable m0 R s)
    (hs : Steps m0 R s s') :
    ∃ g g', g.keep = R.keepCommitted ∧ GhostLe g g' ∧ Inv m0 s g ∧ Inv m0 s' g' := by
  obtain ⟨g, hk, hi⟩ := reach_inv hR hm0 h
  obtain ⟨g', hle, hi'⟩ := steps_inv hR hm0 hi (by rw [hk]; exact id) hs
  exact ⟨g, g', hk, hle, hi, hi'⟩

end Openraft.Cluster
