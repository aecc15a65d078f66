import Verif.Engine.Flow

/-!
# The command stream of a node that starts
-/

set_option autoImplicit false

namespace Openraft.Engine

/-- ids reported by commands that do not cut the log are held by the log -/
theorem held_of_plain {g : Gh} {a : IOId} {cs : List Cmd} (hw : g.Whole) (ho : g.Oks cs) (hk : COks g a cs)
    (hp : ∀ c ∈ cs, c.plain = true) {c : Cmd} {io : IOId} (hc : c ∈ cs) (hr : c.reports = some io) :
    Held (g.runs cs) io.last := by
  obtain ⟨x, y, rfl⟩ := List.append_of_mem hc
  rw [COks_append] at hk
  rw [Gh.oks_append] at ho
  have hwx := (hw.runs ho.1 fun z hz => hp z (by simp [hz])).1
  have hwc := hwx.run ho.2.1 (hp c (by simp))
  have hwy := hwc.1.runs ho.2.2 fun z hz => hp z (by simp [hz])
  rw [Gh.runs_append]
  refine hwy.2 _ ?_
  have hk := hk.2.1
  cases c with
  | append v es =>
    obtain ⟨z, hz, _⟩ := hk
    simp only [Cmd.reports, hz, Option.map_some, Option.some.injEq] at hr
    subst hr
    intro q hq
    left
    have : z.id = q := Option.some.inj hq
    subst this
    simp only [Gh.ids, Gh.run, LogStore.append, List.map_append]
    exact List.mem_append_right _ (List.mem_map_of_mem (List.mem_of_getLast? hz))
  | updateIO w j =>
    simp only [Cmd.reports, Option.some.injEq] at hr
    subst hr
    exact hk.2.2
  | _ => cases hr

namespace Flow
variable {g0 : Gh} {s0 : Option LogId} {e e' : Eng} {dbg : Bool} {now : Nat}

/-- a node that starts -/
theorem startup (h : Eng.StartOk g0 e) (ho : e.out = []) (ha : e.st.io.prog.accepted = some (IOId.new e.st.vote.data))
    (hs : e.st.snap.lastLogId = s0) (h0 : Le2 s0 g0.com) (hr : e.startup dbg now = .ok e') :
    Flow g0 (IOId.new e.st.vote.data) s0 e' := by
  have hi := Eng.inv_startup h hr
  obtain ⟨cs, hout, hio⟩ := Eng.io_startup h (fun a ha' => by rw [ha] at ha'; cases ha'; rfl) hr
  obtain ⟨h1, h2⟩ := hio _ ha
  obtain ⟨cs2, hout2, hp⟩ : Emits PlainC e e' := Eng.emits_startup (dbg := dbg) (now := now) e e' hr
  obtain ⟨cs3, hout3, hpr⟩ := Eng.pairs_startup (dbg := dbg) (now := now) e e' hr
  have hout3 : e'.out = e.out ++ cs3 := hout3
  rw [ho, List.nil_append] at hout hout2 hout3
  rw [ho] at h1
  have h1 : COks g0 (IOId.new e.st.vote.data) cs := h1
  have e2 : cs2 = cs := hout2.symm.trans hout
  have e3 : cs3 = cs := hout3.symm.trans hout
  subst e2 e3
  have hoks := hi.lm.oks
  rw [hout] at hoks
  have hw : g0.Whole := by
    have := h.lm.log.whole
    rw [ho] at this; exact this
  refine ⟨hi, by rw [hout]; exact h1, by rw [hout]; exact h2, ?_, ?_, h0, by rw [hout]; exact hpr⟩
  · intro l hl c hc io hc' _
    rw [hout] at hc ⊢
    exact held_of_plain hw hoks h1 hp hc hc'
  · left
    have hk : e'.st.snap = e.st.snap := Eng.keeps_snap (Eng.keeps_startup (dbg := dbg) (now := now) e e' hr)
    rw [← hs, hk]

/-- a node that never ran before -/
theorem fresh (cfg : Cfg) (now : Nat) : Flow Gh.empty (IOId.new ⟨⟨0, 0⟩, false⟩) none (Eng.fresh cfg now) :=
  ⟨Eng.fresh_inv cfg now, trivial, rfl, fun l hl => (by cases hl), Or.inl rfl, Le2.refl _, Paired.nil⟩

end Flow
end Openraft.Engine
