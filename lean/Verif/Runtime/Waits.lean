import Verif.Engine.Waits
import Verif.Runtime.Builds
import Verif.Runtime.Life

/-!
# A command that waits: what it is waiting for is on its way

`Waits`: for every command that waits, what it waits for has happened or has been submitted and is not yet
reported. It holds as long as the recorded flushed id and the recorded snapshot do not go back.
-/

set_option autoImplicit false

namespace Openraft.Engine
open Openraft.Repl (Panic dassert)

/-- which commands can wait for a snapshot or an entry -/
theorem COk.awaits {g : Gh} {a : IOId} {c : Cmd} {k : Cond} (h : COk g a c) (hk : c.condition = some k)
    (hn : ∀ io, k ≠ .ioFlushed io) : c.awaits = true := by
  cases c with
  | purge u => rfl
  | updateIO w io =>
    have hk : w = some k := hk
    rcases h.2.1 with h1 | h1
    · rw [h1.1] at hk; exact absurd (Option.some.inj hk).symm (hn a)
    · rw [h1.1] at hk; cases hk
  | respond w tx r =>
    have hk : w = some k := hk
    cases r with
    | append x v u =>
      cases x with
      | success => rw [h.1] at hk; exact absurd (Option.some.inj hk).symm (hn a)
      | conflict => rw [show w = none from h] at hk; cases hk
      | higherVote v' => rw [h.2] at hk; cases hk
    | vote v l g => rw [h.1] at hk; exact absurd (Option.some.inj hk).symm (hn _)
    | snapshot v => rfl
    | init b => rfl
  | _ => cases hk

theorem COks.mem {g : Gh} {a : IOId} {cs : List Cmd} (h : COks g a cs) {c : Cmd} (hc : c ∈ cs) : ∃ g' a', COk g' a' c := by
  induction cs generalizing g a with
  | nil => cases hc
  | cons d cs ih =>
    rcases List.mem_cons.1 hc with rfl | hc
    · exact ⟨_, _, h.1⟩
    · exact ih h.2 hc

/-- the commands `cs` that an input adds: those that wait for a snapshot wait for one that `e` or the storage has, or
that an earlier command installs; those that wait for an entry come after the command that appends it, with
nothing that waits in between -/
structure AddedOk (e e' : Eng) (cs : List Cmd) : Prop where
  out : e'.out = e.out ++ cs
  snap : e'.st.snap.lastLogId ≤ e.st.snap.lastLogId ∨ e'.st.snap.lastLogId ≤ e'.st.io.snapshot ∨
    ∃ (k : Nat) (m : SnapMeta) (io : IOId), cs[k]? = some (.sm (.install m io)) ∧ e'.st.snap.lastLogId ≤ m.lastLogId
  waitS : ∀ (k : Nat) (c : Cmd) (l : Option LogId), cs[k]? = some c → c.condition = some (.snapshot l) →
    l ≤ e.st.snap.lastLogId ∨ l ≤ e'.st.io.snapshot ∨
    ∃ (i : Nat) (m : SnapMeta) (io : IOId), i < k ∧ cs[i]? = some (.sm (.install m io)) ∧ l ≤ m.lastLogId
  waitL : ∀ (k : Nat) (c : Cmd) (l : Option LogId), cs[k]? = some c → c.condition = some (.logFlushed l) →
    ∃ (i : Nat) (v : Vote) (x : Ent), i < k ∧ cs[i]? = some (.append v [x]) ∧ l = some x.id ∧
      ∀ (t : Nat) (d : Cmd), i < t → t < k → cs[t]? = some d → d.condition = none

theorem upto_le_snap {g0 : Gh} {e : Eng} (h : LM g0 e) : e.st.purgeUpto ≤ e.st.snap.lastLogId := by
  have hj := h.log
  have h2 := hj.ord2
  have hi := hj.uptoIn
  have hs := hj.snapIn
  change ∀ x, e.st.purgeUpto = some x → _ at hi
  change ∀ x, e.st.snap.lastLogId = some x → _ at hs
  change nextIndex e.st.purgeUpto ≤ nextIndex e.st.snap.lastLogId at h2
  cases ha : e.st.purgeUpto with
  | none => exact OptOrd.none_le' _
  | some x =>
    cases hb : e.st.snap.lastLogId with
    | none => rw [ha, hb] at h2; simp at h2
    | some y =>
      rw [ha, hb] at h2
      exact (hj.cons.le_iff (hi x ha) (hs y hb)).2 (by simpa using h2)

theorem addedOk_input {g0 : Gh} {a0 : IOId} {s0 : Option LogId} {dbg : Bool} {now : Nat} {e e' : Eng} {i : Input} (hf : Flow g0 a0 s0 e')
    (hr : e.input dbg now i = .ok e') : ∃ cs, AddedOk e e' cs := by
  have hcok : ∀ cs, e'.out = e.out ++ cs → ∀ c ∈ cs, ∃ g a, COk g a c := fun cs ho c hc =>
    hf.ios.mem (by rw [ho]; exact List.mem_append_right _ hc)
  have hplain : ∀ {c : Cmd}, (∃ g a, COk g a c) → c.mild → ∀ k, c.condition = some k → ∃ io, k = .ioFlushed io := by
    intro c ⟨g, a, hc⟩ hp k hk
    by_contra hn
    have := hc.awaits hk (fun io h => hn ⟨io, h⟩)
    rw [hp.awaits] at this; cases this
  by_cases h1 : ∃ tx v m, i = .snapReq tx v m
  · obtain ⟨tx, v, m, rfl⟩ := h1
    obtain ⟨A, B, ho, ha, hb⟩ := Eng.waits_snapReq hr
    have hok := hcok (A ++ B) (by rw [ho, List.append_assoc])
    have hA : ∀ (k : Nat) (c : Cmd) (w : Cond), (A ++ B)[k]? = some c → k < A.length → c.condition = some w → ∃ io, w = .ioFlushed io := by
      intro k c w hc hk hw
      rw [List.getElem?_append_left hk] at hc
      have hm := List.mem_of_getElem? hc
      exact hplain (hok c (List.mem_append_left _ hm)) (ha c hm) w hw
    rcases hb with ⟨hs, hb⟩ | ⟨io, B', rfl, hs, hb⟩
    · refine ⟨A ++ B, by rw [ho, List.append_assoc], Or.inl (by rw [hs]), ?_, ?_⟩
      · intro k c l hc hl
        exfalso
        rcases Nat.lt_or_ge k A.length with hk | hk
        · obtain ⟨io, h⟩ := hA k c _ hc hk hl; cases h
        · rw [List.getElem?_append_right hk] at hc
          obtain ⟨w, v', rfl, hw⟩ := hb c (List.mem_of_getElem? hc)
          exact hw l hl
      · intro k c l hc hl
        exfalso
        rcases Nat.lt_or_ge k A.length with hk | hk
        · obtain ⟨io, h⟩ := hA k c _ hc hk hl; cases h
        · rw [List.getElem?_append_right hk] at hc
          have hm := List.mem_of_getElem? hc
          obtain ⟨w, v', rfl, hw⟩ := hb c hm
          obtain ⟨g, a, hk⟩ := hok _ (List.mem_append_right _ hm)
          rcases hk.2 _ hl with h | ⟨_, h⟩ <;> cases h
    · refine ⟨A ++ _, by rw [ho, List.append_assoc], Or.inr (Or.inr ⟨A.length, m, io, by simp, by rw [hs]⟩), ?_, ?_⟩
      · intro k c l hc hl
        rcases Nat.lt_or_ge k A.length with hk | hk
        · obtain ⟨io, h⟩ := hA k c _ hc hk hl; cases h
        · rw [List.getElem?_append_right hk] at hc
          have hne : k ≠ A.length := by
            rintro rfl
            simp at hc; subst hc; cases hl
          rw [show k - A.length = (k - A.length - 1) + 1 by omega, List.getElem?_cons_succ] at hc
          refine Or.inr (Or.inr ⟨A.length, m, io, by omega, by simp, ?_⟩)
          rcases hb c (List.mem_of_getElem? hc) with ⟨w, v', rfl, hw⟩ | ⟨u, rfl, hu⟩
          · have hl : w = some (.snapshot l) := hl
            rw [hw] at hl; cases hl; exact le_refl _
          · have hl : some (Cond.snapshot (some u)) = some (.snapshot l) := hl
            cases hl; rw [hu]
      · intro k c l hc hl
        exfalso
        rcases Nat.lt_or_ge k A.length with hk | hk
        · obtain ⟨io, h⟩ := hA k c _ hc hk hl; cases h
        · rw [List.getElem?_append_right hk] at hc
          rcases List.mem_cons.1 (List.mem_of_getElem? hc) with rfl | hm
          · cases hl
          · rcases hb c hm with ⟨w, v', rfl, hw⟩ | ⟨u, rfl, hu⟩
            · have hl : w = some (.logFlushed l) := hl
              rw [hw] at hl; cases hl
            · cases hl
  by_cases h2 : ∃ tx m, i = .init tx m
  · obtain ⟨tx, m, rfl⟩ := h2
    obtain ⟨hs, ho | ⟨v, x, B, ho, hb⟩⟩ := Eng.waits_init hr
    · refine ⟨_, ho, Or.inl (by rw [hs]), ?_, ?_⟩
      · intro k c l hc hl
        cases List.mem_singleton.1 (List.mem_of_getElem? hc); cases hl
      · intro k c l hc hl
        cases List.mem_singleton.1 (List.mem_of_getElem? hc); cases hl
    · have hmid : ∀ (k : Nat) (c : Cmd) (w : Cond), (Cmd.append v [x] :: (B ++ [.respond (some (.logFlushed (some x.id))) tx (.init true)]))[k]? = some c →
          c.condition = some w → k = B.length + 1 ∧ w = .logFlushed (some x.id) := by
        intro k c w hc hw
        match k with
        | 0 => simp at hc; subst hc; cases hw
        | k + 1 =>
          rw [List.getElem?_cons_succ] at hc
          rcases Nat.lt_or_ge k B.length with hk | hk
          · rw [List.getElem?_append_left hk] at hc
            rw [(hb c (List.mem_of_getElem? hc)).2] at hw; cases hw
          · rw [List.getElem?_append_right hk] at hc
            have h3 : k - B.length = 0 := by
              by_contra hne
              rw [List.getElem?_eq_none (by simp; omega)] at hc; cases hc
            rw [h3] at hc
            simp at hc; subst hc
            cases hw
            exact ⟨by omega, rfl⟩
      refine ⟨_, ho, Or.inl (by rw [hs]), ?_, ?_⟩
      · intro k c l hc hl
        obtain ⟨_, h⟩ := hmid k c _ hc hl; cases h
      · intro k c l hc hl
        obtain ⟨hk, h⟩ := hmid k c _ hc hl
        cases h
        refine ⟨0, v, x, by omega, rfl, rfl, fun t d _ ht hd => ?_⟩
        cases hcd : d.condition with
        | none => rfl
        | some w => have := (hmid t d w hd hcd).1; omega
  · obtain ⟨cs, ho, hb⟩ := Eng.bounded_input (fun tx v m h => h1 ⟨tx, v, m, h⟩) (fun tx m h => h2 ⟨tx, m, h⟩) hr
    have hsn : e'.st.snap.lastLogId ≤ e.st.snap.lastLogId ∨ e'.st.snap.lastLogId ≤ e'.st.io.snapshot := by
      by_cases hn : i.noSnap = true
      · left
        have hk : e'.st.snap = e.st.snap := Eng.keeps_snap (Eng.keeps_input _ _ hn _ hr)
        rw [hk]
      · cases i with
        | built m =>
          have hr' : e.coreBuilt dbg m = .ok e' := hr
          rcases Eng.snap_built hr' with h | h
          · left; rw [h]
          · right
            rw [h, (Eng.built_reports (now := now) hr).2.1]
        | snapReq tx v m => exact absurd ⟨_, _, _, rfl⟩ h1
        | _ => exact absurd rfl hn
    refine ⟨cs, ho, ?_, ?_, ?_⟩
    · rcases hsn with h | h
      · exact Or.inl h
      · exact Or.inr (Or.inl h)
    · intro k c l hc hl
      have hm := List.mem_of_getElem? hc
      obtain ⟨g, a, hk⟩ := hcok cs ho c hm
      obtain ⟨u, rfl, hu⟩ := hb c hm (hk.awaits hl (fun io h => by cases h))
      have hl : some (Cond.snapshot (some u)) = some (.snapshot l) := hl
      cases hl
      have h3 := upto_le_snap hf.inv.lm
      rw [hu] at h3
      rcases hsn with h | h
      · exact Or.inl (le_trans h3 h)
      · exact Or.inr (Or.inl (le_trans h3 h))
    · intro k c l hc hl
      have hm := List.mem_of_getElem? hc
      obtain ⟨g, a, hk⟩ := hcok cs ho c hm
      obtain ⟨u, rfl, hu⟩ := hb c hm (hk.awaits hl (fun io h => by cases h))
      cases hl

end Openraft.Engine

namespace Openraft.Runtime
open Openraft.Engine
open Openraft.Repl (Panic dassert)

variable {n n' : Node} {dbg : Bool}

/-- a write with the id `x` is submitted and its report is not yet handled -/
def Node.due (n : Node) (x : IOId) : Prop := Note.localIO x ∈ n.rx ∨ ∃ es, DiskOp.append x es ∈ n.pend

/-- a snapshot is on its way: a command before `j` installs it, the worker has to, or the report is not yet handled -/
def Node.coming (n : Node) (j : Nat) (m : SnapMeta) : Prop :=
  (∃ (i : Nat) (io : IOId), n.done ≤ i ∧ i < j ∧ n.eng.out[i]? = some (.sm (.install m io))) ∨
  (∃ io, SmCmd.install m io ∈ n.smq) ∨ ∃ io, Note.installed io m ∈ n.rx

/-- the flushed id that the engine knows -/
def Node.flushed (n : Node) : Option IOId := n.eng.st.io.prog.flushed

/-- for everything that waits, what it waits for has happened or is on its way. `a0`: the IO accepted at the start. -/
structure Waits (a0 : IOId) (n : Node) : Prop where
  done : n.done ≤ n.eng.out.length
  ios : ∃ x, lvls a0 (n.eng.out.take n.done) ≤ x ∧
    (n.flushed = some x ∨ n.due x ∨ (∃ m, Note.installed x m ∈ n.rx) ∨ ∃ m, SmCmd.install m x ∈ n.smq)
  snap : n.eng.st.snap.lastLogId ≤ n.eng.st.io.snapshot ∨
    ∃ m, n.eng.st.snap.lastLogId ≤ m.lastLogId ∧ n.coming n.eng.out.length m
  waitS : ∀ (j : Nat) (c : Cmd) (l : Option LogId), n.done ≤ j → n.eng.out[j]? = some c → c.condition = some (.snapshot l) →
    l ≤ n.eng.st.io.snapshot ∨ ∃ m, l ≤ m.lastLogId ∧ n.coming j m
  waitL : ∀ (j : Nat) (c : Cmd) (l : Option LogId), n.done ≤ j → n.eng.out[j]? = some c → c.condition = some (.logFlushed l) →
    ∃ (i : Nat) (v : Vote) (x : Ent), i < j ∧ n.eng.out[i]? = some (.append v [x]) ∧ l = some x.id ∧
      (∀ (t : Nat) (d : Cmd), i < t → t < j → n.eng.out[t]? = some d → d.condition = none) ∧
      (n.done ≤ i ∨ l ≤ n.flushed.bind (·.last) ∨ ∃ io, io.last = l ∧ n.due io)

/-- the recorded positions do not go back -/
def Steady (n n' : Node) : Prop := n.flushed ≤ n'.flushed ∧ n.eng.st.io.snapshot ≤ n'.eng.st.io.snapshot

theorem Steady.refl (n : Node) : Steady n n := ⟨le_refl _, le_refl _⟩

/-- only the places where things wait to be reported differ -/
theorem Waits.move {a0 : IOId} (h : Waits a0 n) (he : n'.eng = n.eng) (hd : n'.done = n.done) (h1 : ∀ x, n.due x → n'.due x)
    (h2 : ∀ x m, Note.installed x m ∈ n.rx → Note.installed x m ∈ n'.rx)
    (h3 : ∀ x m, SmCmd.install m x ∈ n.smq → SmCmd.install m x ∈ n'.smq ∨ Note.installed x m ∈ n'.rx) : Waits a0 n' := by
  have hc : ∀ j m, n.coming j m → n'.coming j m := by
    intro j m hc
    rcases hc with ⟨i, io, k1, k2, k3⟩ | ⟨io, k⟩ | ⟨io, k⟩
    · exact Or.inl ⟨i, io, by rw [hd]; exact k1, k2, by rw [he]; exact k3⟩
    · rcases h3 io m k with k | k
      · exact Or.inr (Or.inl ⟨io, k⟩)
      · exact Or.inr (Or.inr ⟨io, k⟩)
    · exact Or.inr (Or.inr ⟨io, h2 io m k⟩)
  refine ⟨by rw [he, hd]; exact h.done, ?_, ?_, ?_, ?_⟩
  · obtain ⟨x, k1, k2⟩ := h.ios
    refine ⟨x, by rw [he, hd]; exact k1, ?_⟩
    rcases k2 with k | k | ⟨m, k⟩ | ⟨m, k⟩
    · left; unfold Node.flushed; rw [he]; exact k
    · exact Or.inr (Or.inl (h1 x k))
    · exact Or.inr (Or.inr (Or.inl ⟨m, h2 x m k⟩))
    · rcases h3 x m k with k | k
      · exact Or.inr (Or.inr (Or.inr ⟨m, k⟩))
      · exact Or.inr (Or.inr (Or.inl ⟨m, k⟩))
  · rw [he]
    rcases h.snap with k | ⟨m, k1, k2⟩
    · exact Or.inl k
    · exact Or.inr ⟨m, k1, hc _ _ k2⟩
  · rw [he, hd]
    intro j c l hj hc1 hl
    rcases h.waitS j c l hj hc1 hl with k | ⟨m, k1, k2⟩
    · exact Or.inl k
    · exact Or.inr ⟨m, k1, hc _ _ k2⟩
  · unfold Node.flushed
    rw [he, hd]
    intro j c l hj hc1 hl
    obtain ⟨i, v, x, k1, k2, k3, k4, k5⟩ := h.waitL j c l hj hc1 hl
    refine ⟨i, v, x, k1, k2, k3, k4, ?_⟩
    rcases k5 with k | k | ⟨io, k6, k7⟩
    · exact Or.inl k
    · exact Or.inr (Or.inl k)
    · exact Or.inr (Or.inr ⟨io, k6, h1 io k7⟩)

/-- what the execution of a command does to the things that wait -/
theorem exec_due {c : Cmd} (h : n.exec dbg c = .ok n') :
    (∀ x, n.due x → n'.due x) ∧ (∀ x m, Note.installed x m ∈ n.rx → Note.installed x m ∈ n'.rx) ∧
    (∀ x m, SmCmd.install m x ∈ n.smq → SmCmd.install m x ∈ n'.smq) ∧
    (∀ m io, c = .sm (.install m io) → SmCmd.install m io ∈ n'.smq) ∧
    (∀ a, lvl a c ≤ a ∨ n'.due (lvl a c) ∨ ∃ m, SmCmd.install m (lvl a c) ∈ n'.smq) ∧
    (∀ v x, c = .append v [x] → ∃ io, io.last = some x.id ∧ n'.due io) := by
  have hsub : ∀ {io : IOId} {n1 : Node}, n.submit dbg io = .ok n1 → n1.smq = n.smq ∧ n1.pend = n.pend ∧ n1.rx = n.rx := by
    intro io n1 h1; rw [submit_ok h1]; exact ⟨rfl, rfl, rfl⟩
  have hsame : ∀ {m : Node}, (∀ y ∈ n.rx, y ∈ m.rx) → (∀ y ∈ n.pend, y ∈ m.pend) → (∀ y ∈ n.smq, y ∈ m.smq) → 
      (∀ x, n.due x → m.due x) ∧ (∀ x k, Note.installed x k ∈ n.rx → Note.installed x k ∈ m.rx) ∧
      (∀ x k, SmCmd.install k x ∈ n.smq → SmCmd.install k x ∈ m.smq) := by
    intro m h1 h2 h3
    refine ⟨?_, fun _ _ hx => h1 _ hx, fun _ _ hx => h3 _ hx⟩
    intro x hx
    rcases hx with hx | ⟨es, hx⟩
    · exact Or.inl (h1 _ hx)
    · exact Or.inr ⟨es, h2 _ hx⟩
  have hquiet : ∀ {m : Node}, (∀ y ∈ n.rx, y ∈ m.rx) → (∀ y ∈ n.pend, y ∈ m.pend) → (∀ y ∈ n.smq, y ∈ m.smq) →
      (∀ a, lvl a c ≤ a) → (∀ m io, c ≠ .sm (.install m io)) → (∀ v x, c ≠ .append v [x]) →
      (∀ x, n.due x → m.due x) ∧ (∀ x k, Note.installed x k ∈ n.rx → Note.installed x k ∈ m.rx) ∧
      (∀ x k, SmCmd.install k x ∈ n.smq → SmCmd.install k x ∈ m.smq) ∧
      (∀ k io, c = .sm (.install k io) → SmCmd.install k io ∈ m.smq) ∧
      (∀ a, lvl a c ≤ a ∨ m.due (lvl a c) ∨ ∃ k, SmCmd.install k (lvl a c) ∈ m.smq) ∧
      (∀ v x, c = .append v [x] → ∃ io, io.last = some x.id ∧ m.due io) := by
    intro m h1 h2 h3 h4 h5 h6
    obtain ⟨k1, k2, k3⟩ := hsame h1 h2 h3
    exact ⟨k1, k2, k3, fun k io hk => absurd hk (h5 k io), fun a => Or.inl (h4 a), fun v x hk => absurd hk (h6 v x)⟩
  have hid : ∀ {α : Type} (l : List α), ∀ y ∈ l, y ∈ l := fun l y hy => hy
  have hap : ∀ {α : Type} (l k : List α), ∀ y ∈ l, y ∈ l ++ k := fun l k y hy => List.mem_append_left _ hy
  cases c with
  | updateIO v io =>
    simp only [Node.exec, out_bind, out_pure] at h
    obtain ⟨n1, h1, rfl⟩ := h
    obtain ⟨h2, h3, h4⟩ := hsub h1
    obtain ⟨k1, k2, k3⟩ := hsame (m := { n1 with rx := n1.rx ++ [.localIO io] }) (by rw [h4]; exact hap _ _) (by rw [h3]; exact hid _) (by rw [h2]; exact hid _)
    refine ⟨k1, k2, k3, fun _ _ hk => (by cases hk), fun a => ?_, fun _ _ hk => (by cases hk)⟩
    show max a io ≤ a ∨ Node.due _ (max a io) ∨ _
    rcases le_total io a with hle | hle
    · exact Or.inl (by rw [max_eq_left hle])
    · right; left; left
      rw [max_eq_right hle]
      exact List.mem_append_right _ (List.mem_singleton.2 rfl)
  | append v es =>
    simp only [Node.exec, out_bind, lift_ok, unwrap_ok, out_pure] at h
    obtain ⟨last, hl, n1, h1, rfl⟩ := h
    obtain ⟨h2, h3, h4⟩ := hsub h1
    obtain ⟨k1, k2, k3⟩ := hsame (m := n1.write (.append (IOId.newLog v (some last.id)) es)) (by
      show ∀ y ∈ n.rx, y ∈ n1.rx
      rw [h4]; exact hid _) (by
      show ∀ y ∈ n.pend, y ∈ n1.pend ++ _
      rw [h3]; exact hap _ _) (by
      show ∀ y ∈ n.smq, y ∈ n1.smq
      rw [h2]; exact hid _)
    have hdue : (n1.write (.append (IOId.newLog v (some last.id)) es)).due (IOId.newLog v (some last.id)) :=
      Or.inr ⟨es, List.mem_append_right _ (List.mem_singleton.2 rfl)⟩
    refine ⟨k1, k2, k3, fun _ _ hk => (by cases hk), fun a => Or.inr (Or.inl ?_), fun v' x hk => ?_⟩
    · simp only [lvl, hl]; exact hdue
    · cases hk
      simp at hl; subst hl
      exact ⟨_, rfl, hdue⟩
  | saveVote v =>
    simp only [Node.exec, out_bind, out_pure] at h
    obtain ⟨n1, h1, rfl⟩ := h
    obtain ⟨h2, h3, h4⟩ := hsub h1
    refine ⟨?_, ?_, ?_, fun _ _ hk => (by cases hk), fun a => Or.inr (Or.inl (Or.inl ?_)), fun _ _ hk => (by cases hk)⟩
    · intro x hx
      left
      show _ ∈ n1.rx ++ n1.pend.flatMap DiskOp.note ++ _
      rw [h3, h4]
      rcases hx with hx | ⟨es, hx⟩
      · exact List.mem_append_left _ (List.mem_append_left _ hx)
      · exact List.mem_append_left _ (List.mem_append_right _ (List.mem_flatMap.2 ⟨_, hx, List.mem_singleton.2 rfl⟩))
    · intro x m hx
      show _ ∈ n1.rx ++ n1.pend.flatMap DiskOp.note ++ _
      rw [h4]
      exact List.mem_append_left _ (List.mem_append_left _ hx)
    · intro x m hx
      show _ ∈ n1.smq
      rw [h2]; exact hx
    · show Note.localIO (IOId.new v) ∈ n1.rx ++ n1.pend.flatMap DiskOp.note ++ _
      exact List.mem_append_right _ (by simp)
  | purge u =>
    simp only [Node.exec, out_pure] at h; subst h
    exact hquiet (hid _) (hap _ _) (hid _) (fun a => le_refl _) (fun _ _ hk => by (cases hk)) (fun _ _ hk => by cases hk)
  | truncate s =>
    simp only [Node.exec, out_pure] at h; subst h
    exact hquiet (hid _) (hap _ _) (hid _) (fun a => le_refl _) (fun _ _ hk => by (cases hk)) (fun _ _ hk => by cases hk)
  | saveCommitted c =>
    simp only [Node.exec, out_pure] at h; subst h
    exact hquiet (hid _) (hap _ _) (hid _) (fun a => le_refl _) (fun _ _ hk => by (cases hk)) (fun _ _ hk => by cases hk)
  | sendVote v l =>
    simp only [Node.exec, out_bind, out_pure] at h; obtain ⟨_, _, rfl⟩ := h
    exact hquiet (hid _) (hid _) (hid _) (fun a => le_refl _) (fun _ _ hk => by (cases hk)) (fun _ _ hk => by cases hk)
  | transfer v l t =>
    simp only [Node.exec, out_bind, out_pure] at h; obtain ⟨_, _, rfl⟩ := h
    exact hquiet (hid _) (hid _) (hid _) (fun a => le_refl _) (fun _ _ hk => by (cases hk)) (fun _ _ hk => by cases hk)
  | replCommitted c =>
    simp only [Node.exec, out_pure] at h; subst h
    exact hquiet (hid _) (hid _) (hid _) (fun a => le_refl _) (fun _ _ hk => by (cases hk)) (fun _ _ hk => by cases hk)
  | heartbeat v m c =>
    simp only [Node.exec, out_pure] at h; subst h
    exact hquiet (hid _) (hid _) (hid _) (fun a => le_refl _) (fun _ _ hk => by (cases hk)) (fun _ _ hk => by cases hk)
  | apply a u =>
    simp only [Node.exec, out_bind, out_pure] at h
    obtain ⟨_, _, _, _, rfl⟩ := h
    exact hquiet (hid _) (hid _) (hap _ _) (fun a => le_refl _) (fun _ _ hk => by (cases hk)) (fun _ _ hk => by cases hk)
  | replicate t i =>
    simp only [Node.exec] at h
    split at h
    · rw [out_pure] at h; subst h
      exact hquiet (hid _) (hid _) (hid _) (fun a => le_refl _) (fun _ _ hk => by (cases hk)) (fun _ _ hk => by cases hk)
    · cases h
  | rebuild ts =>
    simp only [Node.exec, Node.rebuild, out_bind] at h
    obtain ⟨_, _, h⟩ := h
    split at h
    · rw [out_pure] at h; subst h
      exact hquiet (hid _) (hid _) (hid _) (fun a => le_refl _) (fun _ _ hk => by (cases hk)) (fun _ _ hk => by cases hk)
    · cases h
  | sm c =>
    cases c with
    | install m io =>
      simp only [Node.exec, out_bind, out_pure] at h
      obtain ⟨n1, h1, rfl⟩ := h
      obtain ⟨h2, h3, h4⟩ := hsub h1
      obtain ⟨k1, k2, k3⟩ := hsame (m := { n1 with smq := n1.smq ++ [.install m io] }) (by rw [h4]; exact hid _) (by rw [h3]; exact hid _) (by rw [h2]; exact hap _ _)
      refine ⟨k1, k2, k3, fun m' io' hk => ?_, fun a => ?_, fun _ _ hk => (by cases hk)⟩
      · cases hk
        exact List.mem_append_right _ (List.mem_singleton.2 rfl)
      · show max a io ≤ a ∨ _ ∨ ∃ k, SmCmd.install k (max a io) ∈ _
        rcases le_total io a with hle | hle
        · exact Or.inl (by rw [max_eq_left hle])
        · right; right
          rw [max_eq_right hle]
          exact ⟨m, List.mem_append_right _ (List.mem_singleton.2 rfl)⟩
    | build =>
      simp only [Node.exec, out_pure] at h; subst h
      exact hquiet (hid _) (hid _) (hap _ _) (fun a => le_refl _) (fun _ _ hk => by (cases hk)) (fun _ _ hk => by cases hk)
    | apply f l =>
      simp only [Node.exec, out_pure] at h; subst h
      exact hquiet (hid _) (hid _) (hap _ _) (fun a => le_refl _) (fun _ _ hk => by (cases hk)) (fun _ _ hk => by cases hk)
  | respond w tx r =>
    simp only [Node.exec, out_pure] at h; subst h
    exact hquiet (hid _) (hid _) (hid _) (fun a => le_refl _) (fun _ _ hk => by (cases hk)) (fun _ _ hk => by cases hk)

/-- a command is executed -/
theorem Waits.run {a0 : IOId} {c : Cmd} {n1 : Node} (h : Waits a0 n) (hc : n.head = some c) (hx : n.exec dbg c = .ok n1) :
    Waits a0 { n1 with done := n1.done + 1 } := by
  obtain ⟨p, pu, he, hacc, hfl⟩ := (exec_frame hx).eng
  have hd := (exec_frame hx).done
  obtain ⟨d1, d2, d3, d4, d5, d6⟩ := exec_due hx
  have hout : n1.eng.out = n.eng.out := by rw [he]
  have hsn : n1.eng.st.snap = n.eng.st.snap := by rw [he]
  have hios : n1.eng.st.io.snapshot = n.eng.st.io.snapshot := by rw [he]
  have hflu : n1.flushed = n.flushed := by unfold Node.flushed; rw [he]; exact hfl
  have hlt : n.done < n.eng.out.length := (List.getElem?_eq_some_iff.1 hc).1
  have hcom : ∀ j m, n.coming j m → Node.coming { n1 with done := n1.done + 1 } j m := by
    intro j m hj
    rcases hj with ⟨i, io, k1, k2, k3⟩ | ⟨io, k⟩ | ⟨io, k⟩
    · by_cases hi : i = n.done
      · right; left
        subst hi
        have : n.eng.out[n.done]? = some c := hc
        rw [this] at k3; cases k3
        exact ⟨io, d4 m io rfl⟩
      · exact Or.inl ⟨i, io, by show n1.done + 1 ≤ i; rw [hd]; omega, k2, by show n1.eng.out[i]? = _; rw [hout]; exact k3⟩
    · exact Or.inr (Or.inl ⟨io, d3 io m k⟩)
    · exact Or.inr (Or.inr ⟨io, d2 io m k⟩)
  refine ⟨by show n1.done + 1 ≤ n1.eng.out.length; rw [hd, hout]; omega, ?_, ?_, ?_, ?_⟩
  · show ∃ x, lvls a0 (n1.eng.out.take (n1.done + 1)) ≤ x ∧ _
    rw [hd, hout, take_succ_head hc, lvls_snoc]
    rcases d5 (lvls a0 (n.eng.out.take n.done)) with k | k | ⟨m, k⟩
    · obtain ⟨x, k1, k2⟩ := h.ios
      refine ⟨x, le_trans k k1, ?_⟩
      rcases k2 with k2 | k2 | ⟨m, k2⟩ | ⟨m, k2⟩
      · exact Or.inl (hflu.trans k2)
      · exact Or.inr (Or.inl (d1 x k2))
      · exact Or.inr (Or.inr (Or.inl ⟨m, d2 x m k2⟩))
      · exact Or.inr (Or.inr (Or.inr ⟨m, d3 x m k2⟩))
    · exact ⟨_, le_refl _, Or.inr (Or.inl k)⟩
    · exact ⟨_, le_refl _, Or.inr (Or.inr (Or.inr ⟨m, k⟩))⟩
  · show n1.eng.st.snap.lastLogId ≤ n1.eng.st.io.snapshot ∨ ∃ m, n1.eng.st.snap.lastLogId ≤ m.lastLogId ∧ Node.coming _ n1.eng.out.length m
    rw [hsn, hios, hout]
    rcases h.snap with k | ⟨m, k1, k2⟩
    · exact Or.inl k
    · exact Or.inr ⟨m, k1, hcom _ _ k2⟩
  · intro j c' l hj hcj hl
    have hj : n1.done + 1 ≤ j := hj
    have hcj : n1.eng.out[j]? = some c' := hcj
    show l ≤ n1.eng.st.io.snapshot ∨ _
    rw [hios]
    rw [hout] at hcj
    rw [hd] at hj
    rcases h.waitS j c' l (by omega) hcj hl with k | ⟨m, k1, k2⟩
    · exact Or.inl k
    · exact Or.inr ⟨m, k1, hcom _ _ k2⟩
  · intro j c' l hj hcj hl
    have hj : n1.done + 1 ≤ j := hj
    have hcj : n1.eng.out[j]? = some c' := hcj
    rw [hout] at hcj
    rw [hd] at hj
    obtain ⟨i, v, x, k1, k2, k3, k4, k5⟩ := h.waitL j c' l (by omega) hcj hl
    refine ⟨i, v, x, k1, by show n1.eng.out[i]? = _; rw [hout]; exact k2, k3, by
      show ∀ (t : Nat) (d : Cmd), i < t → t < j → n1.eng.out[t]? = some d → _
      rw [hout]; exact k4, ?_⟩
    show n1.done + 1 ≤ i ∨ l ≤ n1.flushed.bind (·.last) ∨ _
    rw [hd, hflu]
    rcases k5 with k | k | ⟨io, k6, k7⟩
    · by_cases hi : i = n.done
      · right; right
        subst hi
        have : n.eng.out[n.done]? = some c := hc
        rw [this] at k2; cases k2
        obtain ⟨io, q1, q2⟩ := d6 v x rfl
        exact ⟨io, by rw [k3]; exact q1, q2⟩
      · left; omega
    · exact Or.inr (Or.inl k)
    · exact Or.inr (Or.inr ⟨io, k6, d1 io k7⟩)

/-- the engine handles a message or a report -/
theorem Waits.input {a0 : IOId} {cs : List Cmd} (h : Waits a0 n) (hidle : n.idle = true) (hn : AddedOk n.eng n'.eng cs) (hd : n'.done = n.done)
    (hs : Steady n n') (hq : n'.smq = n.smq) (hdue : ∀ x, n.due x → n'.due x ∨ n'.flushed = some x)
    (hin : ∀ x m, Note.installed x m ∈ n.rx → Note.installed x m ∈ n'.rx ∨ n'.flushed = some x ∧ n'.eng.st.io.snapshot = m.lastLogId) :
    Waits a0 n' := by
  have hle : n.eng.out.length ≤ n'.eng.out.length := by rw [hn.out, List.length_append]; exact Nat.le_add_right _ _
  have hget : ∀ i, i < n.eng.out.length → n'.eng.out[i]? = n.eng.out[i]? := by
    intro i hi; rw [hn.out, List.getElem?_append_left hi]
  have hgetr : ∀ i c, cs[i]? = some c → n'.eng.out[n.eng.out.length + i]? = some c := by
    intro i c hi; rw [hn.out, List.getElem?_append_right (Nat.le_add_right _ _), Nat.add_sub_cancel_left]; exact hi
  have hnew : ∀ j c, n.eng.out.length ≤ j → n'.eng.out[j]? = some c → cs[j - n.eng.out.length]? = some c := by
    intro j c hj hc; rw [hn.out, List.getElem?_append_right hj] at hc; exact hc
  have hcom : ∀ j k m l, l ≤ m.lastLogId → n.coming j m → j ≤ k →
      l ≤ n'.eng.st.io.snapshot ∨ ∃ m, l ≤ m.lastLogId ∧ n'.coming k m := by
    intro j k m l hl hc hjk
    rcases hc with ⟨i, io, k1, k2, k3⟩ | ⟨io, k1⟩ | ⟨io, k1⟩
    · refine Or.inr ⟨m, hl, Or.inl ⟨i, io, by rw [hd]; exact k1, by omega, ?_⟩⟩
      rw [hget i (List.getElem?_eq_some_iff.1 k3).1]; exact k3
    · exact Or.inr ⟨m, hl, Or.inr (Or.inl ⟨io, by rw [hq]; exact k1⟩)⟩
    · rcases hin io m k1 with k1 | k1
      · exact Or.inr ⟨m, hl, Or.inr (Or.inr ⟨io, k1⟩)⟩
      · left; rw [k1.2]; exact hl
  have hsnap : ∀ j l, l ≤ n.eng.st.snap.lastLogId → n.eng.out.length ≤ j →
      l ≤ n'.eng.st.io.snapshot ∨ ∃ m, l ≤ m.lastLogId ∧ n'.coming j m := by
    intro j l hl hj
    rcases h.snap with k | ⟨m, k1, k2⟩
    · exact Or.inl (le_trans hl (le_trans k hs.2))
    · exact hcom _ j m l (le_trans hl k1) k2 hj
  refine ⟨by rw [hd]; exact Nat.le_trans h.done hle, ?_, ?_, ?_, ?_⟩
  · obtain ⟨x, k1, k2⟩ := h.ios
    have ht : n'.eng.out.take n'.done = n.eng.out.take n.done := by
      rw [hd, hn.out, List.take_append_of_le_length h.done]
    rw [ht]
    rcases k2 with k | k | ⟨m, k⟩ | ⟨m, k⟩
    · have := hs.1
      rw [k] at this
      cases hf : n'.flushed with
      | none => rw [hf] at this; exact (OptOrd.not_some_le_none' this).elim
      | some y =>
        rw [hf] at this
        exact ⟨y, le_trans k1 (OptOrd.some_le_some'.1 this), Or.inl rfl⟩
    · rcases hdue x k with k | k
      · exact ⟨x, k1, Or.inr (Or.inl k)⟩
      · exact ⟨x, k1, Or.inl k⟩
    · rcases hin x m k with k | k
      · exact ⟨x, k1, Or.inr (Or.inr (Or.inl ⟨m, k⟩))⟩
      · exact ⟨x, k1, Or.inl k.1⟩
    · exact ⟨x, k1, Or.inr (Or.inr (Or.inr ⟨m, by rw [hq]; exact k⟩))⟩
  · rcases hn.snap with k | k | ⟨k, m, io, k1, k2⟩
    · exact hsnap _ _ k hle
    · exact Or.inl k
    · refine Or.inr ⟨m, k2, Or.inl ⟨n.eng.out.length + k, io, ?_, ?_, hgetr _ _ k1⟩⟩
      · rw [hd]; have := h.done; omega
      · exact (List.getElem?_eq_some_iff.1 (hgetr _ _ k1)).1
  · intro j c l hj hc hl
    rw [hd] at hj
    rcases Nat.lt_or_ge j n.eng.out.length with hlt | hge
    · rw [hget j hlt] at hc
      rcases h.waitS j c l hj hc hl with k | ⟨m, k1, k2⟩
      · exact Or.inl (le_trans k hs.2)
      · exact hcom j j m l k1 k2 (Nat.le_refl _)
    · rcases hn.waitS _ c l (hnew j c hge hc) hl with k | k | ⟨i, m, io, k1, k2, k3⟩
      · exact hsnap j l k hge
      · exact Or.inl k
      · refine Or.inr ⟨m, k3, Or.inl ⟨n.eng.out.length + i, io, ?_, by omega, hgetr _ _ k2⟩⟩
        rw [hd]; have := h.done; omega
  · intro j c l hj hc hl
    rw [hd] at hj
    rcases Nat.lt_or_ge j n.eng.out.length with hlt | hge
    · rw [hget j hlt] at hc
      obtain ⟨i, v, x, k1, k2, k3, k4, k5⟩ := h.waitL j c l hj hc hl
      refine ⟨i, v, x, k1, by rw [hget i (by omega)]; exact k2, k3, ?_, ?_⟩
      · intro t d ht1 ht2 ht3
        rw [hget t (by omega)] at ht3
        exact k4 t d ht1 ht2 ht3
      · rw [hd]
        by_cases hi : n.done ≤ i
        · exact Or.inl hi
        · right
          rcases k5 with k | k | ⟨io, k6, k7⟩
          · exact absurd k hi
          · exfalso
            unfold Node.idle Node.head at hidle
            by_cases hjd : j = n.done
            · rw [← hjd, hc] at hidle
              simp only [Node.ready, hl, Node.holds, Bool.not_not, decide_eq_true_eq] at hidle
              exact absurd hidle (not_lt.2 k)
            · cases ho : n.eng.out[n.done]? with
              | none => rw [List.getElem?_eq_none_iff] at ho; omega
              | some d =>
                rw [ho] at hidle
                have := k4 n.done d (by omega) (by omega) ho
                simp [Node.ready, this] at hidle
          · rcases hdue io k7 with k | k
            · exact Or.inr ⟨io, k6, k⟩
            · left; rw [k, ← k6]; exact le_refl _
    · obtain ⟨i, v, x, k1, k2, k3, k4⟩ := hn.waitL _ c l (hnew j c hge hc) hl
      refine ⟨n.eng.out.length + i, v, x, by omega, hgetr _ _ k2, k3, ?_, Or.inl ?_⟩
      · intro t d ht1 ht2 ht3
        exact k4 (t - n.eng.out.length) d (by omega) (by omega) (hnew t d (by omega) ht3)
      · rw [hd]; have := h.done; omega

theorem answer_queues (es : List Ent) (n : Node) : (n.answer es).rx = n.rx ∧ (n.answer es).pend = n.pend ∧ (n.answer es).smq = n.smq := by
  induction es generalizing n with
  | nil => exact ⟨rfl, rfl, rfl⟩
  | cons e es ih =>
    unfold Node.answer
    cases BMap.get n.clients e.id.index with
    | none => exact ih n
    | some tx => exact ih { n with clients := BMap.remove n.clients e.id.index, replies := n.replies ++ [(tx, some e)] }

/-- a step that does not let the recorded positions go back -/
theorem Waits.step {g0 : Gh} {a0 : IOId} {s0 c0 : Option LogId} {P' S' : List Cmd} {ev : Ev} (h : Waits a0 n)
    (hi' : RInv g0 a0 s0 c0 P' S' n') (hst : Steady n n') (hr : n.step dbg ev = .ok n') : Waits a0 n' := by
  cases ev with
  | run =>
    rcases run_view hr with rfl | ⟨c, n1, h1, _, h2, rfl⟩
    · exact h
    · exact h.run h1 h2
  | flush =>
    simp only [Node.step, out_pure] at hr
    subst hr
    unfold Node.flush1
    split
    · exact h
    · next op ops hp =>
      refine h.move rfl rfl ?_ (fun _ _ hx => List.mem_append_left _ hx) (fun _ _ hx => Or.inl hx)
      intro x hx
      rcases hx with hx | ⟨es, hx⟩
      · exact Or.inl (List.mem_append_left _ hx)
      · rw [hp] at hx
        rcases List.mem_cons.1 hx with rfl | hx
        · exact Or.inl (List.mem_append_right _ (List.mem_singleton.2 rfl))
        · exact Or.inr ⟨es, hx⟩
  | sm =>
    simp only [Node.step, Node.smStep] at hr
    split at hr
    · rw [out_pure] at hr; subst hr; exact h
    · next first last q hq =>
      split at hr
      · rw [out_pure] at hr; subst hr
        refine h.move rfl rfl ?_ (fun _ _ hx => List.mem_append_left _ hx) ?_
        · intro x hx
          rcases hx with hx | hx
          · exact Or.inl (List.mem_append_left _ hx)
          · exact Or.inr hx
        · intro x m hx
          rw [hq] at hx
          rcases List.mem_cons.1 hx with hx | hx
          · cases hx
          · exact Or.inl hx
      · cases hr
    · next m io q hq =>
      rw [out_pure] at hr; subst hr
      refine h.move rfl rfl ?_ (fun _ _ hx => List.mem_append_left _ hx) ?_
      · intro x hx
        rcases hx with hx | hx
        · exact Or.inl (List.mem_append_left _ hx)
        · exact Or.inr hx
      · intro x m hx
        rw [hq] at hx
        rcases List.mem_cons.1 hx with hx | hx
        · cases hx; exact Or.inr (List.mem_append_right _ (List.mem_singleton.2 rfl))
        · exact Or.inl hx
    · next q hq =>
      rw [out_pure] at hr; subst hr
      refine h.move rfl rfl (fun _ hx => hx) (fun _ _ hx => hx) ?_
      intro x m hx
      rw [hq] at hx
      rcases List.mem_cons.1 hx with hx | hx
      · cases hx
      · exact Or.inl hx
  | build k =>
    simp only [Node.step, out_pure] at hr
    subst hr
    unfold Node.buildDone
    split
    · exact h
    · refine h.move rfl rfl ?_ (fun _ _ hx => List.mem_append_left _ hx) (fun _ _ hx => Or.inl hx)
      intro x hx
      rcases hx with hx | hx
      · exact Or.inl (List.mem_append_left _ hx)
      · exact Or.inr hx
  | msg now i =>
    simp only [Node.step] at hr
    split at hr
    · next hc =>
      simp only [out_bind, lift_ok, out_pure] at hr
      obtain ⟨e, he, rfl⟩ := hr
      obtain ⟨cs, hn⟩ := addedOk_input hi'.flow he
      simp only [Bool.and_eq_true] at hc
      exact h.input hc.1 hn rfl hst rfl (fun _ hx => Or.inl hx) (fun _ _ hx => Or.inl hx)
    · rw [out_pure] at hr; subst hr; exact h
  | write now tx p =>
    simp only [Node.step] at hr
    split at hr
    · next hc =>
      simp only [out_bind, lift_ok, out_pure] at hr
      obtain ⟨⟨i, e⟩, he, rfl⟩ := hr
      have hin : n.eng.input dbg now (.write p) = .ok e := by
        simp only [Eng.input, he]; rfl
      have hf : Flow g0 a0 s0 e := by cases i <;> exact hi'.flow
      obtain ⟨cs, hn⟩ := addedOk_input hf hin
      cases i <;> exact h.input hc hn rfl hst rfl (fun _ hx => Or.inl hx) (fun _ _ hx => Or.inl hx)
    · rw [out_pure] at hr; subst hr; exact h
  | change now tx c r =>
    simp only [Node.step] at hr
    split at hr
    · next hc =>
      simp only [out_bind, lift_ok, out_pure] at hr
      obtain ⟨⟨i, e⟩, he, rfl⟩ := hr
      have hin : n.eng.input dbg now (.change c r) = .ok e := by
        simp only [Eng.input, he]; rfl
      have hf : Flow g0 a0 s0 e := by cases i <;> exact hi'.flow
      obtain ⟨cs, hn⟩ := addedOk_input hf hin
      cases i <;> exact h.input hc hn rfl hst rfl (fun _ hx => Or.inl hx) (fun _ _ hx => Or.inl hx)
    · rw [out_pure] at hr; subst hr; exact h
  | note now =>
    simp only [Node.step] at hr
    split at hr
    · next hc =>
      split at hr
      · rw [out_pure] at hr; subst hr; exact h
      · next x xs hx =>
        have hkeep : ∀ {e : Eng}, (∀ io, x ≠ .localIO io) → ∀ y, n.due y → Node.due { n with rx := xs, eng := e } y := by
          intro e hne y hy
          rcases hy with hy | hy
          · rw [hx] at hy
            rcases List.mem_cons.1 hy with hy | hy
            · exact absurd hy.symm (hne y)
            · exact Or.inl hy
          · exact Or.inr hy
        have hkin : (∀ io m, x ≠ .installed io m) → ∀ y m, Note.installed y m ∈ n.rx → Note.installed y m ∈ xs := by
          intro hne y m hy
          rw [hx] at hy
          rcases List.mem_cons.1 hy with hy | hy
          · exact absurd hy.symm (hne y m)
          · exact hy
        cases x with
        | localIO io =>
          simp only [Node.handle, out_bind, lift_ok, out_pure] at hr
          obtain ⟨e, he, rfl⟩ := hr
          obtain ⟨cs, hn⟩ := addedOk_input hi'.flow he
          refine h.input hc hn rfl hst rfl ?_ (fun y m hy => Or.inl (hkin (fun _ _ hk => by cases hk) y m hy))
          intro y hy
          rcases hy with hy | hy
          · rw [hx] at hy
            rcases List.mem_cons.1 hy with hy | hy
            · cases hy; exact Or.inr (Eng.localIO_reports he).1
            · exact Or.inl (Or.inl hy)
          · exact Or.inl (Or.inr hy)
        | selfVote v =>
          simp only [Node.handle, out_bind, lift_ok, out_pure] at hr
          obtain ⟨e, he, rfl⟩ := hr
          obtain ⟨cs, hn⟩ := addedOk_input hi'.flow he
          exact h.input hc hn rfl hst rfl (fun y hy => Or.inl (hkeep (fun _ hk => by cases hk) y hy))
            (fun y m hy => Or.inl (hkin (fun _ _ hk => by cases hk) y m hy))
        | built m =>
          simp only [Node.handle, out_bind, lift_ok, out_pure] at hr
          obtain ⟨e, he, rfl⟩ := hr
          obtain ⟨cs, hn⟩ := addedOk_input hi'.flow he
          exact h.input hc hn rfl hst rfl (fun y hy => Or.inl (hkeep (fun _ hk => by cases hk) y hy))
            (fun y m hy => Or.inl (hkin (fun _ _ hk => by cases hk) y m hy))
        | installed io m =>
          simp only [Node.handle, out_bind, lift_ok, out_pure] at hr
          obtain ⟨e, he, rfl⟩ := hr
          obtain ⟨cs, hn⟩ := addedOk_input hi'.flow he
          have hrep := Eng.installed_reports he
          refine h.input hc hn rfl hst rfl (fun y hy => Or.inl (hkeep (fun _ hk => by cases hk) y hy)) ?_
          intro y k hy
          rw [hx] at hy
          rcases List.mem_cons.1 hy with hy | hy
          · cases hy; exact Or.inr ⟨hrep.1, hrep.2.1⟩
          · exact Or.inl hy
        | applied last es =>
          simp only [Node.handle, out_bind, lift_ok, out_pure] at hr
          obtain ⟨e, he, rfl⟩ := hr
          obtain ⟨_, k2, k3⟩ := handed_answer es { n with rx := xs, eng := e }
          obtain ⟨k4, k5, k6⟩ := answer_queues es { n with rx := xs, eng := e }
          have hf : Flow g0 a0 s0 e := by have := hi'.flow; rw [k2] at this; exact this
          obtain ⟨cs, hn⟩ := addedOk_input hf he
          refine h.input hc (by rw [k2]; exact hn) k3 hst k6 (fun y hy => Or.inl ?_) (fun y m hy => Or.inl ?_)
          · have := hkeep (e := e) (fun _ hk => by cases hk) y hy
            unfold Node.due
            rw [k4, k5]; exact this
          · rw [k4]; exact hkin (fun _ _ hk => by cases hk) y m hy
    · rw [out_pure] at hr; subst hr; exact h

end Openraft.Runtime
