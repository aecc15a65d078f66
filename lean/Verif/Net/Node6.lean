import Verif.Net.Node5
import Verif.Runtime.Life

/-!
# What a crash leaves agrees with the history

`Crashed`: what a node loads at its restart, with the history of the cluster.
-/

set_option autoImplicit false
set_option linter.unusedSectionVars false

namespace Openraft.Net
open Openraft.Repl (Panic dassert Inflight)
open Openraft.Engine Openraft.Cluster
open Openraft.Runtime (Fl RInv Covered Note SmOk LeI DiskOp opOf vote_runs_same out_bind out_pure lift_ok exec_frame submit_ok note_of_op
  saved Fits Loaded Beyond Disk Sm gh0 BaseOk memsBelow DiskOk)
open Openraft.VecProgress (AllP BI)

variable {m0 : Membership} [hne : Fact (m0.configs ≠ [])] {g g' : Ghost} {dv dv' : NodeId → Vote} {q : NodeId} {g0 : Gh} {p : Nat} {dbg : Bool} {now : Nat}
variable {a0 : IOId} {s0 c0 : Option LogId} {P S : List Cmd} {n n' n1 : Runtime.Node}

/-- what a node loads at its restart: `D` is the log that could be read before the crash, `st` the one that is durable -/
structure Crashed (g : Ghost) (dv : NodeId → Vote) (q : NodeId) (D : Gh) (st : LogStore) (G : Gh) (s2 : Sm) : Prop where
  full : Anch g D → (logOf g D).length ≤ nextIndex st.lastLogId → G.store = st
  anch : Anch g G
  vs : VS g dv q G
  pos : PosOk g G.vote s2.applied s2.mem
  snap : PosOk g G.vote s2.snap.lastLogId s2.snap.mem
  hist : ∀ e ∈ s2.hist, HistOk g e
  cand : CandLog g q G

/-- what the state machine that survives a crash holds -/
theorem NP.reboot (h : NP g n) : PosOk g n.disk.vote n.sm.reboot.applied n.sm.reboot.mem ∧
    PosOk g n.disk.vote n.sm.reboot.snap.lastLogId n.sm.reboot.snap.mem := by
  unfold Sm.reboot
  split
  · exact ⟨h.sm, h.snap⟩
  · exact ⟨h.snap, h.snap⟩

theorem NX.reboot (h : NX g dv q g0 P S n) : ∀ e ∈ n.sm.reboot.hist, HistOk g e := by
  unfold Sm.reboot
  split
  · exact h.hist
  · intro e he; cases he

theorem RInv.reboot_le (h : RInv g0 a0 s0 c0 P S n) : nextIndex n.sm.reboot.applied ≤ nextIndex (g0.runs (P ++ S)).com := by
  unfold Sm.reboot
  split
  · exact (ComVal.le h.oks h.s.cur).next
  · show nextIndex n.sm.snap.lastLogId ≤ _
    rcases h.s.snapV with h1 | h1
    · rw [h1]; exact (h.flow.snap0.trans (Gh.com_runs h.oks)).next
    · exact (ComVal.le h.oks h1).next

theorem NI.crashed (hm0 : m0.configs ≠ []) (hg : GInv m0 g) (h : NI g dv q g0 a0 s0 c0 P S n) (hp : NP g n) (k : Nat)
    (hf : Fits (n.crashDisk k) n.sm.reboot) {st : RState} {store : LogStore} {s2 : Sm} {base : StoredMem}
    (hl : Loaded now (n.crashDisk k) n.sm.reboot st store s2) (hb : BaseOk (n.crashDisk k) st store base s2) :
    Crashed g dv q (g0.runs (P ++ S)) (n.crashDisk k).store (gh0 (n.crashDisk k) store base s2) s2 ∧ Sav g (n.crashDisk k).vote (n.crashDisk k).committed := by
  obtain ⟨S1, S2, hS, _, hd⟩ := h.r.crash_all k
  have hdok := h.r.crash_ok k
  obtain ⟨hp1, hp2⟩ := hp.reboot
  have hh := h.x.reboot
  have hrl := RInv.reboot_le h.r
  generalize n.sm.reboot = s at *
  -- the state after `P ++ S1`
  obtain ⟨D1, hD1⟩ : ∃ D1, D1 = g0.runs (P ++ S1) := ⟨_, rfl⟩
  have hD1' : D1 = (g0.runs P).runs S1 := by rw [hD1, Gh.runs_append]
  have ho := h.oksP
  have hlg := (h.legs)
  have hout : n.eng.out = (P ++ S1) ++ (S2 ++ n.eng.out.drop n.done) := by
    conv_lhs => rw [h.r.rest, hS]
    simp
  have hlall : Legals g dv q (g0.runs P) (S1 ++ (S2 ++ n.eng.out.drop n.done)) := by
    have := h.en.sq.legs
    rw [h.takeP, h.dropP, hS, List.append_assoc] at this
    exact this
  rw [hS, List.append_assoc, Gh.oks_append] at ho
  rw [legals_append] at hlall
  have vs1 : VS g dv q D1 := by rw [hD1']; exact h.vsP.runs hg ho.1 hlall.1
  have vsD := h.vsD hg
  have hnv1 : ∀ v, Cmd.saveVote v ∉ S1 := fun v hv => h.r.d.novote v (by rw [hS]; exact List.mem_append_left _ hv)
  have hvD : D1.vote = n.disk.vote := by
    rw [hD1', vote_runs_same _ _ hnv1, h.r.d.vote]
  have hvv : (g0.runs (P ++ S)).vote = D1.vote := by rw [hvD, h.vote_disk]
  rw [hd, ← hD1] at hl hb hf hdok ⊢
  rw [← hvD] at hp1 hp2
  have hsav : Sav g D1.vote (saved c0 (P ++ S1)) := by
    have := h.x.dc.runs hg h.vsP ho.1 hlall.1
    rw [h.r.d.committed, ← Runtime.saved_append, ← hD1'] at this
    exact this
  have hG : ∀ G : Gh, G = gh0 ⟨D1.vote, saved c0 (P ++ S1), D1.store⟩ store base s2 → Crashed g dv q (g0.runs (P ++ S)) D1.store G s2 := by
    intro G hG
    have hGv : G.vote = D1.vote := by rw [hG]; rfl
    have hGs : G.store = store := by rw [hG]; rfl
    have hGc : G.com = s2.applied := by rw [hG]; rfl
    have hGb : G.base = base := by rw [hG]; rfl
    rcases hl.stEq with ⟨e1, e2⟩ | ⟨e1, e2, x, hx, hbe⟩
    · -- the log is kept
      have e1 : store = D1.store := e1
      have hlog : logOf g G = logOf g D1 := by unfold logOf; rw [hGs, e1]
      have hmemAll : ∀ x, s2.applied = some x → idAt (logOf g D1) x.index = some x := by
        intro x hx
        have := hl.appIn x hx
        rw [e1] at this
        exact vs1.st.idAt_mem this
      have hle := (hl.app_le hdok hf).next
      have hpa : nextIndex D1.store.purged ≤ nextIndex s.applied := by
        rcases hf.app with h1 | ⟨x, h1, h2 | h2⟩
        · rw [h1]
        · rw [h1]; exact (hdok.wf.purged_le (Runtime.all_ids h2)).next
        · have := hl.app_le hdok hf
          rw [h1] at this
          exact absurd (lt_of_lt_of_le h2.1.2 this.le) e2
      -- the position of the state machine before re-applying is in the log
      have hbefore : (logOf g D1).take (nextIndex s.applied) = cont g s.applied := by
        cases ha : s.applied with
        | none => simp [cont]
        | some x =>
          have : x ∈ D1.store.purged.toList ++ D1.store.entries.map (·.id) := by
            rcases hf.app with h1 | ⟨y, h1, h2 | h2⟩
            · have h1 : s.applied = D1.store.purged := h1
              rw [← h1, ha]; simp
            · rw [ha] at h1; cases h1; exact List.mem_append_right _ h2
            · have := hl.app_le hdok hf
              rw [h1] at this
              exact absurd (lt_of_lt_of_le h2.1.2 this.le) e2
          exact (take_of_idAt vs1.good (vs1.st.idAt_mem this)).2
      have hpos : PosOk g D1.vote s2.applied s2.mem := by
        rcases Classical.em (s2.applied = s.applied) with heq | hne
        · have : s2.mem = s.mem := by
            rw [hl.mem, heq, Runtime.read_nil _ (Nat.le_refl _)]; rfl
          rw [heq, this]; exact hp1
        · have happ := hl.app
          split at happ
          · exact absurd happ hne
          · cases hc : s2.applied with
            | none =>
              rw [hc] at hle hne
              have : s.applied = none := by
                cases ha : s.applied with
                | none => rfl
                | some x => rw [ha] at hle; simp at hle
              exact absurd this.symm hne
            | some c =>
              obtain ⟨k1, k2⟩ := take_of_idAt vs1.good (hmemAll c hc)
              have hcv := (hsav c (by rw [← hc]; exact happ.symm)).2
              rw [hc] at hle
              simp only [nextIndex_some] at hle
              have := hp1.apply vs1.st k1 hcv hpa (by omega) hbefore k2
              rw [hl.mem, hc]
              exact this
      have hcom : (logOf g D1).take (nextIndex s2.applied) = cont g s2.applied := by
        cases hc : s2.applied with
        | none => simp [cont]
        | some c => exact (take_of_idAt vs1.good (hmemAll c hc)).2
      have hpl := (hl.purged_le_app hdok hf).next
      have han : Anch g G := by rw [Anch, hGc, hlog]; exact hmemAll
      refine ⟨fun _ _ => by rw [hGs, e1], han, ⟨by rw [hGs, e1]; exact vs1.st, by rw [hlog]; exact vs1.good, by rw [hlog, hGv]; exact vs1.lids, by rw [hGv]; exact vs1.voteEl,
        ?_, fun c hc => Or.inl (han c hc), ?_, by rw [hGv]; exact vs1.ownCl, by rw [hGv, hlog]; exact vs1.acks, by rw [hGv]; exact vs1.grants, by rw [hGv]; exact vs1.pv, ?_, ?_⟩, ?_, ?_, ?_, ?_⟩
      · rw [hGc]; exact hpos.1
      · rw [hGc, hGv]; exact hpos.2.1
      · intro hno
        have hbe : memsBelow D1.store (nextIndex s2.applied) = [] := by
          unfold memsBelow
          rw [List.filterMap_eq_nil_iff]
          intro e he
          obtain ⟨h1, h2⟩ := List.mem_filter.1 he
          by_contra h3
          have := hno e (by rw [hGs, e1]; exact h1) h3
          rw [hGc] at this
          have h2 := of_decide_eq_true h2
          omega
        have hbs : base = s2.mem := by
          rcases hb.base with h1 | ⟨_, h1⟩
          · exact h1
          · exact absurd hbe h1
        rw [hGb, hbs, hGs, e1, hpos.2.2]
        -- no membership between the purged and the applied position
        obtain ⟨r1, r2⟩ := vs1.st.read_log (a := nextIndex D1.store.purged) (b := nextIndex s2.applied) (Nat.le_refl _) (by rw [← e1]; exact hpl)
        have hz : (stLog g D1.store).take (nextIndex D1.store.purged) = cont g D1.store.purged := by
          rw [← vs1.st.baseLen]; unfold stLog; simp
        have hcom : (stLog g D1.store).take (nextIndex s2.applied) = cont g s2.applied := hcom
        rw [hz, hcom] at r1
        rw [r1, memOf_append _ _ (by intro i e he; rw [vs1.st.baseLen]; exact r2 i e he)]
        have : (D1.store.read (nextIndex D1.store.purged) (nextIndex s2.applied)).filterMap (·.stored?) = [] := by
          unfold memsBelow at hbe
          rw [List.filterMap_eq_nil_iff] at hbe ⊢
          intro e he
          obtain ⟨h1, h2⟩ := List.mem_filter.1 he
          refine hbe e (List.mem_filter.2 ⟨h1, ?_⟩)
          simp only [Bool.and_eq_true, decide_eq_true_eq] at h2
          exact decide_eq_true h2.2
        rw [this]; rfl
      · rw [hGs, hGc]; exact hpl
      · rw [hGv]; exact hpos
      · rw [hGv, hl.snapEq]
        split
        · exact hpos
        · exact hp2
      · intro e he
        rw [hl.hist] at he
        rcases List.mem_append.1 he with he | he
        · exact hh e he
        · obtain ⟨h1, h2⟩ := List.mem_filter.1 he
          simp only [Bool.and_eq_true, decide_eq_true_eq] at h2
          refine ⟨D1.vote.leaderId, _, hpos.2.1.cpre, ?_⟩
          rw [← hcom, get_take h2.2]
          exact (vs1.st.mem_get h1).2
      · intro h1 h2 h3
        rw [hGv] at h1 h2 h3 ⊢
        rw [hlog]
        rw [← hvv] at h1 h2 h3
        have hc := h.cand h1 h2 h3
        have hsame := h.vote_PS
        rw [hsame] at h2 h3
        have i1 := h.vsP.runs_idle hg ho.1 hlall.1 (fun c hc v hcv => hnv1 v (hcv ▸ hc)) h2 h3
        have i2 := h.vsP.runs_idle hg h.oksS h.legs.1 (fun c hc v hcv => h.r.d.novote v (hcv ▸ hc)) h2 h3
        rw [← Gh.runs_append] at i2
        rw [← hD1'] at i1
        rw [i1.1, ← i2.1, ← hvv]; exact hc
    · -- the log is replaced
      have e1 : store = ⟨s.applied, []⟩ := e1
      have hsx := hp1
      rw [hx] at hsx
      have hval := hsx.1 x rfl
      have hlog : logOf g G = cont g (some x) := by
        unfold logOf stLog; rw [hGs, e1, hx]; simp
      have hmem : s2.mem = s.mem := by
        rw [hl.mem, e2, Runtime.read_nil _ (Nat.le_refl _)]; rfl
      have hpos : PosOk g D1.vote s2.applied s2.mem := by rw [e2, hx, hmem]; exact hsx
      have hpD : Anch g (g0.runs (P ++ S)) → cont g (some x) <+: logOf g (g0.runs (P ++ S)) := by
        intro ha
        refine (hsx.2.1.pre_of_len hg vsD.com ?_).trans (vsD.comPre ha)
        rw [cont_len hval, cont_lenO vsD.comVal]
        rw [hx] at hrl
        exact hrl
      have hshort : (logOf g D1).length ≤ x.index := by
        have : (logOf g D1).length = nextIndex D1.store.lastLogId := vs1.st.len_last
        rw [this]; exact hbe.1
      have hbs : base = s2.mem := by
        rcases hb.base with h1 | ⟨h1, _⟩
        · exact h1
        · exfalso
          have h1 : store = D1.store := h1
          have hb1 : nextIndex D1.store.lastLogId ≤ x.index := hbe.1
          rw [← h1, e1, hx] at hb1
          change nextIndex (some x) ≤ x.index at hb1
          simp only [nextIndex_some] at hb1
          omega
      have hb1 : nextIndex D1.store.lastLogId ≤ x.index := hbe.1
      have han : Anch g G := by
        rw [Anch, hGc, e2, hx, hlog]
        intro c hc; cases hc
        exact cont_last hval
      refine ⟨fun ha hx => ?_, han, ⟨?_, by rw [hlog]; exact cont_good hg _, ?_, by rw [hGv]; exact vs1.voteEl, ?_, fun c hc => Or.inl (han c hc), ?_, by rw [hGv]; exact vs1.ownCl, ?_,
        by rw [hGv]; exact vs1.grants, by rw [hGv]; exact vs1.pv, ?_, ?_⟩, by rw [hGv]; exact hpos, ?_, ?_, ?_⟩
      · have hlen := (hpD ha).length_le
        rw [cont_len hval] at hlen
        omega
      · rw [hGs, e1, hx]
        exact ⟨fun y hy => by cases hy; exact hval, fun i e he => by simp at he⟩
      · rw [hlog, hGv]
        exact fun e he => Or.inr (hsx.2.1.lids hg he)
      · rw [hGc, e2, hx]; exact hsx.1
      · rw [hGc, e2, hx, hGv]
        exact hsx.2.1
      · intro a ha haq
        rw [hGv, hlog]
        exact (vs1.acks a ha haq).replace hg (hg.ackEl a ha).1 hsx.2.1 (by rw [cont_len hval]; omega)
      · intro _
        rw [hGb, hbs, hGs, e1, hmem, hx]; exact hsx.2.2
      · rw [hGs, hGc, e1, e2]
      · rw [hGv, hl.snapEq]
        split
        · exact hpos
        · exact hp2
      · intro e he
        rw [hl.hist, e2, Runtime.read_nil _ (Nat.le_refl _), List.append_nil] at he
        exact hh e he
      · intro h1 h2 h3
        exfalso
        rw [hGv, ← hvv] at h1 h2 h3
        have hpD := hpD (vsD.anch_own (Or.inl h2))
        have hsame := h.vote_PS
        rw [hsame] at h2 h3
        have i1 := h.vsP.runs_idle hg ho.1 hlall.1 (fun c hc v hcv => hnv1 v (hcv ▸ hc)) h2 h3
        have i2 := h.vsP.runs_idle hg h.oksS h.legs.1 (fun c hc v hcv => h.r.d.novote v (hcv ▸ hc)) h2 h3
        rw [← Gh.runs_append] at i2
        rw [← hD1'] at i1
        have := hpD.length_le
        rw [cont_len hval, i2.1, ← i1.1] at this
        omega
  exact ⟨hG _ rfl, hsav⟩

end Openraft.Net
