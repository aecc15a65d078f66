import Verif.Net.Agree
import Verif.Runtime.Timed

/-!
# Consequences of the agreement with a history
-/

set_option autoImplicit false
set_option linter.unusedSectionVars false

namespace Openraft.Net
open Openraft.Repl (Panic dassert Inflight)
open Openraft.Engine Openraft.Cluster
open Openraft.Runtime (RInv out_bind out_pure lift_ok)
open Openraft.VecProgress (AllP BI)

variable {m0 : Membership} [hne : Fact (m0.configs ≠ [])] {g g' : Ghost} {dv dv' : NodeId → Vote} {q : NodeId} {g0 : Gh} {p : Nat} {dbg : Bool} {now : Nat}
variable {a0 : IOId} {s0 c0 : Option LogId} {P S : List Cmd} {n n' n1 : Runtime.Node} {G : Gh}

theorem toEntry_inj {a b : Ent} (h : toEntry a = toEntry b) (hi : a.id.index = b.id.index) : a = b := by
  obtain ⟨⟨al, ai⟩, ap⟩ := a
  obtain ⟨⟨bl, bi⟩, bp⟩ := b
  simp only [toEntry, Entry.mk.injEq] at h
  obtain ⟨rfl, rfl⟩ := h
  simp only at hi
  subst hi; rfl

/-- an entry of a log was there before, or some command appends it, or it is up to a snapshot that replaces the log -/
theorem VS.get_back (hg : GInv m0 g) {cs : List Cmd} (h : VS g dv q G) (ho : G.Oks cs) (hl : Legals g dv q G cs) {i : Nat} {y : Entry}
    (hy : (logOf g (G.runs cs))[i]? = some y) :
    (logOf g G)[i]? = some y ∨ (∃ v es e, Cmd.append v es ∈ cs ∧ e ∈ es ∧ e.id.index = i ∧ toEntry e = y) ∨
      ∃ u, Cmd.purge u ∈ cs ∧ i ≤ u.index := by
  induction cs generalizing G with
  | nil => exact Or.inl hy
  | cons c cs ih =>
    have hv := h.run hg ho.1 hl.1
    rcases ih hv ho.2 hl.2 hy with h1 | ⟨v, es, e, h1, h2⟩ | ⟨u, h1, h2⟩
    · cases c with
        | truncate s =>
          rw [(h.run_truncate hg ho.1 hl.1).2] at h1
          exact Or.inl (get_of_pre_some (List.take_prefix _ _) h1)
        | purge u =>
          rcases ho.1.2.2 with hin | ⟨h3, h4⟩
          · rw [(h.run_purgeIn ho.1 hin).2] at h1; exact Or.inl h1
          · obtain ⟨_, hlog⟩ := h.run_purgeOut hg h3 h4
            rw [hlog] at h1
            have := lt_of_get h1
            rw [cont_len (h.comVal u h4)] at this
            exact Or.inr (Or.inr ⟨u, by simp, by omega⟩)
        | sm c => cases c <;> exact Or.inl h1
        | append v es =>
          obtain ⟨_, hlog⟩ := h.run_append ho.1 hl.1
          rw [hlog] at h1
          by_cases hi : i < (logOf g G).length
          · rw [List.getElem?_append_left hi] at h1; exact Or.inl h1
          · right; left
            have hin : nextIndex (G.run (.append v es)).store.purged ≤ i := by
              have h2 := h.st.len
              have h3 : (logOf g G).length = (stLog g G.store).length := rfl
              show nextIndex G.store.purged ≤ i
              omega
            have h4 : (stLog g (G.run (.append v es)).store)[i]? = some y := by
              show (logOf g (G.run (.append v es)))[i]? = some y
              rw [hlog]; exact h1
            rw [List.getElem?_append_right (by omega), List.getElem?_map] at h1
            obtain ⟨e, he, hey⟩ := Option.map_eq_some_iff.1 h1
            obtain ⟨_, hcons, hhead, _, _⟩ := ho.1
            refine ⟨v, es, e, by simp, List.mem_of_getElem? he, ?_, hey⟩
            have hp := hv.st.pos (G.store.entries.length + (i - (logOf g G).length)) e (by
              show (G.store.entries ++ es)[_]? = some e
              rw [List.getElem?_append_right (by omega)]
              rw [Nat.add_sub_cancel_left]; exact he)
            have h5 : (logOf g G).length = nextIndex G.store.purged + G.store.entries.length := h.st.len
            have h6 : e.id.index = nextIndex G.store.purged + (G.store.entries.length + (i - (logOf g G).length)) := hp
            omega
        | _ => exact Or.inl h1
    · exact Or.inr (Or.inl ⟨v, es, e, List.mem_cons_of_mem _ h1, h2⟩)
    · exact Or.inr (Or.inr ⟨u, List.mem_cons_of_mem _ h1, h2⟩)

namespace NI

/-- the readable and the durable log -/
theorem stores (hg : GInv m0 g) (h : NI g dv q g0 a0 s0 c0 P S n) {s : LogStore} (hs : s = n.rd ∨ s = n.disk.store) : StOk g s ∧ Good g (stLog g s) := by
  rcases hs with rfl | rfl
  · rw [h.r.d.rd]; exact ⟨(h.vsD hg).st, (h.vsD hg).good⟩
  · rw [h.r.d.store]; exact ⟨h.vsP.st, h.vsP.good⟩

/-- a leader was elected, and its log is the log of its leader id -/
theorem leads (hg : GInv m0 g) (h : NI g dv q g0 a0 s0 c0 P S n) {l : Engine.Leader} (hl : n.eng.leader = some l) :
    (∃ S, g.el l.vote.leaderId = some S) ∧ g.ll l.vote.leaderId = elog g g0 n.eng := by
  have hk := h.r.flow.inv.pj.lead l hl
  have hvs := h.vsE hg
  rw [hk.vote]
  refine ⟨?_, (h.en.ec.lead l hl).1⟩
  have := hvs.voteEl (by rw [h.r.flow.inv.pj.gv]; exact hk.com)
  rw [h.r.flow.inv.pj.gv] at this; exact this

/-- an entry of the engine's log is purged, readable or queued, or is up to a snapshot by which the log is replaced -/
theorem holds (hg : GInv m0 g) (h : NI g dv q g0 a0 s0 c0 P S n) {x : Ent} (hx : (elog g g0 n.eng)[x.id.index]? = some (toEntry x)) :
    (x.id.index < nextIndex n.rd.purged ∨ ∃ u, Cmd.purge u ∈ n.eng.out.drop n.done ∧ x.id.index ≤ u.index) ∨ x ∈ n.rd.entries ∨
      ∃ v es, Cmd.append v es ∈ n.eng.out.drop n.done ∧ x ∈ es := by
  unfold elog at hx
  rw [h.endR] at hx
  rcases (h.vsD hg).get_back hg h.oksR h.legs.2 hx with h1 | ⟨v, es, e, h1, h2, h3, h4⟩ | ⟨u, h1, h2⟩
  · by_cases hi : x.id.index < nextIndex n.rd.purged
    · exact Or.inl (Or.inl hi)
    · right; left
      have hst := (h.vsD hg).st
      have h1 : (stLog g (g0.runs (P ++ S)).store)[x.id.index]? = some (toEntry x) := h1
      rw [← h.r.d.rd] at hst h1
      obtain ⟨e, he, hei, hee⟩ := hst.get_mem h1 (by omega)
      rw [← toEntry_inj hee hei]; exact he
  · right; right
    rw [← toEntry_inj h4 h3]
    exact ⟨v, es, h1, h2⟩
  · exact Or.inl (Or.inr ⟨u, h1, h2⟩)

/-- when a leader's vote is durable, its readable log is part of its log -/
theorem rd_pre (hg : GInv m0 g) (h : NI g dv q g0 a0 s0 c0 P S n) {l : Engine.Leader} (hl : n.eng.leader = some l) (hv : n.disk.vote = l.vote) :
    stLog g n.rd <+: elog g g0 n.eng := by
  have hkl := h.r.flow.inv.pj.lead l hl
  have hG : (g0.runs (P ++ S)).vote = l.vote := by rw [← h.vote_disk]; exact hv
  have hns := no_save h.oksR (by rw [← h.endR, h.r.flow.inv.pj.gv, hG, hkl.vote])
  have hown := (h.vsD hg).runs_own hg h.oksR h.legs.2 hns (by rw [hG, hkl.vote, hkl.node, h.en.id])
  rw [← h.endR] at hown
  rw [h.r.d.rd]; exact hown

/-- when all commands are executed, the readable log is the engine's -/
theorem rd_all (h : NI g dv q g0 a0 s0 c0 P S n) (hd : n.done = n.eng.out.length) : stLog g n.rd = elog g g0 n.eng := by
  have : n.eng.out.drop n.done = [] := by rw [hd]; simp
  unfold elog
  rw [h.endR, this, h.r.d.rd]; rfl

/-- what the engine takes for committed is committed -/
theorem committed (hg : GInv m0 g) (h : NI g dv q g0 a0 s0 c0 P S n) {c : LogId} (hc : n.eng.st.committed = some c) :
    CVote g n.eng.st.vote.data ((elog g g0 n.eng).take (c.index + 1)) ∧ c.index < (elog g g0 n.eng).length := by
  have hvs := h.vsE hg
  have h1 : (g0.runs n.eng.out).com = some c := by rw [h.r.flow.inv.lm.log.com]; exact hc
  have ha := lm_anch h.r.flow.inv.lm hvs
  have h2 := hvs.comT ha
  rw [h1, h.r.flow.inv.pj.gv] at h2
  exact ⟨h2, idAt_lt (ha c h1)⟩

end NI

/-- an entry that was applied is in every committed prefix that is long enough -/
theorem PosOk.get (hm0 : m0.configs ≠ []) (hg : GInv m0 g) {v : Vote} {o : Option LogId} {mem : StoredMem} (h : PosOk g v o mem) {e : Ent} (he : HistOk g e)
    (hi : e.id.index < nextIndex o) : (cont g o)[e.id.index]? = some (toEntry e) := by
  obtain ⟨L, l, h1, h2⟩ := he
  have hlen : e.id.index < (cont g o).length := by rw [cont_lenO h.1]; exact hi
  rcases h.2.1.cpre.total hm0 hg h1 with hp | hp
  · rw [← get_of_pre hp hlen]; exact h2
  · exact get_of_pre_some hp h2

/-- a committed prefix was acknowledged by somebody -/
theorem commit_ack (hm0 : m0.configs ≠ []) (hg : GInv m0 g) {r : Commit} (hr : r ∈ g.commits) : ∃ a ∈ g.acks, a.L = r.L := by
  obtain ⟨⟨S, hS⟩, h1, h2, h3, _, h5, _, h7⟩ := hg.commit r hr
  have hgood : Good g ((g.ll r.L).take r.t) := (hg.goodL r.L).pre (List.take_prefix _ _)
  have hlen : ((g.ll r.L).take r.t).length = r.t := by rw [List.length_take]; omega
  have hne : (g.ll r.L).take r.t ≠ [] := by intro h0; rw [h0] at hlen; simp at hlen; omega
  have hh := hg.goodHead hgood hne
  have hcfg : (initEntry m0).cfg = some m0 := rfl
  obtain ⟨k, m, hl⟩ := lastCfg_exists (List.mem_of_getElem? hh) hcfg
  obtain ⟨⟨e, he, hm⟩, _⟩ := lastCfg_some.1 hl
  have hc := hg.cfgNe hm0 hgood he hm
  have hcf : cfgs ((g.ll r.L).take r.t) = m.configs := by unfold cfgs; rw [effMembership_of hl]
  rw [hcf, isQuorum_iff] at h5
  obtain ⟨c, hcm⟩ := List.exists_mem_of_ne_nil _ hc
  have h6 := h5 c hcm
  cases hq : r.S with
  | nil => rw [hq] at h6; simp [countIn] at h6
  | cons x xs =>
    obtain ⟨a, ha, _, haL, _⟩ := h7 x (by rw [hq]; simp)
    exact ⟨a, ha, haL⟩

/-- a step does not change the configuration of the node -/
theorem cfg_step {ev : Runtime.Ev} (hs : n.step dbg ev = .ok n') : n'.eng.cfg = n.eng.cfg := by
  have key : ∀ {i : Input} {now : Nat} {e' : Eng}, n.eng.input dbg now i = .ok e' → e'.cfg = n.eng.cfg := fun hr => (Eng.grow_input _ _ _ hr).1
  cases ev with
  | msg now i =>
    simp only [Runtime.Node.step] at hs
    split at hs
    · simp only [out_bind, lift_ok, out_pure] at hs
      obtain ⟨e, he, rfl⟩ := hs
      exact key he
    · rw [out_pure] at hs; subst hs; exact rfl
  | write now tx p =>
    simp only [Runtime.Node.step] at hs
    split at hs
    · simp only [out_bind, lift_ok, out_pure] at hs
      obtain ⟨⟨o, e⟩, he, rfl⟩ := hs
      have k := key (i := .write p) (now := now) (e' := e) (by simp only [Eng.input]; rw [he]; rfl)
      cases o <;> exact k
    · rw [out_pure] at hs; subst hs; exact rfl
  | change now tx c r =>
    simp only [Runtime.Node.step] at hs
    split at hs
    · simp only [out_bind, lift_ok, out_pure] at hs
      obtain ⟨⟨o, e⟩, he, rfl⟩ := hs
      have k := key (i := .change c r) (now := now) (e' := e) (by simp only [Eng.input]; rw [he]; rfl)
      cases o <;> exact k
    · rw [out_pure] at hs; subst hs; exact rfl
  | note now =>
    simp only [Runtime.Node.step] at hs
    split at hs
    · split at hs
      · rw [out_pure] at hs; subst hs; exact rfl
      · next x xs hx =>
        clear hx
        cases x <;> simp only [Runtime.Node.handle, out_bind, lift_ok, out_pure] at hs <;> obtain ⟨e, he, rfl⟩ := hs
        case applied last es =>
          rw [(Runtime.VInv.answer_same es _).1]
          exact key (i := .applied last) he
        case selfVote w => exact key (i := .voteResp n.eng.cfg.id w none true w) he
        case localIO io => exact key (i := .localIO io) he
        case built m => exact key (i := .built m) he
        case installed io m => exact key (i := .installed io m) he
    · rw [out_pure] at hs; subst hs; exact rfl
  | run =>
    simp only [Runtime.Node.step, Runtime.Node.run1] at hs
    split at hs
    · rw [out_pure] at hs; subst hs; exact rfl
    · split at hs
      · rw [out_bind] at hs
        obtain ⟨n1, hx, hs⟩ := hs
        rw [out_pure] at hs; subst hs
        have s := Runtime.still_exec hx
        exact s.cfg
      · rw [out_pure] at hs; subst hs; exact rfl
  | flush =>
    simp only [Runtime.Node.step, out_pure] at hs
    subst hs
    unfold Runtime.Node.flush1
    split <;> exact rfl
  | sm =>
    simp only [Runtime.Node.step] at hs
    unfold Runtime.Node.smStep at hs
    split at hs
    · rw [out_pure] at hs; subst hs; exact rfl
    · dsimp only at hs
      split at hs
      · rw [out_pure] at hs; subst hs; exact rfl
      · cases hs
    · rw [out_pure] at hs; subst hs; exact rfl
    · rw [out_pure] at hs; subst hs; exact rfl
  | build k =>
    simp only [Runtime.Node.step, out_pure] at hs
    subst hs
    unfold Runtime.Node.buildDone
    split <;> exact rfl

theorem cfg_restart {cfg : Cfg} {d : Runtime.Disk} {s : Runtime.Sm} (hr : Runtime.restart dbg now cfg d s = .ok n) : n.eng.cfg = cfg := by
  unfold Runtime.restart at hr
  simp only [out_bind, lift_ok, out_pure] at hr
  obtain ⟨⟨st, store, s2⟩, h1, e, h2, rfl⟩ := hr
  exact (Eng.grow_startup (dbg := dbg) (now := now) _ e h2).1

end Openraft.Net
