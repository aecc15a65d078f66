import Verif.Engine.Total

/-!
# What keeps a release build from aborting

A leader tracks exactly the members of the effective membership, and of every follower positions that are in its own log;
a candidate is a voter and counts the votes of exactly the voters.
-/

set_option autoImplicit false

namespace Openraft

namespace VecProgress
variable {α : Type} [LinearOrder α]

omit [LinearOrder α] in
theorem index_isSome {p : VecProgress α} {n : NodeId} (h : n ∈ ids p.vector) : (p.index n).isSome = true := by
  obtain ⟨e, he, rfl⟩ := List.mem_map.1 h
  unfold index
  rw [List.findIdx?_isSome]
  exact List.any_eq_true.2 ⟨e, he, by simp⟩

omit [LinearOrder α] in
theorem index_mem {p : VecProgress α} {n : NodeId} (h : (p.index n).isSome = true) : n ∈ ids p.vector := by
  unfold index at h
  rw [List.findIdx?_isSome] at h
  obtain ⟨e, he, hx⟩ := List.any_eq_true.1 h
  exact List.mem_map.2 ⟨e, he, by simpa using hx⟩

theorem update_isSome {p : VecProgress α} {n : NodeId} (h : n ∈ ids p.vector) (v : α) : (p.update n v).isSome = true := by
  unfold update
  cases hi : p.index n with
  | none => have := index_isSome h; rw [hi] at this; cases this
  | some i =>
    obtain ⟨x, hx⟩ := Props.index_some hi
    simp only [hx]
    split
    · rfl
    · split
      · rfl
      · split <;> rfl

theorem increaseTo_isSome {p : VecProgress α} {n : NodeId} (h : n ∈ ids p.vector) (v : α) : (p.increaseTo n v).isSome = true := by
  unfold increaseTo
  cases hi : p.index n with
  | none => have := index_isSome h; rw [hi] at this; cases this
  | some i =>
    obtain ⟨x, hx⟩ := Props.index_some hi
    simp only [hx]
    split
    · exact update_isSome h v
    · rfl

theorem increaseTo_ids {p p' : VecProgress α} {n : NodeId} {v : α} (h : p.increaseTo n v = some p') :
    (ids p'.vector).Perm (ids p.vector) := by
  unfold increaseTo at h
  split at h
  · cases h
  · split at h
    · cases h
    · split at h
      · exact update_ids h
      · cases h; exact List.Perm.refl _

theorem upgrade_ids (p : VecProgress α) (cs : List (List NodeId)) (ls : List NodeId) (d : α) :
    (ids (p.upgrade cs ls d).vector).Perm (Membership.jointIds cs ++ ls) := by
  rw [upgrade_eq, ← new_ids cs ls d]
  exact updates_ids

end VecProgress

namespace Engine
open Openraft.Repl (Panic dassert Inflight)
open Openraft.Cluster (Payload)
open LogIdList
open VecProgress (ids)

/-- a voter, or a node with a record -/
def _root_.Openraft.Membership.Has (m : Membership) (n : NodeId) : Prop := m.isVoter n = true ∨ m.contains n = true

/-- the ids are those of all members -/
def Covers (m : Membership) (is : List NodeId) : Prop := ∀ n, n ∈ is ↔ m.Has n

theorem covers_joint (m : Membership) : Covers m (Membership.jointIds m.configs ++ m.learnerIds) := by
  intro n
  unfold Membership.Has Membership.learnerIds Membership.contains
  rw [List.mem_append, Membership.mem_jointIds, List.mem_filter, ← Membership.isVoter_iff, BMap.containsKey_iff]
  cases m.isVoter n <;> simp

theorem Covers.perm {m : Membership} {a b : List NodeId} (h : Covers m a) (p : b.Perm a) : Covers m b :=
  fun n => p.mem_iff.trans (h n)

/-- what the leader knows of a follower lies within its own log -/
def EntOk (n : Nat) (en : Repl.Entry) : Prop := nextIndex en.matching ≤ en.searchingEnd ∧ en.searchingEnd ≤ n

theorem EntOk.mono {n k : Nat} {en : Repl.Entry} (h : EntOk n en) (hk : n ≤ k) : EntOk k en := ⟨h.1, Nat.le_trans h.2 hk⟩

theorem EntOk.reset {n : Nat} {en : Repl.Entry} (h : EntOk n en) : EntOk n en.resetInflight := h

theorem EntOk.empty {n k : Nat} (h : k ≤ n) : EntOk n (Repl.Entry.empty k) := ⟨Nat.zero_le _, h⟩

/-- a leader's progress fits the membership and its log -/
structure Lined (m : Membership) (l : Leader) : Prop where
  prog : Covers m (ids l.progress.vp.vector)
  clock : Covers m (ids l.clock.vector)
  ent : ∀ n, EntOk (nextIndex l.lastLogId) (l.progress.ent n)

/-- a candidate's progress fits the membership -/
structure CLined (me : NodeId) (m : Membership) (c : Candidate) : Prop where
  mem : c.mem = m
  ids : ∀ n, n ∈ ids c.progress.vector ↔ m.isVoter n = true
  voter : m.isVoter me = true
  node : m.contains me = true

/-- leader and candidate fit the effective membership -/
structure Ln (e : Eng) : Prop where
  lead : ∀ l, e.leader = some l → Lined e.st.ms.effective.mem l
  cand : ∀ c, e.candidate = some c → CLined e.cfg.id e.st.ms.effective.mem c

theorem Ln.free {e : Eng} (h1 : e.leader = none) (h2 : e.candidate = none) : Ln e :=
  ⟨fun l hl => (by rw [h1] at hl; cases hl), fun c hc => (by rw [h2] at hc; cases hc)⟩

theorem Ln.same {e e1 : Eng} (h : Ln e) (h1 : e1.st.ms.effective = e.st.ms.effective := by rfl)
    (h2 : e1.candidate = e.candidate := by rfl) (h3 : e1.leader = e.leader := by rfl) (h4 : e1.cfg = e.cfg := by rfl) : Ln e1 :=
  ⟨by rw [h1, h3]; exact h.lead, by rw [h1, h2, h4]; exact h.cand⟩

theorem Ln.set {e e1 : Eng} {l : Leader} (h : Ln e) (h3 : e1.leader = some l) (hl : Lined e.st.ms.effective.mem l)
    (h1 : e1.st.ms.effective = e.st.ms.effective := by rfl) (h2 : e1.candidate = e.candidate := by rfl)
    (h4 : e1.cfg = e.cfg := by rfl) : Ln e1 := by
  refine ⟨?_, by rw [h1, h2, h4]; exact h.cand⟩
  intro x hx
  rw [hx] at h3
  rw [Option.some.inj h3, h1]; exact hl

/-- the call returns and leader and candidate fit afterwards -/
def G {α : Type} (π : α → Eng) (r : Res α) : Prop := ∃ a, r = .ok a ∧ Ln (π a)

namespace G
variable {α β : Type} {π : α → Eng}

theorem pure {a : α} (h : Ln (π a)) : G π (Pure.pure a) := ⟨a, rfl, h⟩

theorem bind {x : Res β} {f : β → Res α} (hx : Tot x) (h : ∀ b, x = .ok b → G π (f b)) : G π (x >>= f) := by
  obtain ⟨b, hb⟩ := hx
  obtain ⟨a, ha, hl⟩ := h b hb
  exact ⟨a, bind_ok.2 ⟨b, hb, ha⟩, hl⟩

theorem bindE (π' : β → Eng) {x : Res β} {f : β → Res α} (hx : G π' x) (h : ∀ b, x = .ok b → Ln (π' b) → G π (f b)) :
    G π (x >>= f) := by
  obtain ⟨b, hb, hl⟩ := hx
  obtain ⟨a, ha, hl⟩ := h b hb hl
  exact ⟨a, bind_ok.2 ⟨b, hb, ha⟩, hl⟩

theorem tot {r : Res α} (h : G π r) : Tot r := by
  obtain ⟨a, ha, _⟩ := h; exact ⟨a, ha⟩

theorem ln {r : Res α} {a : α} (h : G π r) (ha : r = .ok a) : Ln (π a) := by
  obtain ⟨b, hb, hl⟩ := h
  rw [ha] at hb; cases hb; exact hl

theorem of {r : Res α} (h : Tot r) (k : ∀ a, r = .ok a → Ln (π a)) : G π r := by
  obtain ⟨a, ha⟩ := h; exact ⟨a, ha, k a ha⟩

end G

theorem getLogId_view {s : RState} {g : Gh} (h : LogJ s.lv g) {i : Nat} {x : LogId} (hx : x ∈ s.lv.L) (hi : x.index = i)
    (hp : s.purgedNext ≤ i + 1) : s.view.getLogId i = some x := by
  have hg : s.getLogId i = some x := (get_iff h.sorted).2 ⟨hx, hi⟩
  have hlt := h.le_last hx
  have hids : s.view.ids[i]? = some x := by
    unfold RState.view
    simp only [List.getElem?_map]
    rw [List.getElem?_range (by rw [← hi]; exact hlt)]
    simp [hg]
  unfold Repl.LogView.getLogId
  split
  · next p hpp =>
    have hpn := h.pn
    have : s.lv.lastPurged = some p := hpp
    rw [this] at hpn
    have hpn : s.purgedNext = p.index + 1 := hpn
    rw [if_neg (by omega)]; exact hids
  · exact hids

/-- what is sent is not empty -/
theorem nextSend_ok {s : RState} {g : Gh} (h : LogJ s.lv g) {en : Repl.Entry} (he : EntOk (nextIndex s.lastLogId) en) (max : Nat) :
    ∃ sent en', en.nextSend false s.view max = .ok (sent, en') ∧ EntOk (nextIndex s.lastLogId) en' ∧
      (sent = true → en'.inflight ≠ .none) := by
  unfold Repl.Entry.nextSend
  split
  · exact ⟨false, en, rfl, he, fun hx => (by cases hx)⟩
  · simp only [dassert, Bool.false_and, Bool.false_eq_true, if_false, Repl.Entry.calcMid]
    have hln : s.view.lastNext = nextIndex s.lastLogId := by
      unfold Repl.LogView.lastNext RState.view; simp
    have hup : nextIndex s.view.purgeUpto = nextIndex s.purgeUpto := rfl
    split
    · exact ⟨true, _, rfl, he, fun _ => (by simp)⟩
    · next hge =>
      generalize hmid : nextIndex en.matching + (en.searchingEnd - nextIndex en.matching) / 16 * 8 = mid
      have hm : mid ≤ en.searchingEnd := by
        have := he.1
        omega
      have hst : (if mid < nextIndex s.view.purgeUpto then nextIndex s.view.purgeUpto else mid) ≤ nextIndex s.lastLogId ∧
          nextIndex s.purgeUpto ≤ (if mid < nextIndex s.view.purgeUpto then nextIndex s.view.purgeUpto else mid) := by
        rw [hup] at hge ⊢
        have := he.2
        split <;> omega
      simp only [bind, Except.bind, pure, Except.pure]
      generalize (if mid < nextIndex s.view.purgeUpto then nextIndex s.view.purgeUpto else mid) = start at hst ⊢
      split
      · exact ⟨false, _, rfl, he, fun hx => (by cases hx)⟩
      · next hne =>
        refine ⟨true, _, rfl, he, fun _ => ?_⟩
        rw [hln] at hne ⊢
        generalize hE : min (start + max) (nextIndex s.lastLogId) = E at hne ⊢
        have hlt : start < E := by omega
        have hE2 : E ≤ nextIndex s.lastLogId := by omega
        have hpn : s.purgedNext ≤ nextIndex s.purgeUpto := h.ord1
        obtain ⟨y, hy, hyi⟩ := h.exists_index (i := E - 1) (show s.purgedNext ≤ _ by omega) (show E - 1 < nextIndex s.lastLogId by omega)
        have h2 : s.view.prevLogId E = some y := by
          unfold Repl.LogView.prevLogId
          rw [if_neg (by omega)]
          exact getLogId_view h hy hyi (by omega)
        have h1 : s.view.prevLogId start < some y := by
          unfold Repl.LogView.prevLogId
          split
          · exact OptOrd.none_lt_some'
          · obtain ⟨x, hx, hxi⟩ := h.exists_index (i := start - 1) (show s.purgedNext ≤ _ by omega) (show start - 1 < nextIndex s.lastLogId by omega)
            rw [getLogId_view h hx hxi (by omega)]
            show x < y
            rw [h.cons.lt_iff hx hy]; omega
        rw [h2]
        show Inflight.mkLogs _ _ ≠ _
        unfold Inflight.mkLogs
        rw [if_pos h1]; simp

namespace Eng
variable {e : Eng} {l : Leader} {now : Nat}

theorem rhInitLoop_ok {s : RState} {g : Gh} (h : LogJ s.lv g) (me : NodeId) (max : Nat) (ns : List NodeId)
    (ent : NodeId → Repl.Entry) (out : List Cmd) (he : ∀ n, EntOk (nextIndex s.lastLogId) (ent n)) :
    ∃ p, rhInitLoop false me s.view max ns ent out = .ok p ∧ ∀ n, EntOk (nextIndex s.lastLogId) (p.1 n) := by
  induction ns generalizing ent out with
  | nil => exact ⟨_, rfl, he⟩
  | cons n ns ih =>
    unfold rhInitLoop
    split
    · exact ih ent out he
    · obtain ⟨sent, en, h1, h2, h3⟩ := nextSend_ok h (he n) max
      rw [h1]
      simp only [bind, Except.bind]
      have he' : ∀ k, EntOk (nextIndex s.lastLogId) (if k = n then en else ent k) := by
        intro k; split
        · exact h2
        · exact he k
      split
      · next hs =>
        have hs := h3 hs
        unfold Repl.sendToTarget
        cases hx : en.inflight with
        | none => exact absurd hx hs
        | logs p q => exact ih _ _ he'
        | snapshot q => exact ih _ _ he'
      · exact ih _ _ he'

theorem g_rhInitiate {g : Gh} (hJ : LogJ e.st.lv g) (h : Ln e) (hl : Lined e.st.ms.effective.mem l)
    (hlast : l.lastLogId = e.st.lastLogId) : G id (e.rhInitiate false l) := by
  obtain ⟨p, hp, hE⟩ := rhInitLoop_ok hJ e.cfg.id e.cfg.maxPayload (progIds l) l.progress.ent []
    (by rw [← hlast]; exact hl.ent)
  unfold rhInitiate
  refine G.bind ⟨p, hp⟩ fun q hq => ?_
  rw [hp] at hq; cases hq
  refine G.pure (h.set rfl ?_)
  exact ⟨hl.prog, hl.clock, by intro n; show EntOk (nextIndex l.lastLogId) _; rw [hlast]; exact hE n⟩

theorem lined_rebuild (hl : Lined e.st.ms.effective.mem l) : ∃ l', (e.rhRebuildStreams l).leader = some l' ∧ Lined e.st.ms.effective.mem l' ∧
    l'.lastLogId = l.lastLogId ∧ l'.vote = l.vote := by
  refine ⟨_, rfl, ⟨hl.prog, hl.clock, ?_⟩, rfl, rfl⟩
  intro n
  show EntOk (nextIndex l.lastLogId) (if n = e.cfg.id then l.progress.ent n else (l.progress.ent n).resetInflight)
  split
  · exact hl.ent n
  · exact (hl.ent n).reset

theorem g_rhAppendMembership {g : Gh} (hJ : LogJ e.st.lv g) (hc : e.candidate = none)
    (hE : ∀ n, EntOk (nextIndex l.lastLogId) (l.progress.ent n)) (hlast : l.lastLogId = e.st.lastLogId) {i : LogId} {m : Membership} :
    G id (e.rhAppendMembership false l i m) := by
  unfold rhAppendMembership
  refine G.bind (Tot.dassert _) fun _ _ => G.bind (Tot.dassert _) fun _ _ => G.bind (RState.tot_appendMem _ _) fun ms hms => ?_
  have hu : Lined ms.effective.mem (rhRebuildProgresses { e with st := { e.st with ms := ms } } l) := by
    refine ⟨(covers_joint _).perm (VecProgress.upgrade_ids _ _ _ _), (covers_joint _).perm (VecProgress.upgrade_ids _ _ _ _), ?_⟩
    intro n
    show EntOk (nextIndex l.lastLogId) (if (progIds l).contains n then l.progress.ent n else Repl.Entry.empty (nextIndex e.st.lastLogId))
    split
    · exact hE n
    · exact EntOk.empty (by rw [hlast])
  obtain ⟨l', h1, h2, h3, h4⟩ := lined_rebuild (e := { e with st := { e.st with ms := ms } }) hu
  have hn : Ln (rhRebuildStreams { e with st := { e.st with ms := ms } } (rhRebuildProgresses { e with st := { e.st with ms := ms } } l)) := by
    refine ⟨?_, fun c hc' => ?_⟩
    · intro x hx
      rw [h1] at hx; cases hx; exact h2
    · have : e.candidate = some c := hc'
      rw [hc] at this; cases this
  dsimp only
  refine G.bind (Tot.unwrap h1) fun l2 hl2 => ?_
  rw [h1] at hl2; cases hl2
  exact g_rhInitiate (g := g) hJ hn h2 (h3.trans hlast)

theorem rhTryCommit_keeps {e1 : Eng} {gr : Option LogId} (hr : e.rhTryCommit false gr = .ok e1) :
    e1.leader = e.leader ∧ e1.candidate = e.candidate ∧ e1.cfg = e.cfg ∧ e1.st.ms.effective = e.st.ms.effective := by
  have hk : ∀ e2 : Eng, e2.maybeSnapshot.leader = e2.leader ∧ e2.maybeSnapshot.candidate = e2.candidate ∧
      e2.maybeSnapshot.cfg = e2.cfg ∧ e2.maybeSnapshot.st.ms = e2.st.ms := by
    intro e2
    unfold maybeSnapshot triggerSnapshot
    split
    · split <;> exact ⟨rfl, rfl, rfl, rfl⟩
    · exact ⟨rfl, rfl, rfl, rfl⟩
  unfold rhTryCommit at hr
  split at hr
  · rw [pure_ok] at hr; subst hr; exact ⟨rfl, rfl, rfl, rfl⟩
  · split at hr
    · rw [bind_ok] at hr
      obtain ⟨⟨ch, st⟩, hp, hr⟩ := hr
      have hm := updateCommitted_eff hp
      dsimp only at hr
      split at hr
      · rw [pure_ok] at hr; subst hr
        obtain ⟨k1, k2, k3, k4⟩ := hk (Eng.push (Eng.push (Eng.push { e with st := st } (.replCommitted (some ‹LogId›))) (.saveCommitted ‹LogId›)) (.apply e.st.committed ‹LogId›))
        exact ⟨k1, k2, k3, (congrArg (·.effective) k4).trans hm⟩
      · rw [pure_ok] at hr; subst hr; exact ⟨rfl, rfl, rfl, rfl⟩
    · rw [pure_ok] at hr; subst hr; exact ⟨rfl, rfl, rfl, rfl⟩

theorem g_rhTryCommit (h : Ln e) (gr : Option LogId) : G id (e.rhTryCommit false gr) := by
  refine G.of (tot_rhTryCommit _) fun e1 h1 => ?_
  obtain ⟨k1, k2, k3, k4⟩ := rhTryCommit_keeps h1
  exact h.same k4 k2 k1 k3

theorem entOk_updateMatching {N : Nat} {en : Repl.Entry} {m : Option LogId} (h : EntOk N en) (hm : nextIndex m ≤ N)
    (hi : en.inflight ≠ .none) : ∃ en', en.updateMatching false m = .ok en' ∧ EntOk N en' := by
  unfold Repl.Entry.updateMatching Repl.Inflight.ack
  cases hin : en.inflight with
  | none => exact absurd hin hi
  | logs p q =>
    refine ⟨_, rfl, ?_⟩
    show nextIndex m ≤ max en.searchingEnd (nextIndex m) ∧ max en.searchingEnd (nextIndex m) ≤ N
    have := h.2; omega
  | snapshot q =>
    refine ⟨_, rfl, ?_⟩
    show nextIndex m ≤ max en.searchingEnd (nextIndex m) ∧ max en.searchingEnd (nextIndex m) ≤ N
    have := h.2; omega

/-- the result has a leader -/
def GL (r : Res Eng) : Prop := ∃ a, r = .ok a ∧ Ln a ∧ a.leader.isSome = true

theorem GL.g {r : Res Eng} (h : GL r) : G id r := by obtain ⟨a, h1, h2, _⟩ := h; exact ⟨a, h1, h2⟩

theorem g_rhUpdateMatching (h : Ln e) (hl : Lined e.st.ms.effective.mem l) {n : NodeId} {m : Option LogId}
    (hn : e.st.ms.effective.mem.Has n) (hi : (l.progress.ent n).inflight ≠ .none) (hm : nextIndex m ≤ nextIndex l.lastLogId) :
    GL (e.rhUpdateMatching false l n m) := by
  obtain ⟨en, he, hE⟩ := entOk_updateMatching (hl.ent n) hm hi
  have hmem := (hl.prog n).2 hn
  obtain ⟨vp, hvp⟩ := Option.isSome_iff_exists.1 (VecProgress.update_isSome hmem en.matching)
  obtain ⟨ix, hix⟩ := Option.isSome_iff_exists.1 (VecProgress.index_isSome hmem)
  obtain ⟨l1, hl1⟩ : ∃ l1 : Leader, l1 = { l with progress := ⟨vp, fun k => if k = n then en else l.progress.ent k⟩ } := ⟨_, rfl⟩
  have hl1' : Lined e.st.ms.effective.mem l1 := by
    rw [hl1]
    refine ⟨hl.prog.perm (VecProgress.update_ids hvp), hl.clock, ?_⟩
    intro k
    show EntOk (nextIndex l.lastLogId) (if k = n then en else l.progress.ent k)
    split
    · exact hE
    · exact hl.ent k
  have hL : Ln { e with leader := some l1 } := h.set rfl hl1'
  obtain ⟨e1, h1, h2⟩ := g_rhTryCommit hL vp.granted
  refine ⟨e1, ?_, h2, ?_⟩
  · unfold rhUpdateMatching
    simp only [bind_ok]
    refine ⟨(), rfl, ix, unwrap_ok.2 hix, en, he, vp, unwrap_ok.2 hvp, ?_⟩
    rw [← hl1]; exact h1
  · rw [(rhTryCommit_keeps h1).1]; rfl

end Eng
end Engine
end Openraft
