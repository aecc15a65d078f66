import Verif.Net.Node3

/-!
# What nodes send agrees with the history
-/

set_option autoImplicit false
set_option linter.unusedSectionVars false

namespace Openraft.Net
open Openraft.Repl (Panic dassert Inflight)
open Openraft.Engine Openraft.Cluster
open Openraft.Runtime (Fl RInv Covered Note SmOk LeI DiskOp opOf vote_runs_same out_bind out_pure lift_ok exec_frame submit_ok note_of_op)
open Openraft.VecProgress (AllP BI)

variable {m0 : Membership} [hne : Fact (m0.configs ≠ [])] {g g' : Ghost} {dv dv' : NodeId → Vote} {q : NodeId} {g0 : Gh} {p : Nat} {dbg : Bool} {now : Nat}
variable {a0 : IOId} {s0 c0 : Option LogId} {P S : List Cmd} {n n' n1 : Runtime.Node}

/-- what is known of a vote that is or was on the disk of a node -/
structure VoteSent (g : Ghost) (dv : NodeId → Vote) (v : Vote) : Prop where
  el : v.committed = true → ∃ S, g.el v.leaderId = some S
  pv : v ≤ dv v.leaderId.node

theorem VoteSent.mono (hle : GhostLe g g') (hdv : ∀ n, dv n ≤ dv' n) {v : Vote} (h : VoteSent g dv v) : VoteSent g' dv' v := by
  refine ⟨fun hc => ?_, le_trans h.pv (hdv _)⟩
  obtain ⟨S, hS⟩ := h.el hc
  exact ⟨S, hle.el _ _ hS⟩

/-- what is known of a message -/
def PI (g : Ghost) (dv : NodeId → Vote) : Pkt → Prop
  | .vote v last => VotePkt g v last ∧ v ≤ dv v.leaderId.node
  | .app v prev es lc => AppPkt g v prev es lc ∧ v ≤ dv v.leaderId.node
  | .answer t (.vote v _ gr) => VoteSent g dv v ∧ (gr = true → ∃ x ∈ g.grants, x.q = t ∧ x.L = v.leaderId)
  | .answer t (.append .success v upto) => AckBy g v.leaderId t upto
  | .answer _ (.append (.higherVote w) _ _) => VoteSent g dv w
  | .answer _ (.snapshot w) => VoteSent g dv w
  | .answer _ _ => True
  | .hint v c => Val g c ∧ CVote g v (cont g (some c))
  | .snap v m => SnapPkt g v m ∧ v ≤ dv v.leaderId.node

theorem cv_mono (hle : GhostLe g g') {x : LogId} {v : Vote} (h : Val g x ∧ CVote g v (cont g (some x))) : Val g' x ∧ CVote g' v (cont g' (some x)) := by
  rw [cont_mono hle h.1]
  exact ⟨h.1.mono hle, h.2.mono hle⟩

theorem AppPkt.mono (hg : GInv m0 g) (hle : GhostLe g g') {v : Vote} {prev : Option LogId} {es : List Ent} {lc : Option LogId}
    (h : AppPkt g v prev es lc) : AppPkt g' v prev es lc := by
  refine ⟨h.com, ?_, fun x hx => idAt_pre (hle.ll _) (h.prevIn x hx), ?_, h.idx, ?_⟩
  · obtain ⟨S, hS⟩ := h.el
    exact ⟨S, hle.el _ _ hS⟩
  · obtain ⟨t, ht⟩ := hle.ll v.leaderId
    have hl := congrArg List.length h.ents
    rw [List.length_map, List.length_take, List.length_drop] at hl
    rw [← ht, h.ents]
    by_cases hz : es.length = 0
    · rw [hz]; simp
    · rw [List.drop_append_of_le_length (by omega), List.take_append_of_le_length (by rw [List.length_drop]; omega)]
  · intro x hx
    subst hx
    exact cv_mono hle (h.lcOk x rfl)

theorem SnapPkt.mono (hle : GhostLe g g') {v : Vote} {m : SnapMeta} (h : SnapPkt g v m) : SnapPkt g' v m := by
  obtain ⟨S, hS⟩ := h.el
  obtain ⟨x, hx, h1, h2, h3⟩ := h.ok
  refine ⟨h.com, ⟨S, hle.el _ _ hS⟩, x, hx, ?_⟩
  rw [cont_mono hle h1]
  exact ⟨h1.mono hle, h2.mono hle, h3⟩

theorem PI.mono (hg : GInv m0 g) (hle : GhostLe g g') (hdv : ∀ n, dv n ≤ dv' n) {k : Pkt} (h : PI g dv k) : PI g' dv' k := by
  unfold PI at h ⊢
  split at h
  · obtain ⟨h1, h2⟩ := h
    obtain ⟨l, hl, h3⟩ := h1.log
    exact ⟨⟨h1.unc, h1.pos, l, hle.cl _ _ hl, h3⟩, le_trans h2 (hdv _)⟩
  · exact ⟨h.1.mono hg hle, le_trans h.2 (hdv _)⟩
  · refine ⟨h.1.mono hle hdv, fun hgr => ?_⟩
    obtain ⟨x, hx, hy⟩ := h.2 hgr
    exact ⟨x, hle.grants x hx, hy⟩
  · exact AckBy.mono hle h
  · exact h.mono hle hdv
  · exact h.mono hle hdv
  · trivial
  · exact cv_mono hle h
  · exact ⟨h.1.mono hle, le_trans h.2 (hdv _)⟩

/-- reading a range -/
theorem StOk.read {s : LogStore} (h : StOk g s) (a b : Nat) :
    s.read a b = (s.entries.take (b - nextIndex s.purged)).drop (a - nextIndex s.purged) := by
  have h1 : s.read a b = (s.entries.filter fun e => decide (e.id.index < b)).filter fun e => decide (a ≤ e.id.index) := by
    unfold LogStore.read
    rw [List.filter_filter]
  rw [h1, h.filter_lt]
  have h2 : StOk g { s with entries := s.entries.take (b - nextIndex s.purged) } := by
    refine ⟨h.val, fun i e he => h.pos i e ?_⟩
    have he : (s.entries.take (b - nextIndex s.purged))[i]? = some e := he
    have := lt_of_get he
    rw [List.length_take] at this
    rw [get_take (by omega)] at he; exact he
  cases a with
  | zero => simp
  | succ a =>
    have h3 := h2.filter_gt a
    have h4 : (fun e : Ent => decide (a + 1 ≤ e.id.index)) = fun e => decide (a < e.id.index) := rfl
    rw [h4]; exact h3

/-- a range that is complete -/
theorem StOk.read_full {s : LogStore} (h : StOk g s) {a k : Nat} (hk0 : k ≠ 0) (hk : (s.read a (a + k)).length = k) :
    nextIndex s.purged ≤ a ∧ s.read a (a + k) = (s.entries.drop (a - nextIndex s.purged)).take k ∧
      a + k ≤ nextIndex s.purged + s.entries.length := by
  have h1 := h.read a (a + k)
  have h2 : (s.read a (a + k)).length = min (a + k - nextIndex s.purged) s.entries.length - (a - nextIndex s.purged) := by
    rw [h1, List.length_drop, List.length_take]
  have h3 : nextIndex s.purged ≤ a := by omega
  refine ⟨h3, ?_, by omega⟩
  rw [h1, List.drop_take]
  congr 1; omega

namespace NI

/-- the vote a node has on disk -/
theorem sent (hg : GInv m0 g) (h : NI g dv q g0 a0 s0 c0 P S n) : VoteSent g dv (g0.runs (P ++ S)).vote := by
  have hvs := h.vsD hg
  refine ⟨hvs.voteEl, ?_⟩
  by_cases hq : (g0.runs (P ++ S)).vote.leaderId.node = q
  · rw [hq, h.dvq, h.vote_disk]
  · exact hvs.pv hq

/-- the history gets what an answer says, and the messages sent agree with it -/
theorem emits (hm0 : m0.configs ≠ []) (hg : GInv m0 g) (h : NI g dv q g0 a0 s0 c0 P S n) (hp : NP g n) {c : Cmd} (hc : n.head = some c) (hrd : n.ready c = true) :
    ∃ g', GInv m0 g' ∧ GSame q g g' ∧ NI g' dv q g0 a0 s0 c0 P S n ∧ ∀ k ∈ pktsOf q n c, PI g' dv k := by
  have hleg := h.headLegal hc
  have hvs := h.vsD hg
  have hsent := h.sent hg
  obtain ⟨_, k2, _, _⟩ := h.r.head hc
  have same : (∀ k ∈ pktsOf q n c, PI g dv k) → ∃ g', GInv m0 g' ∧ GSame q g g' ∧ NI g' dv q g0 a0 s0 c0 P S n ∧ ∀ k ∈ pktsOf q n c, PI g' dv k :=
    fun hk => ⟨g, hg, .refl q g, h, hk⟩
  cases c with
  | sendVote v last =>
    apply same
    obtain ⟨rfl, hu, hq, ht, hlast⟩ := hleg
    intro k hk
    rw [List.mem_singleton.1 hk]
    refine ⟨⟨hu, ht, _, h.cand hq hu ht, ?_⟩, hsent.pv⟩
    rw [hlast]; exact hvs.st.lastId.symm
  | heartbeat v t c =>
    apply same
    obtain ⟨rfl, hcm, hq, hx⟩ := hleg
    intro k hk
    rw [List.mem_singleton.1 hk]
    refine ⟨⟨hcm, hvs.voteEl hcm, fun x hx => (by cases hx), (by simp), fun i e he => (by simp at he), ?_⟩, hsent.pv⟩
    exact hx
  | replCommitted o =>
    apply same
    cases o with
    | none => intro k hk; cases hk
    | some x =>
      intro k hk
      rw [List.mem_singleton.1 hk]
      have := hleg.2 x rfl
      show Val g x ∧ CVote g n.disk.vote _
      rw [h.vote_disk]; exact this
  | rebuild ts =>
    apply same
    intro k hk
    simp only [pktsOf] at hk
    split at hk
    · next l x hl hx =>
      rw [List.mem_singleton.1 hk]
      have := com_ok hg h.r.flow.inv h.en hx
      show Val g x ∧ CVote g l.vote _
      rw [(h.r.flow.inv.pj.lead l hl).vote]; exact this
    · cases hk
  | respond w tx r =>
    cases r with
    | vote v last gr =>
      obtain ⟨hv, hgr⟩ := hleg
      by_cases hgt : gr = true
      · obtain ⟨hu, ht, l, hl, hle⟩ := hgr hgt
        have hlast := hvs.st.lastId
        obtain ⟨k1, k2, k3⟩ := h.addGrant hg hv hu hl (by show lastId (stLog g _) ≤ _; rw [hlast]; exact hle)
        refine ⟨_, k1, k2, k3, ?_⟩
        intro k hk
        rw [List.mem_singleton.1 hk]
        refine ⟨?_, fun _ => ⟨_, List.mem_cons_self, rfl, rfl⟩⟩
        have := k3.sent k1
        rw [← hv] at this; exact this
      · apply same
        intro k hk
        rw [List.mem_singleton.1 hk]
        exact ⟨by rw [hv]; exact hsent, fun hh => absurd hh hgt⟩
    | append ar v upto =>
      cases ar with
      | success =>
        obtain ⟨hw, hav, hgv, hheld⟩ := k2
        obtain ⟨hv, hcm, hx, hanch⟩ := hleg
        cases upto with
        | none =>
          apply same
          intro k hk
          rw [List.mem_singleton.1 hk]
          exact AckBy.none
        | some x =>
          have hx := hx x rfl
          have hcov := h.r.fl_wait (c := .respond w tx (.append .success v (some x))) rfl hrd (Or.inl hw)
          have hel := hvs.voteEl (by rw [← hv]; exact hcm)
          rw [← hv] at hel
          have hlt := idAt_lt hx
          have hvt : (⟨v.leaderId, true⟩ : Vote) = v := by rw [← hcm]
          -- a committed position needs no record
          have hcommitted : CVote g v ((g.ll v.leaderId).take (x.index + 1)) → ∃ g', GInv m0 g' ∧ GSame q g g' ∧ NI g' dv q g0 a0 s0 c0 P S n ∧
              ∀ k ∈ pktsOf q n (.respond w tx (.append .success v (some x))), PI g' dv k := by
            intro hcv
            apply same
            intro k hk
            rw [List.mem_singleton.1 hk]
            intro y hy
            cases hy
            exact ⟨hx, Or.inr (by rw [hvt]; exact hcv)⟩
          have hidD : idAt (logOf g (g0.runs (P ++ S))) x.index = some x ∨ CVote g v ((g.ll v.leaderId).take (x.index + 1)) := by
            rcases hheld x rfl with h1 | ⟨_, h1⟩
            · exact Or.inl (hvs.st.idAt_mem (List.mem_append_right _ h1))
            · right
              have h2 := hvs.com
              rw [← hv] at h2
              have h3 := hvs.pc
              refine h2.pre ?_
              refine List.prefix_of_prefix_length_le (List.take_prefix _ _) (h2.ll hg (le_refl _) hel) ?_
              rw [cont_lenO hvs.comVal, List.length_take]; omega
          rcases hidD with hidD | hcv
          · rcases h.durable hg hp hcov hanch hidD with hidP | ⟨hval, hcv⟩
            · have hpre : (g.ll v.leaderId).take (x.index + 1) <+: logOf g (g0.runs P) := by
                rw [match_of_idAt (hg.goodL _) h.vsP.good hx hidP]; exact List.take_prefix _ _
              obtain ⟨k1, k2, k3⟩ := h.addAck hg (L := v.leaderId) (m := x.index + 1) (by rw [hv, h.vote_PS]) hel (by omega) ⟨by
                  rw [← h.vote_PS, ← hv]
                  show (⟨v.leaderId, true⟩ : Vote) ≤ v
                  rw [hvt], fun m hm _ => by
                  show (g.ll v.leaderId).take m <+: _
                  refine List.IsPrefix.trans ?_ hpre
                  have : (g.ll v.leaderId).take m = ((g.ll v.leaderId).take (x.index + 1)).take m := by
                    rw [List.take_take, Nat.min_eq_left hm]
                  rw [this]; exact List.take_prefix _ _⟩
              refine ⟨_, k1, k2, k3, ?_⟩
              intro k hk
              rw [List.mem_singleton.1 hk]
              intro y hy
              cases hy
              exact ⟨hx, Or.inl ⟨_, List.mem_cons_self, rfl, rfl, Nat.lt_succ_self _⟩⟩
            · refine hcommitted ?_
              rw [(take_of_idAt (hg.goodL _) hx).2, hv, ← h.vote_disk]
              exact hcv
          · exact hcommitted hcv
      | higherVote w' =>
        apply same
        intro k hk
        rw [List.mem_singleton.1 hk]
        have hleg : w' = _ := hleg
        show VoteSent g dv w'
        rw [hleg]; exact hsent
      | _ =>
        apply same
        intro k hk
        rw [List.mem_singleton.1 hk]
        trivial
    | snapshot w' =>
      apply same
      intro k hk
      rw [List.mem_singleton.1 hk]
      have hleg : w' = _ := hleg
      show VoteSent g dv w'
      rw [hleg]; exact hsent
    | _ =>
      apply same
      intro k hk
      rw [List.mem_singleton.1 hk]
      trivial
  | _ => exact same fun k hk => by cases hk

/-- the next command is executed -/
theorem run1 (hm0 : m0.configs ≠ []) (hg : GInv m0 g) (h : NI g dv q g0 a0 s0 c0 P S n) (hp : NP g n) (hr : n.run1 dbg = .ok n') :
    ∃ g' dv' P' S', GInv m0 g' ∧ GSame q g g' ∧ (∀ i, dv i ≤ dv' i) ∧ (∀ i, i ≠ q → dv' i = dv i) ∧
      NI g' dv' q g0 a0 s0 c0 P' S' n' ∧ ∀ k ∈ emit q n .run, PI g' dv' k := by
  unfold Runtime.Node.run1 at hr
  cases hc : n.head with
  | none =>
    rw [hc] at hr; simp only [out_pure] at hr; subst hr
    exact ⟨g, dv, P, S, hg, .refl q g, fun _ => le_refl _, fun _ _ => rfl, h, by simp [emit, hc]⟩
  | some c =>
    rw [hc] at hr
    simp only at hr
    split at hr
    · next hrd =>
      simp only [out_bind, out_pure] at hr
      obtain ⟨n1, he, hr⟩ := hr
      subst hr
      obtain ⟨g1, k1, k2, k3, k4⟩ := h.emits hm0 hg hp hc hrd
      have hem : emit q n .run = pktsOf q n c := by simp [emit, hc, hrd]
      rw [hem]
      by_cases hv : ∃ v, c = .saveVote v
      · obtain ⟨v, rfl⟩ := hv
        obtain ⟨g2, dv', e1, e2, e3, e4, e5⟩ := k3.exec_save k1 hc he
        exact ⟨g2, dv', _, _, e1, k2.trans e2, e3, e4, e5, fun k hk => (k4 k hk).mono k1 e2.toGhostLe e3⟩
      · exact ⟨g1, dv, _, _, k1, k2, fun _ => le_refl _, fun _ _ => rfl, k3.exec_keep k1 (hp.le k2.toGhostLe) hc hrd (fun v hv' => hv ⟨v, hv'⟩) he, k4⟩
    · next hrd =>
      simp only [out_pure] at hr; subst hr
      exact ⟨g, dv, P, S, hg, .refl q g, fun _ => le_refl _, fun _ _ => rfl, h, by simp [emit, hc, hrd]⟩

/-- a replication task sends a range of the leader's log -/
theorem sends (hg : GInv m0 g) (h : NI g dv q g0 a0 s0 c0 P S n) {l : Engine.Leader} {prev lc : Option LogId} {k : Nat} (hl : n.eng.leader = some l)
    (hv : n.disk.vote = l.vote) (hp : ∀ x, prev = some x → x ∈ n.rd.purged.toList ++ n.rd.entries.map (·.id))
    (hk : (n.rd.read (nextIndex prev) (nextIndex prev + k)).length = k) (hlc : ∀ x, lc = some x → Val g x ∧ CVote g l.vote (cont g (some x))) :
    PI g dv (.app l.vote prev (n.rd.read (nextIndex prev) (nextIndex prev + k)) lc) := by
  have hkl := h.r.flow.inv.pj.lead l hl
  have hvs := h.vsD hg
  have hG : (g0.runs (P ++ S)).vote = l.vote := by rw [← h.vote_disk]; exact hv
  have hns := no_save h.oksR (by rw [← h.endR, h.r.flow.inv.pj.gv, hG, hkl.vote])
  have hown := hvs.runs_own hg h.oksR h.legs.2 hns (by rw [hG, hkl.vote, hkl.node, h.en.id])
  rw [← h.endR] at hown
  have hll : g.ll l.vote.leaderId = elog g g0 n.eng := by rw [hkl.vote]; exact (h.en.ec.lead l hl).1
  have hcom : l.vote.committed = true := by rw [hkl.vote]; exact hkl.com
  have hst := hvs.st
  rw [← h.r.d.rd] at hst
  have hlogD : logOf g (g0.runs (P ++ S)) = stLog g n.rd := by rw [h.r.d.rd]; rfl
  have hpre : stLog g n.rd <+: g.ll l.vote.leaderId := by rw [hll, ← hlogD]; exact hown
  refine ⟨⟨hcom, ?_, fun x hx => idAt_pre hpre (hst.idAt_mem (hp x hx)), ?_, ?_, fun x hx => by subst hx; exact hlc x rfl⟩, ?_⟩
  · have := hvs.voteEl (by rw [hG]; exact hcom)
    rw [hG] at this; exact this
  · rw [hk]
    by_cases hz : k = 0
    · subst hz
      rw [List.length_eq_zero_iff] at hk
      rw [hk]; simp
    · obtain ⟨h1, h2, h3⟩ := hst.read_full hz hk
      rw [h2, List.map_take, List.map_drop]
      have h4 : ((stLog g n.rd).drop (nextIndex prev)).take k = ((g.ll l.vote.leaderId).drop (nextIndex prev)).take k := by
        obtain ⟨t, ht⟩ := hpre
        have h5 := hst.len
        rw [← ht, List.drop_append_of_le_length (by omega), List.take_append_of_le_length (by rw [List.length_drop]; omega)]
      rw [← h4]
      unfold stLog
      rw [List.drop_append, List.drop_of_length_le (l := cont g n.rd.purged) (by rw [hst.baseLen]; exact h1), List.nil_append, hst.baseLen]
  · intro i e he
    have hz : k ≠ 0 := by
      rintro rfl
      rw [List.length_eq_zero_iff] at hk
      rw [hk] at he; simp at he
    obtain ⟨h1, h2, _⟩ := hst.read_full hz hk
    have hi : i < k := by have := lt_of_get he; omega
    rw [h2, get_take hi, List.getElem?_drop] at he
    have := hst.pos _ e he
    omega
  · have := (h.sent hg).pv
    rw [hG] at this; exact this

/-- a replication task sends the snapshot of the leader's state machine -/
theorem sendsSnap (hg : GInv m0 g) (h : NI g dv q g0 a0 s0 c0 P S n) (hp : NP g n) {l : Engine.Leader} (hl : n.eng.leader = some l)
    (hv : n.disk.vote = l.vote) (hs : n.sm.snap.lastLogId ≠ none) : PI g dv (.snap l.vote n.sm.snap) := by
  have hkl := h.r.flow.inv.pj.lead l hl
  have hvs := h.vsD hg
  have hG : (g0.runs (P ++ S)).vote = l.vote := by rw [← h.vote_disk]; exact hv
  have hcom : l.vote.committed = true := by rw [hkl.vote]; exact hkl.com
  obtain ⟨x, hx⟩ := Option.ne_none_iff_exists'.1 hs
  obtain ⟨h1, h2, h3⟩ := hp.snap
  rw [hx] at h2 h3
  rw [hv] at h2
  refine ⟨⟨hcom, ?_, x, hx, h1 x hx, h2, h3⟩, ?_⟩
  · have := hvs.voteEl (by rw [hG]; exact hcom)
    rw [hG] at this; exact this
  · have := (h.sent hg).pv
    rw [hG] at this; exact this

/-- a leader asks whether it is still accepted -/
theorem sendsCheck (hg : GInv m0 g) (h : NI g dv q g0 a0 s0 c0 P S n) {l : Engine.Leader} (hl : n.eng.leader = some l)
    (hv : n.disk.vote = l.vote) {t : NodeId} {prev : Option LogId} (hp : (t, prev) ∈ l.progress.vp.vector) :
    PI g dv (.app n.eng.st.vote.data prev [] n.eng.st.committed) := by
  have hkl := h.r.flow.inv.pj.lead l hl
  have hvs := h.vsD hg
  have hG : (g0.runs (P ++ S)).vote = l.vote := by rw [← h.vote_disk]; exact hv
  have hcom : l.vote.committed = true := by rw [hkl.vote]; exact hkl.com
  refine ⟨⟨hkl.com, ?_, fun x hx => ((h.en.ec.lead l hl).2 (t, prev) hp x hx).1, by simp, by simp, ?_⟩, ?_⟩
  · have := hvs.voteEl (by rw [hG]; exact hcom)
    rw [hG, hkl.vote] at this; exact this
  · intro x hx
    have := com_ok hg h.r.flow.inv h.en hx
    rw [hx]; exact this
  · have := (h.sent hg).pv
    rw [hG, hkl.vote] at this; exact this

end NI
end Openraft.Net
