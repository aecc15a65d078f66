import Verif.Engine.Sends
import Verif.Engine.Role

/-!
# What an input does to the requests in flight

The leader's progress holds, for every other member, the request that is in flight. The walk below shows that an
input keeps what is in flight for a member, or starts a request where there is none and adds it as a `Replicate`
command; when the streams are rebuilt all members start without. Reports of replication tasks are the only other
way in which it changes.
-/

set_option autoImplicit false

namespace Openraft.Engine
open Openraft.Repl (Panic dassert Inflight)
open Openraft.Cluster (Payload)
open Openraft.VecProgress (ids)

instance : LetsCalm Cmd.noStream := ⟨fun c h h' h'' h3 => by cases c <;> first | trivial | exact absurd rfl (h' _) | exact absurd rfl (h3 _ _)⟩
instance : LetsPurge Cmd.noStream := ⟨fun _ => trivial⟩

/-- the request in a command to a target -/
def Cmd.req (t : NodeId) : Cmd → Option Inflight
  | .replicate t' q => if t' = t then some q else none
  | _ => none

/-- the requests to a target among some commands -/
def reqs (t : NodeId) (cs : List Cmd) : List Inflight := cs.filterMap (Cmd.req t)

theorem reqs_append (t : NodeId) (a b : List Cmd) : reqs t (a ++ b) = reqs t a ++ reqs t b := by
  unfold reqs; rw [List.filterMap_append]

theorem Cmd.noStream.rb {c : Cmd} (h : c.noStream) : c.noRb := by cases c <;> first | trivial | cases h

theorem Cmd.noStream.req {c : Cmd} (h : c.noStream) (t : NodeId) : c.req t = none := by cases c <;> first | rfl | cases h

theorem reqs_noStream {t : NodeId} {cs : List Cmd} (h : ∀ c ∈ cs, c.noStream) : reqs t cs = [] := by
  unfold reqs
  rw [List.filterMap_eq_nil_iff]
  exact fun c hc => (h c hc).req t

/-- what is known of a member goes from `a` to `b` while these requests are made: nothing changes, or a request is started -/
def Starts (a b : Repl.Entry) (rs : List Inflight) : Prop :=
  (rs = [] ∧ b = a) ∨ (a.inflight = .none ∧ ∃ q, q ≠ .none ∧ rs = [q] ∧ b = { a with inflight := q })

theorem Starts.refl (a : Repl.Entry) : Starts a a [] := Or.inl ⟨rfl, rfl⟩

theorem Starts.trans {a b c : Repl.Entry} {r s : List Inflight} (h : Starts a b r) (k : Starts b c s) : Starts a c (r ++ s) := by
  rcases h with ⟨rfl, rfl⟩ | ⟨h1, q, h2, rfl, rfl⟩
  · exact k
  · rcases k with ⟨rfl, rfl⟩ | ⟨k1, _⟩
    · exact Or.inr ⟨h1, q, h2, rfl, rfl⟩
    · exact absurd k1 h2

/-- the leader is the one of before, and so is what is in flight, but for the requests that were started -/
def Kept (e0 e : Eng) (l : Leader) (cs : List Cmd) : Prop :=
  ∃ l0, e0.leader = some l0 ∧ l.vote.leaderId = l0.vote.leaderId ∧ e.st.ms.effective = e0.st.ms.effective ∧
    nextIndex l0.lastLogId ≤ nextIndex l.lastLogId ∧ (∀ c ∈ cs, c.noRb) ∧
    ∀ t, t ≠ e.cfg.id → Starts (l0.progress.ent t) (l.progress.ent t) (reqs t cs)

/-- the streams were rebuilt -/
def Made (e : Eng) (l : Leader) (cs : List Cmd) : Prop :=
  ∃ (as : List Cmd) (ts : List (NodeId × Repl.Entry)) (bs : List Cmd) (f : NodeId → Repl.Entry), cs = as ++ Cmd.rebuild ts :: bs ∧ (∀ c ∈ bs, c.noRb) ∧ (∀ t en, (t, en) ∈ ts → en = f t ∧ t ≠ e.cfg.id) ∧
    ∀ t, t ≠ e.cfg.id → (f t).inflight = .none ∧ Starts (f t) (l.progress.ent t) (reqs t bs)

/-- one of these -/
def PL (e0 e : Eng) (l : Leader) : Prop := ∃ cs, e.out = e0.out ++ cs ∧ (Kept e0 e l cs ∨ Made e l cs)

/-- commands were added, and a leader has what is in flight from before or started it -/
structure PV (e0 e : Eng) : Prop where
  grow : ∃ cs, e.out = e0.out ++ cs
  lead : ∀ l, e.leader = some l → PL e0 e l

variable {e0 : Eng}

theorem PV.refl (e : Eng) : PV e e :=
  ⟨⟨[], by simp⟩, fun l hl => ⟨[], by simp, Or.inl ⟨l, hl, rfl, rfl, le_refl _, by simp, fun _ _ => Starts.refl _⟩⟩⟩

theorem PL.same {e e1 : Eng} {l l' : Leader} (h : PL e0 e l) (hp : ∀ t, t ≠ e.cfg.id → l'.progress.ent t = l.progress.ent t := by intros; rfl)
    (hv : l'.vote.leaderId = l.vote.leaderId := by rfl) (h1 : e1.out = e.out := by rfl) (h2 : e1.cfg = e.cfg := by rfl)
    (h3 : e1.st.ms.effective = e.st.ms.effective := by rfl) (h4 : nextIndex l.lastLogId ≤ nextIndex l'.lastLogId := by exact le_refl _) : PL e0 e1 l' := by
  obtain ⟨cs, ho, h⟩ := h
  refine ⟨cs, h1.trans ho, ?_⟩
  rcases h with ⟨l0, a, b, c, k, d, f⟩ | ⟨as, ts, bs, f, a, b, c, d⟩
  · refine Or.inl ⟨l0, a, hv.trans b, h3.trans c, k.trans h4, d, fun t ht => ?_⟩
    rw [h2] at ht; rw [hp t ht]; exact f t ht
  · refine Or.inr ⟨as, ts, bs, f, a, b, (by rw [h2]; exact c), fun t ht => ?_⟩
    rw [h2] at ht; rw [hp t ht]; exact d t ht

theorem PV.same {e e1 : Eng} (h : PV e0 e) (h1 : e1.out = e.out := by rfl) (h2 : e1.leader = e.leader := by rfl)
    (h3 : e1.cfg = e.cfg := by rfl) (h4 : e1.st.ms.effective = e.st.ms.effective := by rfl) : PV e0 e1 :=
  ⟨by rw [h1]; exact h.grow, fun l hl => PL.same (h.lead l (by rw [← h2]; exact hl)) (fun _ _ => rfl) rfl h1 h3 h4⟩

theorem PV.none {e e1 : Eng} (h : PV e0 e) (h2 : e1.leader = none := by rfl) (h1 : e1.out = e.out := by rfl) : PV e0 e1 :=
  ⟨by rw [h1]; exact h.grow, fun l hl => by rw [h2] at hl; cases hl⟩

theorem PV.set {e e1 : Eng} {l : Leader} (h : PV e0 e) (h2 : e1.leader = some l) (hl : PL e0 e l) (h1 : e1.out = e.out := by rfl)
    (h3 : e1.cfg = e.cfg := by rfl) (h4 : e1.st.ms.effective = e.st.ms.effective := by rfl) : PV e0 e1 :=
  ⟨by rw [h1]; exact h.grow, fun l' hl' => by rw [h2] at hl'; cases hl'; exact hl.same (fun _ _ => rfl) rfl h1 h3 h4⟩

theorem PL.more {e e1 : Eng} {l l1 : Leader} {ds : List Cmd} (h : PL e0 e l) (ho : e1.out = e.out ++ ds) (hd : ∀ c ∈ ds, c.noRb) (h2 : e1.cfg = e.cfg)
    (hv : l1.vote.leaderId = l.vote.leaderId) (h3 : e1.st.ms.effective = e.st.ms.effective) (h4 : nextIndex l.lastLogId ≤ nextIndex l1.lastLogId)
    (hs : ∀ t, t ≠ e.cfg.id → Starts (l.progress.ent t) (l1.progress.ent t) (reqs t ds)) : PL e0 e1 l1 := by
  obtain ⟨cs, h1, h⟩ := h
  refine ⟨cs ++ ds, by rw [ho, h1, List.append_assoc], ?_⟩
  have hb : ∀ bs : List Cmd, (∀ c ∈ bs, c.noRb) → ∀ c ∈ bs ++ ds, c.noRb := fun bs hbs c hc => (List.mem_append.1 hc).elim (hbs c) (hd c)
  rcases h with ⟨l0, a, b, c, k, d, f⟩ | ⟨as, ts, bs, f, a, b, c, d⟩
  · refine Or.inl ⟨l0, a, hv.trans b, h3.trans c, k.trans h4, hb _ d, fun t ht => ?_⟩
    rw [h2] at ht; rw [reqs_append]; exact (f t ht).trans (hs t ht)
  · refine Or.inr ⟨as, ts, bs ++ ds, f, by rw [a]; simp, hb _ b, (by rw [h2]; exact c), fun t ht => ?_⟩
    rw [h2] at ht; rw [reqs_append]; exact ⟨(d t ht).1, (d t ht).2.trans (hs t ht)⟩

theorem PL.push {e : Eng} {l : Leader} {c : Cmd} (h : PL e0 e l) (hc : c.noStream := by trivial) : PL e0 (e.push c) l := by
  refine h.more (ds := [c]) rfl (by simpa using hc.rb) rfl rfl rfl (le_refl _) fun t _ => ?_
  rw [reqs_noStream (by simpa using hc)]; exact Starts.refl _

theorem PV.push {e : Eng} {c : Cmd} (h : PV e0 e) (hc : c.noStream := by trivial) : PV e0 (e.push c) := by
  refine ⟨?_, fun l hl => (h.lead l hl).push hc⟩
  obtain ⟨cs, h1⟩ := h.grow
  exact ⟨cs ++ [c], by show e.out ++ [c] = _; rw [h1, List.append_assoc]⟩

/-- `PV` for a result -/
def PVR (e0 : Eng) {α : Type} (π : α → Eng) (x : Res α) : Prop := ∀ a, x = .ok a → PV e0 (π a)

namespace PVR
variable {α β : Type} {π : α → Eng}

theorem pure {a : α} (h : PV e0 (π a)) : PVR e0 π (Pure.pure a) := by
  intro b hb; rw [pure_ok] at hb; subst hb; exact h

theorem bind {x : Res β} {f : β → Res α} (h : ∀ b, x = .ok b → PVR e0 π (f b)) : PVR e0 π (x >>= f) := by
  intro a ha; rw [bind_ok] at ha
  obtain ⟨b, hx, hb⟩ := ha; exact h b hx a hb

theorem bindE (π' : β → Eng) {x : Res β} {f : β → Res α} (hx : PVR e0 π' x) (h : ∀ b, PV e0 (π' b) → PVR e0 π (f b)) :
    PVR e0 π (x >>= f) := by
  intro a ha; rw [bind_ok] at ha
  obtain ⟨b, hx', hb⟩ := ha; exact h b (hx b hx') a hb

end PVR

namespace Eng
variable {dbg : Bool} {now : Nat} {e : Eng} {l : Leader}

theorem pv_logPurge (h : PV e0 e) : PV e0 e.logPurge := by
  unfold logPurge
  split
  · exact h
  · split
    · exact h
    · exact PV.push h.same

theorem pv_updatePurgeUpto (h : PV e0 e) (x : LogId) : PVR e0 id (e.updatePurgeUpto dbg x) := by
  unfold updatePurgeUpto
  exact PVR.bind fun _ _ => PVR.pure h.same

theorem pv_schedulePurge (h : PV e0 e) : PVR e0 id (e.schedulePurge dbg) := by
  unfold schedulePurge
  refine PVR.bind fun o _ => ?_
  split
  · exact pv_updatePurgeUpto h _
  · exact PVR.pure h

theorem pv_triggerSnapshot (h : PV e0 e) : PV e0 e.triggerSnapshot := by
  unfold triggerSnapshot
  split
  · exact h
  · exact PV.push h.same

theorem pv_updateSnapshot (h : PV e0 e) (m : SnapMeta) : PV e0 (e.updateSnapshot m).2 := by
  unfold updateSnapshot
  split
  · exact h
  · exact h.same

theorem pv_maybeSnapshot (h : PV e0 e) : PV e0 e.maybeSnapshot := by
  unfold maybeSnapshot
  split
  · exact pv_triggerSnapshot h
  · exact h

theorem nextSend_starts {v : Repl.LogView} {max : Nat} {p en : Repl.Entry} {sent : Bool} (h : p.nextSend dbg v max = .ok (sent, en)) :
    (sent = false ∧ en = p) ∨ (sent = true ∧ p.inflight = .none ∧ en = { p with inflight := en.inflight }) := by
  unfold Repl.Entry.nextSend at h
  dsimp only at h
  split at h
  · rw [pure_ok] at h; cases h; exact Or.inl ⟨rfl, rfl⟩
  · next hn =>
    have hn : p.inflight = .none := by simpa using hn
    have hp : ({ p with inflight := .none } : Repl.Entry) = p := by rw [← hn]
    rw [bind_ok] at h
    obtain ⟨_, _, h⟩ := h
    split at h
    · rw [pure_ok] at h; cases h; exact Or.inr ⟨rfl, hn, rfl⟩
    · rw [bind_ok] at h
      obtain ⟨mid, _, h⟩ := h
      generalize (if mid < nextIndex v.purgeUpto then nextIndex v.purgeUpto else mid) = st at h
      split at h
      · rw [pure_ok] at h; cases h; exact Or.inl ⟨rfl, hp⟩
      · rw [pure_ok] at h; cases h; exact Or.inr ⟨rfl, hn, rfl⟩

theorem rhInitLoop_starts {me : NodeId} {v : Repl.LogView} {max : Nat} {ns : List NodeId} {ent : NodeId → Repl.Entry}
    {out : List Cmd} {q : (NodeId → Repl.Entry) × List Cmd} (h : rhInitLoop dbg me v max ns ent out = .ok q) :
    ∃ cs, q.2 = out ++ cs ∧ (∀ c ∈ cs, c.noRb) ∧ ∀ t, Starts (ent t) (q.1 t) (reqs t cs) := by
  induction ns generalizing ent out with
  | nil => rw [rhInitLoop, pure_ok] at h; subst h; exact ⟨[], by simp, by simp, fun _ => Starts.refl _⟩
  | cons n ns ih =>
    rw [rhInitLoop] at h
    split at h
    · exact ih h
    · rw [bind_ok] at h
      obtain ⟨⟨sent, en⟩, hs, h⟩ := h
      dsimp only at h
      split at h
      · next hsent =>
        rw [bind_ok] at h
        obtain ⟨req, hreq, h⟩ := h
        obtain ⟨rfl, hnn⟩ := sendToTarget_ok hreq
        obtain ⟨cs, h1, h2, h3⟩ := ih h
        refine ⟨.replicate n en.inflight :: cs, by rw [h1]; simp, ?_, fun t => ?_⟩
        · intro c hc
          rcases List.mem_cons.1 hc with rfl | hc
          · trivial
          · exact h2 c hc
        · have hk := h3 t
          have hp : Starts (ent t) (if t = n then en else ent t) (reqs t [.replicate n en.inflight]) := by
            by_cases ht : t = n
            · subst ht
              rw [if_pos rfl]
              rcases nextSend_starts hs with ⟨a, _⟩ | ⟨_, a, b⟩
              · rw [hsent] at a; cases a
              · exact Or.inr ⟨a, en.inflight, hnn, by simp [reqs, Cmd.req], b⟩
            · rw [if_neg ht]
              have : reqs t [Cmd.replicate n en.inflight] = [] := by simp [reqs, Cmd.req, Ne.symm ht]
              rw [this]; exact Starts.refl _
          have := hp.trans hk
          rw [← reqs_append] at this
          exact this
      · next hsent =>
        obtain ⟨cs, h1, h2, h3⟩ := ih h
        refine ⟨cs, h1, h2, fun t => ?_⟩
        have := h3 t
        have he : (if t = n then en else ent t) = ent t := by
          split
          · next ht =>
            rcases nextSend_starts hs with ⟨_, b⟩ | ⟨a, _⟩
            · rw [b, ht]
            · exact absurd a hsent
          · rfl
        rw [he] at this; exact this

theorem pv_rhRebuildStreams (h : ∃ cs, e.out = e0.out ++ cs) : PV e0 (e.rhRebuildStreams l) := by
  obtain ⟨cs, h⟩ := h
  unfold rhRebuildStreams
  refine ⟨⟨cs ++ [_], by show e.out ++ [_] = _; rw [h, List.append_assoc]⟩, ?_⟩
  intro l' hl'
  have hl' : some _ = some l' := hl'
  cases hl'
  refine ⟨cs ++ [_], by show e.out ++ [_] = _; rw [h, List.append_assoc], Or.inr ⟨cs, _, [],
    fun n => if n = e.cfg.id then l.progress.ent n else (l.progress.ent n).resetInflight, rfl, by simp, ?_, fun t ht => ⟨?_, ?_⟩⟩⟩
  · intro t en hm
    obtain ⟨k, hk1, hk⟩ := List.mem_map.1 hm
    cases hk
    exact ⟨rfl, (by simpa using (List.mem_filter.1 hk1).2 : t ≠ e.cfg.id)⟩
  · show (if t = e.cfg.id then l.progress.ent t else (l.progress.ent t).resetInflight).inflight = .none
    rw [if_neg (show t ≠ e.cfg.id from ht)]; rfl
  · exact Starts.refl _

theorem pv_rhInitiate (h : ∃ cs, e.out = e0.out ++ cs) (hl : PL e0 e l) : PVR e0 id (e.rhInitiate dbg l) := by
  unfold rhInitiate
  refine PVR.bind fun p hp => ?_
  obtain ⟨ent, cmds⟩ := p
  obtain ⟨cs, h1, h2, h3⟩ := rhInitLoop_starts hp
  simp only [List.nil_append] at h1
  subst h1
  obtain ⟨ds, hd⟩ := h
  refine PVR.pure ⟨⟨ds ++ cmds, by show e.out ++ cmds = _; rw [hd, List.append_assoc]⟩, ?_⟩
  intro l' hl'
  have hl' : some _ = some l' := hl'
  cases hl'
  exact hl.more (ds := cmds) rfl h2 rfl rfl rfl (le_refl _) fun t _ => h3 t

theorem pv_rhAppendMembership (h : PV e0 e) {i : LogId} {m : Membership} : PVR e0 id (e.rhAppendMembership dbg l i m) := by
  unfold rhAppendMembership
  refine PVR.bind fun _ _ => PVR.bind fun _ _ => PVR.bind fun ms hms => ?_
  have k1 := pv_rhRebuildStreams (e := { e with st := { e.st with ms := ms } })
    (l := rhRebuildProgresses { e with st := { e.st with ms := ms } } l) h.grow
  exact PVR.bind fun l2 hl2 => pv_rhInitiate k1.grow (k1.lead l2 (unwrap_some hl2))

theorem pv_rhTryCommit (h : PV e0 e) (g : Option LogId) : PVR e0 id (e.rhTryCommit dbg g) := by
  unfold rhTryCommit
  split
  · exact PVR.pure h
  · split
    · refine PVR.bind fun p hp => ?_
      obtain ⟨ch, st⟩ := p
      dsimp only
      split
      · exact PVR.pure (pv_maybeSnapshot (PV.push (PV.push (PV.push (h.same rfl rfl rfl (updateCommitted_eff hp))))))
      · exact PVR.pure h
    · exact PVR.pure h

theorem pv_rhUpdateMatching (h : PV e0 e) (hl : PL e0 e l) {n : NodeId} (hn : n = e.cfg.id) (m : Option LogId) :
    PVR e0 id (e.rhUpdateMatching dbg l n m) := by
  unfold rhUpdateMatching
  refine PVR.bind fun _ _ => PVR.bind fun _ _ => PVR.bind fun en hen => PVR.bind fun vp hvp => ?_
  refine pv_rhTryCommit (h.set rfl (hl.same fun t ht => ?_)) _
  exact if_neg (by rw [hn]; exact ht)

theorem pv_rhTryPurge (h : PV e0 e) : PV e0 (e.rhTryPurge l) := by
  unfold rhTryPurge
  split
  · exact h
  · split
    · exact h
    · split
      · exact h
      · exact pv_logPurge h

theorem pv_rhUpdateLocal (h : PV e0 e) (hl : PL e0 e l) (u : Option LogId) : PVR e0 id (e.rhUpdateLocal dbg l u) := by
  unfold rhUpdateLocal
  split
  · exact PVR.pure h
  · split
    · split
      · exact PVR.pure h
      · exact pv_rhUpdateMatching h (PL.same hl fun t ht => if_neg ht) rfl _
    · exact PVR.pure h

theorem pv_lhMembership (h : PV e0 e) {m : Option StoredMem} : PVR e0 id (e.lhMembership dbg l m) := by
  unfold lhMembership
  split
  · exact pv_rhAppendMembership h
  · exact PVR.pure h

theorem assign_grows (i : LeaderId) (o : Option LogId) {ps : List Payload} (h : ps ≠ []) :
    nextIndex o ≤ nextIndex ((assign i (nextIndex o) ps).getLast?.map (·.id)) := by
  have key : ∀ (ps : List Payload) (k : Nat), ps ≠ [] → k ≤ nextIndex ((assign i k ps).getLast?.map (·.id)) := by
    intro ps
    induction ps with
    | nil => intro k hk; exact absurd rfl hk
    | cons p ps ih =>
      intro k _
      rw [assign]
      cases ps with
      | nil => simp [assign, nextIndex]
      | cons q qs =>
        have := ih (k + 1) (by simp)
        rw [List.getLast?_cons]
        rw [show assign i (k + 1) (q :: qs) = ⟨⟨i, k + 1⟩, q⟩ :: assign i (k + 1 + 1) qs from rfl] at this ⊢
        rw [List.getLast?_cons] at this ⊢
        simp only [Option.getD_some] at this ⊢
        omega
  exact key ps _ h

theorem pv_lhAppend (h : PV e0 e) (hl : PL e0 e l) {ps : List Payload} : PVR e0 id (e.lhAppend dbg l ps) := by
  unfold lhAppend
  split
  · exact PVR.pure h
  · next hps =>
    refine PVR.bind fun _ _ => PVR.bind fun ids _ => PVR.bind fun _ _ => PVR.bind fun st hst => ?_
    have hl1 : PL e0 e { l with lastLogId := (assign l.vote.leaderId (nextIndex l.lastLogId) ps).getLast?.map (·.id) } :=
      hl.same (fun _ _ => rfl) rfl rfl rfl rfl (assign_grows _ _ hps)
    have h1 := h.set (e1 := { e with st := st, leader := some { l with lastLogId := (assign l.vote.leaderId (nextIndex l.lastLogId) ps).getLast?.map (·.id) } })
      rfl hl1 rfl rfl (congrArg MemState.effective (acceptIo_ms hst).1)
    refine PVR.bindE id (pv_lhMembership h1.push) fun e2 h2 => ?_
    exact PVR.bind fun l2 hl2 => pv_rhInitiate h2.grow (h2.lead l2 (unwrap_some hl2))

theorem pv_becomeNewLeader (h : PV e0 e) : PVR e0 id (e.becomeNewLeader dbg now) := by
  unfold becomeNewLeader
  refine PVR.bind fun l hl => PVR.bind fun st hst => ?_
  obtain ⟨cs, hcs⟩ := h.grow
  have k1 := pv_rhRebuildStreams (e0 := e0) (e := updateServerState (Eng.push { e with st := st, leader := some l } (.updateIO none (IOId.newLog l.vote l.lastLogId))))
    (l := l) ⟨cs ++ [.updateIO none (IOId.newLog l.vote l.lastLogId)], by
      show e.out ++ [_] = _; rw [hcs, List.append_assoc]⟩
  refine PVR.bind fun l2 hl2 => ?_
  have hc2 := k1.lead l2 (unwrap_some hl2)
  split
  · exact pv_lhAppend k1 hc2
  · exact pv_rhInitiate k1.grow hc2

theorem pv_becomeLeader (h : PV e0 e) : PVR e0 id (e.becomeLeader dbg now) := by
  unfold becomeLeader
  split
  · next l hl =>
    split
    · next hv => exact PVR.pure (h.set rfl (PL.same (h.lead l hl) (fun _ _ => rfl) hv.symm))
    · exact pv_becomeNewLeader h
  · exact pv_becomeNewLeader h

theorem pv_becomeFollowing (h : PV e0 e) : PVR e0 id (e.becomeFollowing dbg) := by
  unfold becomeFollowing
  exact PVR.bind fun _ _ => PVR.pure h.none

theorem pv_updateInternal (h : PV e0 e) : PVR e0 id (e.updateInternal dbg now) := by
  unfold updateInternal
  split
  · exact pv_becomeLeader h
  · split
    · exact PVR.pure h
    · exact pv_becomeFollowing h

theorem pv_storeVote (h : PV e0 e) (lease : Nat) (v : Vote) : PVR e0 id (e.storeVote dbg now lease v) := by
  unfold storeVote
  split
  · exact PVR.bind fun st hst => PVR.pure (PV.push (h.same rfl rfl rfl (congrArg _ (acceptIo_ms hst).1)))
  · exact PVR.bind fun vt _ => PVR.pure h.same

theorem pv_updateVote (h : PV e0 e) (v : Vote) : PVR e0 Prod.snd (e.updateVote dbg now v) := by
  unfold updateVote
  split
  · exact PVR.bindE id (pv_storeVote h _ _) fun e1 h1 => PVR.bindE id (pv_updateInternal h1) fun e2 h2 => PVR.pure h2
  · exact PVR.pure h

theorem pv_startup (h : PV e0 e) : PVR e0 id (e.startup dbg now) := by
  unfold startup
  split
  · exact pv_updateInternal h
  · exact PVR.pure h.same

theorem pv_handleVoteReq (h : PV e0 e) (v : Vote) (last : Option LogId) : PVR e0 Prod.snd (e.handleVoteReq dbg now v last) := by
  unfold handleVoteReq
  split
  · exact PVR.pure h
  · split
    · exact PVR.bindE Prod.snd (pv_updateVote h _) fun p hp => PVR.pure hp
    · exact PVR.pure h

theorem pv_establishLeader (h : PV e0 e) : PVR e0 id (e.establishLeader dbg now) := by
  unfold establishLeader
  refine PVR.bind fun c hc => PVR.bind fun o ho => ?_
  have h0 : PV e0 { e with candidate := none } := h.same
  split
  · exact PVR.pure h0
  · next l =>
    have h1 := pv_rhRebuildStreams (e0 := e0) (e := { e with candidate := none, leader := some l }) (l := l) h.grow
    refine PVR.bindE Prod.snd (pv_updateVote h1 _) fun p hp => ?_
    obtain ⟨ok, e2⟩ := p
    refine PVR.bind fun _ _ => PVR.bind fun st hst => PVR.bind fun lo hlo => PVR.bind fun l3 hl3 => ?_
    have h3 : PV e0 { e2 with st := st } := PV.same (e := e2) hp rfl rfl rfl (congrArg _ (acceptIo_ms hst).1)
    refine pv_lhAppend h3 ?_
    have hl3' := unwrap_some hl3
    rw [hl3'] at hlo
    exact h3.lead l3 (leaderHandler_some hlo)

theorem pv_leaderStepDown (h : PV e0 e) : PVR e0 id (e.leaderStepDown dbg now) := by
  unfold leaderStepDown
  split
  · exact pv_updateInternal h
  · exact PVR.pure h

theorem pv_tryPurge (h : PV e0 e) : PV e0 e.tryPurge := by
  unfold tryPurge
  split
  · exact pv_rhTryPurge h
  · exact pv_logPurge h

theorem pv_finishBuilding (h : PV e0 e) (m : SnapMeta) : PVR e0 id (e.finishBuilding dbg m) := by
  unfold finishBuilding
  dsimp only
  have h0 : PV e0 { e with st := { e.st with io := { e.st.io with building := false } } } := h.same
  have hu := pv_updateSnapshot h0 m
  split
  · next e1 he => rw [he] at hu; exact PVR.pure hu
  · next e1 he =>
    rw [he] at hu
    exact PVR.bindE id (pv_schedulePurge hu) fun e2 h2 => PVR.pure (pv_tryPurge h2)

theorem pv_triggerPurge (h : PV e0 e) (i : Nat) : PVR e0 id (e.triggerPurge dbg i) := by
  unfold triggerPurge
  split
  · exact PVR.pure h
  · split
    · exact PVR.pure h
    · exact PVR.bind fun x _ => PVR.bindE id (pv_updatePurgeUpto h _) fun e1 h1 => PVR.pure (pv_tryPurge h1)

theorem pv_triggerTransfer (h : PV e0 e) (t : NodeId) : PVR e0 id (e.triggerTransfer dbg t) := by
  unfold triggerTransfer
  refine PVR.bind fun o ho => ?_
  split
  · exact PVR.pure h
  · next l =>
    refine PVR.pure (PV.push (h.set (e1 := { e with
      leader := some { l with transferTo := some t }
      st := { e.st with vote := e.st.vote.disable } }) rfl (PL.same (h.lead l (leaderHandler_some ho)))))

theorem pv_writeEntry (h : PV e0 e) {p : Payload} : PVR e0 Prod.snd (e.writeEntry dbg p) := by
  unfold writeEntry
  refine PVR.bind fun o ho => ?_
  split
  · exact PVR.pure h
  · split
    · exact PVR.pure h
    · exact PVR.bindE id (pv_lhAppend h (h.lead _ (leaderHandler_some ho))) fun e1 h1 => PVR.bind fun l _ => PVR.pure h1

theorem pv_coreHeartbeat (h : PV e0 e) : PVR e0 id (e.coreHeartbeat dbg) := by
  unfold coreHeartbeat
  refine PVR.bind fun o _ => ?_
  split
  · exact PVR.pure h
  · split
    · exact PVR.pure h
    · exact PVR.pure h.push

theorem pv_tickHeartbeat (h : PV e0 e) (en : Bool) (iv : Nat) : PVR e0 id (e.tickHeartbeat dbg now en iv) := by
  have hmap : ∀ {e1 : Eng}, PV e0 e1 → PV e0 { e1 with leader := e1.leader.map fun l => { l with nextHeartbeat := now + iv } } := by
    intro e1 h1
    refine ⟨h1.grow, ?_⟩
    intro l hl
    obtain ⟨l0, h0, rfl⟩ := Option.map_eq_some_iff.1 hl
    exact PL.same (h1.lead l0 h0)
  unfold tickHeartbeat
  split
  · exact PVR.pure h
  · split
    · dsimp only
      split
      · exact PVR.bindE id (pv_coreHeartbeat h) fun e1 h1 => PVR.pure (hmap h1)
      · exact PVR.bindE id (PVR.pure (π := id) h) fun e1 h1 => PVR.pure (hmap h1)
    · exact PVR.pure h

theorem pv_elect (h : PV e0 e) : PVR e0 id (e.elect dbg now) := by
  unfold elect
  refine PVR.bindE Prod.snd (pv_updateVote h.same _) fun p hp => ?_
  obtain ⟨ok, e2⟩ := p
  refine PVR.bind fun _ _ => PVR.pure ?_
  have h2 : ∀ v last, PV e0 (Eng.push e2 (.sendVote v last)) := fun v last => PV.push (e := e2) hp
  exact (h2 _ _).same

theorem pv_handleVoteResp (h : PV e0 e) (target : NodeId) (v : Vote) (last : Option LogId) (granted : Bool) :
    PVR e0 id (e.handleVoteResp dbg now target v last granted) := by
  unfold handleVoteResp
  split
  · exact PVR.pure h
  · next c hc =>
    split
    · refine PVR.bind fun c1 hc1 => ?_
      have h1 : PV e0 { e with candidate := some c1 } := h.same
      dsimp only
      split
      · exact pv_establishLeader h1
      · exact PVR.pure h1
    · have hs : PV e0 (if e.st.lastLogId < last then { e with seenGreater := true } else e) := by
        split
        · exact h.same
        · exact h
      exact PVR.bindE Prod.snd (pv_updateVote hs _) fun p hp => PVR.pure hp

theorem pv_handleAppend {g0 : Gh} {tx : Nat} {v : Vote} {prev : Option LogId} {es : List Ent} {lc : Option LogId}
    (hI : EInv g0 e) (ho : InputOk e (.appendReq tx v prev es lc)) : PVR e id (e.handleAppend dbg now tx v prev es lc) := by
  intro e' hr
  have hg : ∃ cs, e'.out = e.out ++ cs := by
    obtain ⟨cs, h⟩ := (grow_input e (.appendReq tx v prev es lc) (now := now) (dbg := dbg) e' hr).2
    exact ⟨cs, h.symm⟩
  have hn : e'.leader = none ∨ ∃ c : Cmd, c.noStream ∧ e' = e.push c := by
    unfold handleAppend at hr
    rw [bind_ok] at hr
    obtain ⟨⟨r, e1⟩, h1, hr⟩ := hr
    dsimp only at hr
    have hmid : e1.leader = none ∨ (e1 = e ∧ r ≠ .success) := by
      unfold appendEntries at h1
      rw [bind_ok] at h1
      obtain ⟨⟨ok, e2⟩, h2, h1⟩ := h1
      dsimp only at h1
      by_cases hle : e.st.vote.data ≤ v
      · left
        obtain ⟨hnd, hcm, _⟩ := ho hle
        obtain ⟨_, h3, _, hb⟩ := inv_updateVote hI (fun hx => absurd hx hnd) h2
        have hok := h3.2 hle
        have hlead := (hb hok hcm hnd).fol.leader
        rw [if_pos hok] at h1
        simp only [bind_ok] at h1
        obtain ⟨_, _, ⟨ok2, e3⟩, h4, h1⟩ := h1
        have h4' := (lead_fhEnsure h4).trans hlead
        dsimp only at h1
        split at h1
        · simp only [bind_ok, pure_ok] at h1
          obtain ⟨e4, h5, h1⟩ := h1
          cases h1
          exact (lead_fhAppendEntries h5).trans h4'
        · rw [pure_ok] at h1; cases h1; exact h4'
      · right
        unfold updateVote at h2
        rw [if_neg hle, pure_ok] at h2
        cases h2
        simp only [Bool.false_eq_true, if_false, pure_ok] at h1
        cases h1
        exact ⟨rfl, fun hx => by cases hx⟩
    split at hr
    · next hs =>
      left
      rcases hmid with hm | hm
      · simp only [bind_ok] at hr
        obtain ⟨_, _, _, _, hr⟩ := hr
        exact (lead_fhCommit hr).trans hm
      · exact absurd hs hm.2
    · rw [pure_ok] at hr
      subst hr
      rcases hmid with hm | hm
      · exact Or.inl hm
      · rw [hm.1]; refine Or.inr ⟨_, ?_, rfl⟩; trivial
  rcases hn with hn | ⟨c, hc, rfl⟩
  · exact ⟨hg, fun l hl => by rw [show e'.leader = some l from hl] at hn; cases hn⟩
  · exact (PV.refl e).push hc

theorem pv_handleInstall {g0 : Gh} {tx : Nat} {v : Vote} {m : SnapMeta}
    (hI : EInv g0 e) (ho : InputOk e (.snapReq tx v m)) : PVR e id (e.handleInstall dbg now tx v m) := by
  intro e' hr
  have hg : ∃ cs, e'.out = e.out ++ cs := by
    obtain ⟨cs, h⟩ := (grow_input e (.snapReq tx v m) (now := now) (dbg := dbg) e' hr).2
    exact ⟨cs, h.symm⟩
  have hn : e'.leader = none ∨ ∃ c : Cmd, c.noStream ∧ e' = e.push c := by
    unfold handleInstall at hr
    rw [bind_ok] at hr
    obtain ⟨⟨ok, e1⟩, h1, hr⟩ := hr
    dsimp only at hr
    by_cases hle : e.st.vote.data ≤ v
    · left
      obtain ⟨hnd, hcm, _⟩ := ho hle
      obtain ⟨_, h3, _, hb⟩ := inv_updateVote hI (fun hx => absurd hx hnd) h1
      have hok := h3.2 hle
      have hlead := (hb hok hcm hnd).fol.leader
      rw [if_pos hok] at hr
      simp only [bind_ok, pure_ok] at hr
      obtain ⟨_, _, ⟨c, e2⟩, h4, hr⟩ := hr
      subst hr
      exact (lead_fhInstall h4).trans hlead
    · unfold updateVote at h1
      rw [if_neg hle, pure_ok] at h1
      cases h1
      simp only [Bool.false_eq_true, if_false, pure_ok] at hr
      subst hr
      refine Or.inr ⟨_, ?_, rfl⟩; trivial
  rcases hn with hn | ⟨c, hc, rfl⟩
  · exact ⟨hg, fun l hl => by rw [show e'.leader = some l from hl] at hn; cases hn⟩
  · exact (PV.refl e).push hc

theorem pv_initCluster {g0 : Gh} (hI : EInv g0 e) {m : Membership} : PVR e Prod.snd (e.initCluster dbg now m) := by
  intro p hr
  obtain ⟨ok, e'⟩ := p
  unfold initCluster at hr
  split at hr
  · rw [pure_ok] at hr; cases hr; exact PV.refl _
  · next hni =>
    split at hr
    · rw [pure_ok] at hr; cases hr; exact PV.refl _
    · have hl : e.leader = none := by
        cases hx : e.leader with
        | none => rfl
        | some l =>
          have h1 := (hI.pj.lead l hx).com
          unfold RState.isInitialized at hni
          have h2 : e.st.vote.data = ⟨⟨0, 0⟩, false⟩ := by
            by_contra hne
            simp [hne] at hni
          rw [h2] at h1; cases h1
      simp only [bind_ok, pure_ok] at hr
      obtain ⟨v, _, e2, h2, e3, h3, hr⟩ := hr
      cases hr
      have hgr := grow_fhDoAppend _ _ _ e2 h2
      obtain ⟨cs, hcs⟩ := hgr.2
      have hl2 : e2.leader = none := (still_fhDoAppend _ _ _ e2 h2).leader.trans hl
      exact pv_elect (e0 := e) ⟨⟨cs, hcs.symm⟩, fun l hl => by rw [show e2.leader = some l from hl] at hl2; cases hl2⟩ _ h3

/-- an input, other than a report of a replication task, keeps what is in flight or starts a request -/
theorem pv_input {g0 : Gh} (hI : EInv g0 e) (i : Input) (ho : InputOk e i) (hn : ∀ s t r, i = .replProgress s t r → e.sessionMatch s = false) :
    PVR e id (e.input dbg now i) := by
  have h := PV.refl e
  cases i with
  | appendReq tx v prev es lc => exact pv_handleAppend hI ho
  | voteReq tx v last =>
    simp only [input, coreVoteReq]
    exact PVR.bindE Prod.snd (pv_handleVoteReq h _ _) fun p hp => PVR.pure (PV.push (e := p.2) hp)
  | snapReq tx v m => exact pv_handleInstall hI ho
  | init tx m =>
    simp only [input, coreInit]
    exact PVR.bindE Prod.snd (pv_initCluster hI) fun p hp => PVR.pure (PV.push (e := p.2) hp)
  | write p =>
    simp only [input]
    exact PVR.bindE Prod.snd (pv_writeEntry h) fun p hp => PVR.pure hp
  | change c q =>
    simp only [input]
    refine PVR.bindE Prod.snd ?_ fun p hp => PVR.pure hp
    unfold changeMembership
    split
    · exact PVR.pure h
    · exact pv_writeEntry h
  | handleTransfer v target =>
    simp only [input, coreHandleTransfer]
    split
    · split
      · exact pv_elect h.same
      · exact PVR.pure h.same
    · exact PVR.pure h
  | electCmd =>
    simp only [input, coreElect]
    split
    · exact pv_elect h
    · exact PVR.pure h
  | heartbeatCmd => exact pv_coreHeartbeat h
  | snapshotCmd => exact PVR.pure (pv_triggerSnapshot h)
  | purgeCmd i => exact pv_triggerPurge h _
  | transferCmd t => exact pv_triggerTransfer h _
  | voteResp target v last granted sender =>
    simp only [input]
    split
    · exact pv_handleVoteResp h _ _ _ _
    · exact PVR.pure h
  | higherVote v sender =>
    simp only [input]
    split
    · exact PVR.bindE Prod.snd (pv_updateVote h _) fun p hp => PVR.pure hp
    · exact PVR.pure h
  | tick el hb iv =>
    simp only [input, coreTick]
    refine PVR.bindE id ?_ fun e1 h1 => PVR.bindE id (pv_tickHeartbeat h1 _ _) fun e2 h2 => ?_
    · unfold tickElection
      split
      · exact PVR.pure h
      · split
        · exact PVR.pure h
        · split
          · exact PVR.pure h
          · have hx : ∀ b : Bool, PVR e id (if b = true then elect dbg now { e with seenGreater := false } else pure e) := by
              intro b
              split
              · exact pv_elect h.same
              · exact PVR.pure h
            dsimp only
            split <;> exact hx _
    · split
      · exact pv_leaderStepDown h2
      · exact PVR.pure h2
  | localIO io =>
    simp only [input, coreLocalIO]
    refine PVR.bind fun p _ => ?_
    have h1 : PV e (e.withProg p) := h.same
    split
    · split
      · next l hl =>
        split
        · exact pv_rhUpdateLocal h1 (h1.lead l hl) _
        · exact PVR.pure h1
      · exact PVR.pure h1
    · exact PVR.pure h1
  | replProgress s target q =>
    simp only [input, coreReplProgress]
    split
    · next hm => rw [hn _ _ _ rfl] at hm; cases hm
    · exact PVR.pure h
  | hbProgress s target t =>
    simp only [input, coreHbProgress]
    split
    · refine PVR.bind fun l hl => ?_
      unfold rhUpdateClock
      exact PVR.bind fun c hc => PVR.pure (h.set rfl (PL.same (h.lead _ (unwrap_some hl))))
    · exact PVR.pure h
  | built m =>
    simp only [input, coreBuilt]
    exact PVR.bindE id (pv_finishBuilding h _) fun e1 h1 => PVR.bind fun io _ => PVR.pure h1.same
  | installed io m =>
    simp only [input, coreInstalled]
    exact PVR.bind fun p _ => PVR.bind fun s1 _ => PVR.bind fun s2 _ => PVR.pure h.same
  | applied last =>
    simp only [input, coreApplied]
    exact PVR.bind fun s _ => PVR.pure h.same
  | initiate =>
    simp only [input, coreInitiate]
    refine PVR.bind fun o ho => ?_
    split
    · exact PVR.pure h
    · exact pv_rhInitiate h.grow (h.lead _ (leaderHandler_some ho))


/-- what a report does to what is known of a member, in `ReplicationHandler::update_progress` -/
def Report.handle (dbg : Bool) (en : Repl.Entry) : ReplResult → Res Repl.Entry
  | .matching m => en.updateMatching dbg m
  | .conflict c => en.updateConflicting dbg c.index
  | .failed => pure en.resetInflight

/-- a report of the session in force changes what is known of the member it is about, by `Report.handle`, and nothing else -/
def Reported (dbg : Bool) (t : NodeId) (r : ReplResult) (e e' : Eng) (l l' : Leader) : Prop :=
  e.leader = some l ∧ e'.leader = some l' ∧ l'.vote = l.vote ∧ l'.lastLogId = l.lastLogId ∧ e'.st.ms.effective = e.st.ms.effective ∧ e'.cfg = e.cfg ∧
  (∃ cs, e'.out = e.out ++ cs ∧ ∀ c ∈ cs, c.noStream) ∧
  (∀ k, k ≠ t → l'.progress.ent k = l.progress.ent k) ∧ Report.handle dbg (l.progress.ent t) r = .ok (l'.progress.ent t)


theorem tryCommit_same {e' : Eng} {g : Option LogId} (h : e.rhTryCommit dbg g = .ok e') :
    e'.leader = e.leader ∧ e'.st.ms.effective = e.st.ms.effective ∧ e'.cfg = e.cfg := by
  unfold rhTryCommit at h
  split at h
  · rw [pure_ok] at h; subst h; exact ⟨rfl, rfl, rfl⟩
  · split at h
    · rw [bind_ok] at h
      obtain ⟨⟨ch, st⟩, hp, h⟩ := h
      dsimp only at h
      split at h
      · rw [pure_ok] at h; subst h
        have := updateCommitted_eff hp
        unfold maybeSnapshot triggerSnapshot
        split
        · split
          · exact ⟨rfl, this, rfl⟩
          · exact ⟨rfl, this, rfl⟩
        · exact ⟨rfl, this, rfl⟩
      · rw [pure_ok] at h; subst h; exact ⟨rfl, rfl, rfl⟩
    · rw [pure_ok] at h; subst h; exact ⟨rfl, rfl, rfl⟩

theorem pipe_report {e' : Eng} {t : NodeId} {s : Session} {r : ReplResult} (hm : e.sessionMatch s = true)
    (h : e.input dbg now (.replProgress s t r) = .ok e') : ∃ l l', Reported dbg t r e e' l l' := by
  simp only [input, coreReplProgress] at h
  rw [if_pos hm, bind_ok] at h
  obtain ⟨l, hl, h⟩ := h
  have hl := unwrap_some hl
  have hout : ∃ cs, e'.out = e.out ++ cs ∧ ∀ c ∈ cs, c.noStream := emits_rhUpdateProgress (P := Cmd.noStream) e l t r e' h
  unfold rhUpdateProgress at h
  obtain ⟨e1, h1, h⟩ : ∃ e1, (match r with
      | .matching m => rhUpdateMatching dbg e l t m
      | .conflict c => rhUpdateConflicting dbg e l t c
      | .failed => rhFailed e l t) = .ok e1 ∧ (do let l1 ← unwrap e1.leader; return rhTryPurge e1 l1) = .ok e' := by
    cases r <;> (dsimp only at h; rw [bind_ok] at h; exact h)
  rw [bind_ok] at h
  obtain ⟨l1, hl1, h⟩ := h
  have hl1 := unwrap_some hl1
  rw [pure_ok] at h
  have hp : e'.leader = e1.leader ∧ e'.st.ms.effective = e1.st.ms.effective ∧ e'.cfg = e1.cfg := by
    rw [← h]
    unfold rhTryPurge
    split
    · exact ⟨rfl, rfl, rfl⟩
    · split
      · exact ⟨rfl, rfl, rfl⟩
      · split
        · exact ⟨rfl, rfl, rfl⟩
        · unfold logPurge
          split
          · exact ⟨rfl, rfl, rfl⟩
          · split <;> exact ⟨rfl, rfl, rfl⟩
  have fin : ∀ l', e1.leader = some l' → l'.vote = l.vote → l'.lastLogId = l.lastLogId → e1.st.ms.effective = e.st.ms.effective → e1.cfg = e.cfg →
      (∀ k, k ≠ t → l'.progress.ent k = l.progress.ent k) → Report.handle dbg (l.progress.ent t) r = .ok (l'.progress.ent t) →
      ∃ l l', Reported dbg t r e e' l l' := fun l' a b b2 c d f g =>
    ⟨l, l', hl, hp.1.trans a, b, b2, hp.2.1.trans c, hp.2.2.trans d, hout, f, g⟩
  cases r with
  | matching m =>
    simp only at h1
    unfold rhUpdateMatching at h1
    simp only [bind_ok] at h1
    obtain ⟨_, _, _, _, en, hen, vp, _, h1⟩ := h1
    have hc : e1.leader = some { l with progress := ⟨vp, fun k => if k = t then en else l.progress.ent k⟩ } ∧
        e1.st.ms.effective = e.st.ms.effective ∧ e1.cfg = e.cfg := by
      generalize hX : ({ e with leader := some { l with progress := ⟨vp, fun k => if k = t then en else l.progress.ent k⟩ } } : Eng) = X at h1
      have hXX : X.leader = some { l with progress := ⟨vp, fun k => if k = t then en else l.progress.ent k⟩ } ∧
        X.st.ms.effective = e.st.ms.effective ∧ X.cfg = e.cfg := by rw [← hX]; exact ⟨rfl, rfl, rfl⟩
      have hk := tryCommit_same h1
      exact ⟨hk.1.trans hXX.1, hk.2.1.trans hXX.2.1, hk.2.2.trans hXX.2.2⟩
    refine fin _ hc.1 rfl rfl hc.2.1 hc.2.2 (fun k hk => if_neg hk) ?_
    show _ = Except.ok (if t = t then en else _)
    rw [if_pos rfl]; exact hen
  | conflict c =>
    simp only at h1
    unfold rhUpdateConflicting at h1
    simp only [bind_ok, pure_ok] at h1
    obtain ⟨_, _, en, hen, rfl⟩ := h1
    refine fin _ rfl rfl rfl rfl rfl (fun k hk => if_neg hk) ?_
    show _ = Except.ok (if t = t then en else _)
    rw [if_pos rfl]; exact hen
  | failed =>
    simp only at h1
    unfold rhFailed at h1
    simp only [bind_ok, pure_ok] at h1
    obtain ⟨_, _, rfl⟩ := h1
    refine fin _ rfl rfl rfl rfl rfl (fun k hk => if_neg hk) ?_
    show _ = Except.ok (if t = t then _ else _)
    rw [if_pos rfl]; rfl

end Eng

/-- no rebuild was added, or the node was a candidate, or the leader appended a membership -/
def FreshRb (e e' : Eng) : Prop :=
  Emits Cmd.noRb e e' ∨ (∃ c, e.candidate = some c) ∨
    ∃ l i, e.leader = some l ∧ e'.st.ms.effective.logId = some i ∧ i.index = nextIndex l.lastLogId

namespace Eng
variable {dbg : Bool} {now : Nat} {e e' : Eng} {l : Leader}

theorem rhInitiate_ms (h : e.rhInitiate dbg l = .ok e') : e'.st.ms = e.st.ms := by
  unfold rhInitiate at h
  rw [bind_ok] at h
  obtain ⟨_, _, h⟩ := h
  rw [pure_ok] at h; subst h; rfl

theorem fresh_lhAppend {p : Payload} (h : e.lhAppend dbg l [p] = .ok e') :
    Emits Cmd.noRb e e' ∨ ∃ i, e'.st.ms.effective.logId = some i ∧ i.index = nextIndex l.lastLogId := by
  unfold lhAppend at h
  rw [if_neg (by simp)] at h
  simp only [assign_single, bind_ok] at h
  obtain ⟨_, _, _, _, _, _, st, _, e2, h2, l2, _, h⟩ := h
  unfold lhMembership at h2
  split at h2
  · next i x hx =>
    right
    have hx2 : i = ⟨l.vote.leaderId, nextIndex l.lastLogId⟩ := by
      obtain ⟨en, hen, hst⟩ := List.mem_filterMap.1 (List.mem_of_getLast? hx)
      rw [List.mem_singleton] at hen
      subst hen
      unfold Ent.stored? at hst
      obtain ⟨_, _, hst⟩ := Option.map_eq_some_iff.1 hst
      cases hst; rfl
    rw [rhInitiate_ms h]
    unfold rhAppendMembership at h2
    simp only [bind_ok] at h2
    obtain ⟨_, _, _, _, ms, hms, l3, _, h2⟩ := h2
    rw [rhInitiate_ms h2]
    have hef : ms.effective = ⟨some i, x⟩ := by
      unfold RState.MemState.append at hms
      simp only [bind_ok, pure_ok] at hms
      obtain ⟨_, _, _, _, rfl⟩ := hms
      rfl
    exact ⟨i, by show ms.effective.logId = _; rw [hef], by rw [hx2]⟩
  · rw [pure_ok] at h2; subst h2
    have hk := emits_rhInitiate (P := Cmd.noRb) _ _ _ h
    exact Or.inl (Emits.trans (emits_upd _ (emits_same rfl rfl)) hk)

theorem fresh_writeEntry {p : Payload} {o : Option Nat} (hr : e.writeEntry dbg p = .ok (o, e')) : FreshRb e e' := by
  unfold writeEntry at hr
  rw [bind_ok] at hr
  obtain ⟨lo, hlo, hr⟩ := hr
  cases lo with
  | none => simp only [pure_ok] at hr; cases hr; exact Or.inl (Emits.refl _)
  | some l =>
    simp only at hr
    split at hr
    · rw [pure_ok] at hr; cases hr; exact Or.inl (Emits.refl _)
    · simp only [bind_ok, pure_ok] at hr
      obtain ⟨e1, h1, _, _, hr⟩ := hr
      cases hr
      rcases fresh_lhAppend h1 with h | ⟨i, a, b⟩
      · exact Or.inl h
      · exact Or.inr (Or.inr ⟨l, i, leaderHandler_some hlo, a, b⟩)

/-- an input that adds a rebuild is handled by a candidate or appends a membership -/
theorem fresh_input {g0 : Gh} {i : Input} (hI : EInv g0 e) (ho : InputOk e i) (hr : e.input dbg now i = .ok e') : FreshRb e e' := by
  have go : ∀ x : Res Eng, EmitsR Cmd.noRb id e x → x = .ok e' → FreshRb e e' := fun x hx he => Or.inl (hx e' he)
  cases i with
  | appendReq tx v prev es lc => exact go _ (nr_handleAppend hI ho) hr
  | voteReq tx v last =>
    refine go _ ?_ hr
    simp only [input, coreVoteReq]
    refine EmitsR.bindE Prod.snd ?_ fun p => EmitsR.pure (emits_push _ _)
    unfold handleVoteReq
    split
    · exact EmitsR.pure (Emits.refl _)
    · split
      · exact EmitsR.bindE Prod.snd (nr_updateVote hI ho) fun p => EmitsR.pure (Emits.refl _)
      · exact EmitsR.pure (Emits.refl _)
  | snapReq tx v m => exact go _ (nr_handleInstall hI ho) hr
  | init tx m =>
    refine go _ ?_ hr
    simp only [input, coreInit]
    exact EmitsR.bindE Prod.snd (nr_initCluster _ _) fun p => EmitsR.pure (emits_push _ _)
  | write p =>
    simp only [input, bind_ok, pure_ok] at hr
    obtain ⟨⟨o, e1⟩, h1, hr⟩ := hr
    subst hr; exact fresh_writeEntry h1
  | change c r =>
    simp only [input, bind_ok, pure_ok] at hr
    obtain ⟨⟨o, e1⟩, h1, hr⟩ := hr
    subst hr
    unfold changeMembership at h1
    split at h1
    · rw [pure_ok] at h1; cases h1; exact Or.inl (Emits.refl _)
    · exact fresh_writeEntry h1
  | handleTransfer v target =>
    refine go _ ?_ hr
    simp only [input, coreHandleTransfer]
    split
    · split
      · exact EmitsR.from' (e1 := { e with st := { e.st with vote := e.st.vote.disable } }) (emits_same rfl rfl) (nr_elect _)
      · exact EmitsR.pure (emits_same rfl rfl)
    · exact EmitsR.pure (Emits.refl _)
  | electCmd =>
    refine go _ ?_ hr
    simp only [input, coreElect]
    split
    · exact nr_elect _
    · exact EmitsR.pure (Emits.refl _)
  | heartbeatCmd => exact go _ (emits_coreHeartbeat _) hr
  | snapshotCmd => exact go _ (EmitsR.pure (emits_triggerSnapshot _)) hr
  | purgeCmd i => exact go _ (emits_triggerPurge _ _) hr
  | transferCmd t => exact go _ (emits_triggerTransfer _ _) hr
  | voteResp target v last granted sender =>
    simp only [input] at hr
    split at hr
    · cases hc : e.candidate with
      | none =>
        unfold handleVoteResp at hr
        rw [hc, pure_ok] at hr; subst hr; exact Or.inl (Emits.refl _)
      | some c => exact Or.inr (Or.inl ⟨c, hc⟩)
    · rw [pure_ok] at hr; subst hr; exact Or.inl (Emits.refl _)
  | higherVote v sender =>
    refine go _ ?_ hr
    simp only [input]
    split
    · exact EmitsR.bindE Prod.snd (nr_updateVote hI ho) fun p => EmitsR.pure (Emits.refl _)
    · exact EmitsR.pure (Emits.refl _)
  | tick el hb iv => exact go _ (nr_coreTick hI el hb iv) hr
  | localIO io =>
    refine go _ ?_ hr
    simp only [input, coreLocalIO]
    refine EmitsR.bind fun p => ?_
    split
    · split
      · split
        · exact EmitsR.from' (e1 := e.withProg p) (emits_same rfl rfl) (emits_rhUpdateLocal _ _ _)
        · exact EmitsR.pure (emits_same rfl rfl)
      · exact EmitsR.pure (emits_same rfl rfl)
    · exact EmitsR.pure (emits_same rfl rfl)
  | replProgress s target r =>
    refine go _ ?_ hr
    simp only [input, coreReplProgress]
    split
    · exact EmitsR.bind fun l => emits_rhUpdateProgress _ _ _ _
    · exact EmitsR.pure (Emits.refl _)
  | hbProgress s target t =>
    refine go _ ?_ hr
    simp only [input, coreHbProgress]
    split
    · exact EmitsR.bind fun l => emits_rhUpdateClock _ _ _ _
    · exact EmitsR.pure (Emits.refl _)
  | built m =>
    refine go _ ?_ hr
    simp only [input, coreBuilt]
    exact EmitsR.bindE id (emits_finishBuilding _ _) fun e1 => EmitsR.bind fun io => EmitsR.pure (emits_same rfl rfl)
  | installed io m =>
    refine go _ ?_ hr
    simp only [input, coreInstalled]
    exact EmitsR.bind fun p => EmitsR.bind fun s1 => EmitsR.bind fun s2 => EmitsR.pure (emits_same rfl rfl)
  | applied last =>
    refine go _ ?_ hr
    simp only [input, coreApplied]
    exact EmitsR.bind fun s => EmitsR.pure (emits_same rfl rfl)
  | initiate =>
    refine go _ ?_ hr
    simp only [input, coreInitiate]
    refine EmitsR.bind fun lo => ?_
    cases lo with
    | none => exact EmitsR.pure (Emits.refl _)
    | some l => exact emits_rhInitiate _ _

end Eng
end Openraft.Engine
