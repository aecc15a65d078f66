import Verif.Engine.InvLeader

/-!
# The invariant under the follower's handlers
-/

set_option autoImplicit false

namespace Openraft.Engine
open Openraft.Repl (Panic dassert Inflight)
open Openraft.Cluster (Payload)
open LogIdList

/-- last log id of the accepted IO -/
def RState.accLast (s : RState) : Option LogId := s.io.prog.accepted.bind (·.last)

/-- the position below which a node's log cannot differ from its leader's: what is committed, what
the membership state takes as committed, and what was accepted from this leader -/
def Eng.floor (e : Eng) (v : Vote) : Nat :=
  max (max (nextIndex e.st.committed) (nextIndex e.st.ms.committed.logId))
    (if e.st.vote.data = v then nextIndex e.st.accLast else 0)

/-- `lead` holds the log ids of the leader of vote `v`; the node's log `L` agrees with it below
`floor`, and if they agree at an index they agree at all lower ones -/
structure LeadLog (lead : List LogId) (v : Vote) (L : List LogId) (floor : Nat) : Prop where
  cons : Cons lead
  bound : ∀ x ∈ lead, x.leaderId ≤ v.leaderId
  agree : ∀ x ∈ L, x.index < floor → x ∈ lead
  mat : ∀ x ∈ L, x ∈ lead → ∀ y ∈ L, y.index ≤ x.index → y ∈ lead

namespace LogJ
variable {v : LogV} {g : Gh}

/-- the end of the log after a truncation -/
theorem truncate_last (h : LogJ v g) {n : Nat} (h1 : v.purgedNext ≤ n) (h2 : n ≤ nextIndex v.last) :
    nextIndex (LogIdList.truncate v.logIds n).getLast? = n := by
  obtain ⟨hks, hs⟩ := expand_truncate h.sorted n
  rw [← Props.expand_getLast? (ks := LogIdList.truncate v.logIds n), hks]
  have hc : Cons (v.L.filter fun x => decide (x.index < n)) := h.cons.filterLt n
  cases hl : (v.L.filter fun x => decide (x.index < n)).getLast? with
  | none =>
    rw [List.getLast?_eq_none_iff] at hl
    show nextIndex (v.L.filter _).getLast? = n
    rw [hl]
    by_contra hn
    have hpos : 0 < n := by
      rcases Nat.eq_zero_or_pos n with h0 | h0
      · subst h0; simp at hn
      · exact h0
    obtain ⟨x, hx, hi⟩ := h.exists_index (i := n - 1) (by omega) (by omega)
    have : x ∈ v.L.filter fun x => decide (x.index < n) := List.mem_filter.2 ⟨hx, by simp; omega⟩
    rw [hl] at this; cases this
  | some z =>
    show nextIndex (v.L.filter _).getLast? = n
    rw [hl]
    have hz := List.mem_filter.1 (List.mem_of_getLast? hl)
    have h3 : z.index < n := by simpa using hz.2
    obtain ⟨x, hx, hi⟩ := h.exists_index (i := n - 1) (by omega) (by omega)
    have h4 : x ∈ v.L.filter fun x => decide (x.index < n) := List.mem_filter.2 ⟨hx, by simp; omega⟩
    have := hc.le_last hl h4
    simp; omega

end LogJ

namespace Eng

theorem getLogId_iff {g0 : Gh} {e : Eng} (h : LM g0 e) {i : Nat} {x : LogId} :
    e.st.getLogId i = some x ↔ x ∈ e.st.lv.L ∧ x.index = i := get_iff h.log.sorted

theorem getLogId_none {g0 : Gh} {e : Eng} (h : LM g0 e) {i : Nat} (hn : e.st.getLogId i = none)
    (hp : e.st.purgedNext ≤ i + 1) : nextIndex e.st.lastLogId ≤ i := by
  by_contra hlt
  obtain ⟨x, hx, hi⟩ := h.log.exists_index (i := i) hp (by show i < nextIndex e.st.lastLogId; omega)
  have := (getLogId_iff h).2 ⟨hx, hi⟩
  rw [hn] at this; cases this

theorem purged_le_com {g0 : Gh} {e : Eng} (h : LM g0 e) : e.st.purgedNext ≤ nextIndex e.st.committed := by
  have h1 := h.log.ord1; have h2 := h.log.ord2; have h3 := h.log.ord3
  have : e.st.lv.purgedNext ≤ nextIndex e.st.lv.committed := by omega
  exact this

/-- what a truncation does -/
structure Truncated (e e' : Eng) (n : Nat) : Prop where
  L : e'.st.lv.L = e.st.lv.L.filter fun x => decide (x.index < n)
  last : n ≤ nextIndex e.st.lastLogId → nextIndex e'.st.lastLogId = n
  lastLe : nextIndex e'.st.lastLogId ≤ n
  cfg : e'.cfg = e.cfg
  vote : e'.st.vote = e.st.vote
  com : e'.st.committed = e.st.committed
  pn : e'.st.purgedNext = e.st.purgedNext
  snap : e'.st.snap = e.st.snap
  upto : e'.st.purgeUpto = e.st.purgeUpto
  acc : e'.st.io = e.st.io
  mcom : e'.st.ms.committed = e.st.ms.committed
  leader : e'.leader = e.leader
  cand : e'.candidate = e.candidate
  gv : ∀ g0 : Gh, (g0.runs e'.out).vote = (g0.runs e.out).vote

theorem lm_fhTruncate {g0 : Gh} {dbg : Bool} {e e' : Eng} {n : Nat} (h : LM g0 e)
    (h1 : nextIndex e.st.committed ≤ n)
    (h2 : ∀ y ∈ e.st.lv.L, y.index = n → nextIndex e.st.ms.committed.logId ≤ n)
    (hr : fhTruncate dbg e n = .ok e') : LM g0 e' ∧ Truncated e e' n := by
  have hpn := purged_le_com h
  unfold fhTruncate at hr
  rw [bind_ok] at hr
  obtain ⟨_, _, hr⟩ := hr
  split at hr
  · next hn =>
    rw [pure_ok] at hr; subst hr
    have hl := getLogId_none h hn (by omega)
    refine ⟨h, ⟨?_, fun hx => by omega, hl, rfl, rfl, rfl, rfl, rfl, rfl, rfl, rfl, rfl, rfl, fun _ => rfl⟩⟩
    rw [List.filter_eq_self.2]
    intro x hx
    have := h.log.le_last hx
    have h3 : nextIndex e.st.lv.last = nextIndex e.st.lastLogId := rfl
    simp; omega
  · next id hid =>
    obtain ⟨hin, hi⟩ := (getLogId_iff h).1 hid
    rw [bind_ok] at hr
    obtain ⟨ms, hms, hr⟩ := hr
    subst hi
    have hj := h.log.truncate hin h1
    have hpur : LogV.lastPurged { e.st.lv with logIds := LogIdList.truncate e.st.lv.logIds id.index } = e.st.lv.lastPurged := by
      rw [← hj.1.stp, ← h.log.stp]; rfl
    have hm := h.mem.truncate h.log (since := id) h1 (h2 id hin rfl) hpur hms
    have hlast := h.log.le_last hin
    have htl := h.log.truncate_last (n := id.index) (Nat.le_trans hpn h1) (by omega)
    have hmc : ms.committed = e.st.ms.committed := by
      unfold RState.MemState.truncate at hms
      rw [bind_ok] at hms
      obtain ⟨_, _, hms⟩ := hms
      split at hms
      · rw [pure_ok] at hms; subst hms; rfl
      · rw [pure_ok] at hms; subst hms; rfl
    have key : ∀ e2 : Eng, e2.st.lv = { e.st.lv with logIds := LogIdList.truncate e.st.lv.logIds id.index } →
        e2.cfg = e.cfg → e2.st.vote = e.st.vote → e2.st.committed = e.st.committed → e2.st.snap = e.st.snap →
        e2.st.purgedNext = e.st.purgedNext → e2.st.purgeUpto = e.st.purgeUpto →
        e2.st.io = e.st.io → e2.st.ms = ms → e2.leader = e.leader → e2.candidate = e.candidate →
        e2.out = e.out ++ [.truncate id] → LM g0 e2 ∧ Truncated e e2 id.index := by
      intro e2 k1 k2 k3 k4 k5 kp ku k6 k7 k8 k9 k10
      have hlv : e2.st.lastLogId = (LogIdList.truncate e.st.lv.logIds id.index).getLast? := by
        show LogV.last e2.st.lv = _
        rw [k1]; rfl
      refine ⟨h.push k10 (by rw [k1]; exact hj.1) (by rw [k1, k7]; exact hm) hj.2, ⟨?_, ?_, ?_, k2, k3, k4, kp, k5, ku, k6,
        by rw [k7, hmc], k8, k9, fun g => by rw [k10, Gh.runs_snoc]; rfl⟩⟩
      · rw [k1]; exact (expand_truncate h.log.sorted id.index).1
      · intro _; rw [hlv]; exact htl
      · rw [hlv, htl]
    split at hr
    · rw [pure_ok] at hr; subst hr; exact key _ rfl rfl rfl rfl rfl rfl rfl rfl rfl rfl rfl rfl
    · rw [pure_ok] at hr; subst hr; exact key _ rfl rfl rfl rfl rfl rfl rfl rfl rfl rfl rfl rfl

/-! ## Matching the leader's log -/

/-- the node's log is the leader's up to (not including) index `n`, and it reaches there -/
def Pre (lead : List LogId) (s : RState) (n : Nat) : Prop :=
  (∀ y ∈ s.lv.L, y.index < n → y ∈ lead) ∧ n ≤ nextIndex s.lastLogId

theorem pre_of_has {g0 : Gh} {e : Eng} {dbg : Bool} {lead : List LogId} {v : Vote} {fl : Nat} {p : LogId}
    (h : LM g0 e) (hl : LeadLog lead v e.st.lv.L fl) (hfl : nextIndex e.st.committed ≤ fl) (hp : p ∈ lead)
    (hr : e.st.hasLogId dbg p = .ok true) : Pre lead e.st (p.index + 1) ∧ Known e.st.lv p := by
  have hcl : nextIndex e.st.committed ≤ nextIndex e.st.lastLogId := h.log.com_le_last
  unfold RState.hasLogId at hr
  split at hr
  · next hlt =>
    refine ⟨⟨fun y hy hi => hl.agree y hy (by omega), by omega⟩, Or.inr ?_⟩
    cases hc : e.st.committed with
    | none => rw [hc] at hlt; simp at hlt
    | some c =>
      rw [hc] at hlt hfl
      simp at hlt hfl
      show some p ≤ e.st.committed
      rw [hc]
      exact (hl.cons.le_iff hp (hl.agree c (h.log.comIn c hc) (by omega))).2 (by omega)
  · rw [pure_ok] at hr
    have hg : e.st.getLogId p.index = some p := by simpa using hr
    have hin := ((getLogId_iff h).1 hg).1
    have hla := h.log.le_last hin
    exact ⟨⟨fun y hy hi => hl.mat p hin hp y hy (by omega), hla⟩, Or.inl hin⟩

theorem not_has {g0 : Gh} {e : Eng} {dbg : Bool} {p : LogId} (h : LM g0 e)
    (hr : e.st.hasLogId dbg p = .ok false) : nextIndex e.st.committed ≤ p.index ∧ p ∉ e.st.lv.L := by
  unfold RState.hasLogId at hr
  split at hr
  · rw [bind_ok] at hr
    obtain ⟨_, _, hr⟩ := hr
    rw [pure_ok] at hr; cases hr
  · next hn =>
    rw [pure_ok] at hr
    refine ⟨by omega, fun hin => ?_⟩
    rw [(getLogId_iff h).2 ⟨hin, rfl⟩] at hr
    simp at hr

/-- an id of the leader's log that the node does not have: what the node has there is above the floor -/
theorem floor_le {e : Eng} {lead : List LogId} {v : Vote} {fl : Nat} {p : LogId}
    (hl : LeadLog lead v e.st.lv.L fl) (hp : p ∈ lead) (hn : p ∉ e.st.lv.L) :
    ∀ y ∈ e.st.lv.L, y.index = p.index → fl ≤ p.index := by
  intro y hy hi
  by_contra hlt
  have := hl.agree y hy (by omega)
  rw [hl.cons.inj this hp hi] at hy
  exact hn hy

theorem firstConflicting_spec {g0 : Gh} {e : Eng} {dbg : Bool} {lead : List LogId} {v : Vote} {fl : Nat}
    (h : LM g0 e) (hl : LeadLog lead v e.st.lv.L fl) (hfl : nextIndex e.st.committed ≤ fl)
    {es : List Ent} {n k : Nat} (hes : ∀ x ∈ es, x.id ∈ lead) (hc : Cons (es.map (·.id)))
    (hh : ∀ x, es.head? = some x → x.id.index = n) (hp : Pre lead e.st n)
    (hr : e.st.firstConflicting dbg es = .ok k) :
    Pre lead e.st (n + k) ∧ (∀ x ∈ es.take k, Known e.st.lv x.id) ∧
    (∀ x, (es.drop k).head? = some x → x.id.index = n + k ∧ nextIndex e.st.committed ≤ x.id.index ∧ x.id ∉ e.st.lv.L) ∧
    (∀ x ∈ es.take k, x.id.index < n + k) := by
  induction es generalizing n k with
  | nil =>
    rw [RState.firstConflicting, pure_ok] at hr
    subst hr
    exact ⟨hp, by simp, by simp, by simp⟩
  | cons a es ih =>
    rw [RState.firstConflicting, bind_ok] at hr
    obtain ⟨b, hb, hr⟩ := hr
    have hai := hh a rfl
    cases b with
    | true =>
      simp only [if_true, bind_ok] at hr
      obtain ⟨i, hi, hr⟩ := hr
      rw [pure_ok] at hr
      subst hr
      have h1 := pre_of_has h hl hfl (hes a (by simp)) hb
      rw [hai] at h1
      have h2 := ih (n := n + 1) (k := i) (fun x hx => hes x (by simp [hx])) (by rw [List.map_cons] at hc; exact hc.tail)
        (by
          intro x hx
          rw [List.map_cons] at hc
          cases es with
          | nil => cases hx
          | cons b r =>
            simp at hx; subst hx
            rw [List.map_cons] at hc
            have := hc.1; omega) h1.1 hi
      have hni : n + 1 + i = n + (i + 1) := by omega
      rw [hni] at h2
      refine ⟨h2.1, ?_, h2.2.2.1, ?_⟩
      · intro x hx
        rw [List.take_succ_cons] at hx
        rcases List.mem_cons.1 hx with rfl | hx
        · exact h1.2
        · exact h2.2.1 x hx
      · intro x hx
        rw [List.take_succ_cons] at hx
        rcases List.mem_cons.1 hx with rfl | hx
        · omega
        · exact h2.2.2.2 x hx
    | false =>
      simp only [Bool.false_eq_true, if_false] at hr
      rw [pure_ok] at hr
      subst hr
      obtain ⟨h3, h4⟩ := not_has h hb
      refine ⟨hp, by simp, ?_, by simp⟩
      intro x hx
      simp at hx; subst hx
      exact ⟨hai, h3, h4⟩

/-! ## Appending -/

theorem fhAppendMembership_ok {dbg : Bool} {e e' : Eng} {es : List Ent} (hr : fhAppendMembership dbg e es = .ok e') :
    ∃ ms srv, appendMems dbg e.st.ms (lastTwo es) = .ok ms ∧ e' = { e with st := { e.st with ms := ms, server := srv } } := by
  unfold fhAppendMembership at hr
  split at hr
  · next h0 =>
    rw [pure_ok] at hr; subst hr
    exact ⟨e.st.ms, e.st.server, by rw [h0]; rfl, rfl⟩
  · rw [bind_ok] at hr
    obtain ⟨ms, hms, hr⟩ := hr
    rw [pure_ok] at hr; subst hr
    exact ⟨ms, _, hms, rfl⟩

theorem lm_fhDoAppend {g0 : Gh} {dbg : Bool} {e e' : Eng} {v : Vote} {es : List Ent} (h : LM g0 e) (hne : es ≠ [])
    (hidx : ∀ x, es.head? = some x → x.id.index = nextIndex e.st.lastLogId)
    (hc : Cons (es.map (·.id)))
    (hlast : ∀ l x, e.st.lastLogId = some l → es.head? = some x → l.leaderId ≤ x.id.leaderId)
    (hb : ∀ x ∈ es, x.id.leaderId ≤ e.st.vote.data.leaderId) (hv : v.leaderId = e.st.vote.data.leaderId)
    (hr : fhDoAppend dbg e v es = .ok e') :
    LM g0 e' ∧ e'.st.lv.L = e.st.lv.L ++ es.map (·.id) ∧ e'.cfg = e.cfg ∧ e'.st.vote = e.st.vote ∧
      e'.st.committed = e.st.committed ∧ e'.st.io = e.st.io ∧ e'.leader = e.leader ∧ e'.candidate = e.candidate ∧
      (∀ g : Gh, (g.runs e'.out).vote = (g.runs e.out).vote) ∧ e'.st.lastLogId = es.getLast?.map (·.id) := by
  unfold fhDoAppend at hr
  simp only [bind_ok] at hr
  obtain ⟨_, _, _, _, _, _, e1, he1, hr⟩ := hr
  rw [pure_ok] at hr
  obtain ⟨ms, srv, hms, he1⟩ := fhAppendMembership_ok he1
  obtain ⟨x0, hx0⟩ : ∃ x0, es.head? = some x0 := by
    cases es with
    | nil => exact absurd rfl hne
    | cons a r => exact ⟨a, rfl⟩
  have hcf : ∀ x, (es.map (·.id)).head? = some x → ConsecutiveFrom x.index (es.map (·.id)) := by
    intro x hx
    cases hm : es.map (·.id) with
    | nil => rw [hm] at hx; cases hx
    | cons a r =>
      rw [hm] at hx hc
      simp at hx; subst hx; exact hc.consecutiveFrom
  have hix0 := hidx x0 hx0
  obtain ⟨hks, hs⟩ := expand_extend (ks := e.st.logIds) (new := es.map (·.id)) h.log.sorted
    (by
      intro _
      have := hcf x0.id (by rw [List.head?_map, hx0]; rfl)
      rw [hix0] at this; exact this) hcf
  have hj := h.log.append (es := es) (w := v) (ks := LogIdList.extend e.st.logIds (es.map (·.id))) hne hidx hc hlast hb
    (fun x hx => by rw [hv]; exact hb x hx) hks hs
  have hpur : LogV.lastPurged { e.st.lv with logIds := LogIdList.extend e.st.logIds (es.map (·.id)) } = e.st.lv.lastPurged := by
    rw [← hj.1.stp, ← h.log.stp]; rfl
  have hcl : nextIndex e.st.committed ≤ nextIndex e.st.lastLogId := h.log.com_le_last
  have hm := h.mem.append_some (w := v) (es := es) (ks := LogIdList.extend e.st.logIds (es.map (·.id))) hpur
    (by
      intro x hx
      have : x0.id.index ≤ x.id.index := hc.head_le (by rw [List.head?_map, hx0]; rfl) (List.mem_map.2 ⟨x, hx, rfl⟩)
      show nextIndex e.st.committed ≤ _
      omega) hms
  subst he1
  subst hr
  refine ⟨h.push rfl hj.1 hm hj.2, hks, rfl, rfl, rfl, rfl, rfl, rfl, ?_, ?_⟩
  · intro g; show (g.runs (e.out ++ [_])).vote = _; rw [Gh.runs_snoc]; rfl
  · show List.getLast? (LogIdList.extend e.st.logIds (es.map (·.id))) = _
    rw [← Props.expand_getLast?, hks, List.getLast?_append, List.getLast?_map]
    cases hl : es.getLast? with
    | none => rw [List.getLast?_eq_none_iff] at hl; exact absurd hl hne
    | some z => rfl

/-- the data of a node that follows: no role of its own -/
structure Following (e : Eng) : Prop where
  leader : e.leader = none
  cand : e.candidate = none
  com : e.st.vote.data.committed = true
  node : e.st.vote.data.leaderId.node ≠ e.cfg.id
  acc : ∃ a, e.st.io.prog.accepted = some a ∧ a.vote = e.st.vote.data

theorem inv_of_following {g0 : Gh} {e : Eng} (h : LM g0 e) (hf : Following e)
    (hg : (g0.runs e.out).vote = e.st.vote.data) (hk : KnownO e.st.lv e.st.accLast) : EInv g0 e := by
  refine ⟨h, hg, ?_, ?_, ?_, ?_⟩
  · obtain ⟨a, h1, h2⟩ := hf.acc
    refine ⟨a, h1, h2, ?_⟩
    have : e.st.accLast = a.last := by unfold RState.accLast; rw [h1]; rfl
    rw [← this]; exact hk
  · intro l hl; rw [hf.leader] at hl; cases hl
  · intro c hc; rw [hf.cand] at hc; cases hc
  · intro _
    unfold RState.isLeader RState.isLeading
    have : (e.st.vote.data.leaderId.node == e.cfg.id) = false := by simpa using hf.node
    rw [this]; simp

/-- the last log id of the accepted IO after accepting a log IO of the same vote -/
theorem acceptIo_same {dbg : Bool} {s s' : RState} {v : Vote} {last : Option LogId} {a : IOId}
    (ha : s.io.prog.accepted = some a) (hav : a.vote = v) (hv : v.committed = true)
    (hr : s.acceptIo dbg (IOId.newLog v last) = .ok s') :
    (∃ io, s' = { s with io := io }) ∧ s'.accLast = max a.last last ∧
      ∃ a', s'.io.prog.accepted = some a' ∧ a'.vote = v := by
  have hs := acceptIo_ok hr
  have hlt : (some a < some (IOId.newLog v last)) ↔ a.last < last := by
    show a < IOId.newLog v last ↔ _
    rw [IOId.lt_def]
    simp [IOId.newLog, toCommitted_eq hv, hav]
  refine ⟨⟨_, hs⟩, ?_, ?_⟩
  · rw [hs]
    unfold RState.accLast
    simp only [ha]
    rw [omax_eq]
    by_cases h1 : some a < some (IOId.newLog v last)
    · rw [if_pos h1, if_pos (le_of_lt (hlt.1 h1))]; rfl
    · rw [if_neg h1]
      have h2 : ¬ a.last < last := fun hx => h1 (hlt.2 hx)
      by_cases h3 : a.last ≤ last
      · rw [if_pos h3]; exact le_antisymm h3 (not_lt.1 h2)
      · rw [if_neg h3]; rfl
  · rw [hs]
    simp only [ha]
    by_cases h1 : some a < some (IOId.newLog v last)
    · rw [if_pos h1]; exact ⟨_, rfl, by simp [IOId.newLog, toCommitted_eq hv]⟩
    · rw [if_neg h1]; exact ⟨a, rfl, hav⟩

theorem followingHandler_ok {dbg : Bool} {e : Eng} {v : Vote} (hr : e.followingHandler dbg = .ok v) :
    v = e.st.vote.data.toCommitted := by
  unfold followingHandler at hr
  simp only [bind_ok, pure_ok] at hr
  obtain ⟨_, _, _, _, hr⟩ := hr
  exact hr.symm

/-- what the follower knows after it took the leader's entries -/
structure Took (lead : List LogId) (v : Vote) (e : Eng) : Prop where
  log : LeadLog lead v e.st.lv.L (nextIndex e.st.committed)
  acc : ∀ a, e.st.accLast = some a → a ∈ e.st.lv.L → a ∈ lead

theorem _root_.Openraft.Engine.LeadLog.filter {lead : List LogId} {v : Vote} {L : List LogId} {fl : Nat} (h : LeadLog lead v L fl) (p : LogId → Bool) :
    LeadLog lead v (L.filter p) fl :=
  ⟨h.cons, h.bound, fun x hx => h.agree x (List.mem_filter.1 hx).1,
    fun x hx hl y hy => h.mat x (List.mem_filter.1 hx).1 hl y (List.mem_filter.1 hy).1⟩

theorem _root_.Openraft.Engine.LeadLog.mono {lead : List LogId} {v : Vote} {L : List LogId} {fl fl' : Nat} (h : LeadLog lead v L fl)
    (hle : fl' ≤ fl) : LeadLog lead v L fl' :=
  ⟨h.cons, h.bound, fun x hx hi => h.agree x hx (by omega), h.mat⟩

/-- the floor of a node that follows `v` -/
theorem floor_parts {e : Eng} {v : Vote} (hv : e.st.vote.data = v) :
    nextIndex e.st.committed ≤ e.floor v ∧ nextIndex e.st.ms.committed.logId ≤ e.floor v ∧
    nextIndex e.st.accLast ≤ e.floor v := by
  unfold Eng.floor
  rw [if_pos hv]
  omega

/-- `ensure_log_consecutive` refused the request -/
theorem inv_fhEnsure_false {g0 : Gh} {dbg : Bool} {e e' : Eng} {lead : List LogId} {prev : Option LogId}
    (h : EInv g0 e) (hf : Following e) (hl : LeadLog lead e.st.vote.data e.st.lv.L (e.floor e.st.vote.data))
    (hp : ∀ p, prev = some p → p ∈ lead) (hr : fhEnsure dbg e prev = .ok (false, e')) : EInv g0 e' := by
  obtain ⟨f1, f2, f3⟩ := floor_parts (e := e) rfl
  unfold fhEnsure at hr
  split at hr
  · rw [pure_ok] at hr; cases hr
  · next p =>
    rw [bind_ok] at hr
    obtain ⟨b, hb, hr⟩ := hr
    cases b with
    | true => simp only [if_true] at hr; rw [pure_ok] at hr; cases hr
    | false =>
      simp only [Bool.false_eq_true, if_false, bind_ok] at hr
      obtain ⟨e1, he1, hr⟩ := hr
      rw [pure_ok] at hr; cases hr
      obtain ⟨h1, h2⟩ := not_has h.lm hb
      have h3 := floor_le hl (hp p rfl) h2
      obtain ⟨h4, h5⟩ := lm_fhTruncate h.lm h1 (fun y hy hi => by have := h3 y hy hi; omega) he1
      refine inv_of_following h4 ⟨by rw [h5.leader]; exact hf.leader, by rw [h5.cand]; exact hf.cand,
        by rw [h5.vote]; exact hf.com, by rw [h5.vote, h5.cfg]; exact hf.node, by rw [h5.acc, h5.vote]; exact hf.acc⟩
        (by rw [h5.gv, h5.vote]; exact h.pj.gv) ?_
      obtain ⟨a, ha1, ha2, ha3⟩ := h.pj.acc
      have hal : e'.st.accLast = a.last := by unfold RState.accLast; rw [h5.acc, ha1]; rfl
      have hal0 : e.st.accLast = a.last := by unfold RState.accLast; rw [ha1]; rfl
      rw [hal]
      intro x hx
      rcases ha3 x hx with hk | hk
      · by_cases hy : ∃ y ∈ e.st.lv.L, y.index = p.index
        · obtain ⟨y, hy, hi⟩ := hy
          have := h3 y hy hi
          rw [hal0, hx] at f3
          left; rw [h5.L]
          exact List.mem_filter.2 ⟨hk, by simp at f3; simp; omega⟩
        · left; rw [h5.L]
          refine List.mem_filter.2 ⟨hk, ?_⟩
          simp
          by_contra hge
          obtain ⟨y, hy1, hy2⟩ := h.lm.log.exists_index (i := p.index)
            (Nat.le_trans (purged_le_com h.lm) (by omega)) (Nat.lt_of_le_of_lt (by omega) (h.lm.log.le_last hk))
          exact hy ⟨y, hy1, hy2⟩
      · right; show some x ≤ e'.st.committed; rw [h5.com]; exact hk

/-- `ensure_log_consecutive` accepted the request -/
theorem fhEnsure_true {g0 : Gh} {dbg : Bool} {e e' : Eng} {lead : List LogId} {prev : Option LogId} {v : Vote} {fl : Nat}
    (h : LM g0 e) (hl : LeadLog lead v e.st.lv.L fl) (hfl : nextIndex e.st.committed ≤ fl)
    (hp : ∀ p, prev = some p → p ∈ lead) (hr : fhEnsure dbg e prev = .ok (true, e')) :
    e' = e ∧ Pre lead e.st (nextIndex prev) ∧ KnownO e.st.lv prev := by
  unfold fhEnsure at hr
  split at hr
  · rw [pure_ok] at hr; cases hr; exact ⟨rfl, ⟨fun y _ hi => absurd hi (by simp), by simp⟩, KnownO.none⟩
  · next p =>
    rw [bind_ok] at hr
    obtain ⟨b, hb, hr⟩ := hr
    cases b with
    | true =>
      simp only [if_true] at hr; rw [pure_ok] at hr; cases hr
      have := pre_of_has h hl hfl (hp p rfl) hb
      exact ⟨rfl, this.1, fun x hx => by cases hx; exact this.2⟩
    | false =>
      simp only [Bool.false_eq_true, if_false, bind_ok] at hr
      obtain ⟨e1, he1, hr⟩ := hr
      rw [pure_ok] at hr; cases hr

/-- the same engine with another IO state -/
theorem lm_setIo {g0 : Gh} {e : Eng} (h : LM g0 e) (io : IOState) : LM g0 { e with st := { e.st with io := io } } :=
  h.state rfl h.log h.mem

theorem max_cases {α : Type} [LinearOrder α] (a b : Option α) : max a b = a ∨ max a b = b := by
  rw [omax_eq]; split
  · right; rfl
  · left; rfl

theorem inv_fhAppendEntries {g0 : Gh} {dbg : Bool} {e e' : Eng} {lead : List LogId} {prev : Option LogId} {es : List Ent}
    (h : EInv g0 e) (hf : Following e) (hl : LeadLog lead e.st.vote.data e.st.lv.L (e.floor e.st.vote.data))
    (hpre : Pre lead e.st (nextIndex prev)) (hpk : KnownO e.st.lv prev) (hp : ∀ p, prev = some p → p ∈ lead)
    (hes : ∀ x ∈ es, x.id ∈ lead) (hc : Cons (es.map (·.id)))
    (hh : ∀ x, es.head? = some x → x.id.index = nextIndex prev)
    (hr : fhAppendEntries dbg e e.st.vote.data prev es = .ok e') :
    EInv g0 e' ∧ Following e' ∧ Took lead e.st.vote.data e' := by
  obtain ⟨f1, f2, f3⟩ := floor_parts (e := e) rfl
  unfold fhAppendEntries at hr
  simp only [bind_ok] at hr
  obtain ⟨_, _, st, hst, k, hk, hr⟩ := hr
  obtain ⟨a, ha1, ha2, ha3⟩ := h.pj.acc
  obtain ⟨⟨io, hio⟩, hacc, a', ha', hav'⟩ := acceptIo_same ha1 ha2 hf.com hst
  subst hio
  have hal0 : e.st.accLast = a.last := by unfold RState.accLast; rw [ha1]; rfl
  have hlm := lm_setIo h.lm io
  obtain ⟨s1, s2, s3, s4⟩ := firstConflicting_spec hlm hl f1 hes hc hh hpre hk
  -- what is below the first conflict is kept
  have hcl : nextIndex e.st.committed ≤ nextIndex e.st.lastLogId := h.lm.log.com_le_last
  have hcn : nextIndex e.st.committed ≤ e.floor e.st.vote.data := f1
  generalize hlst : es.getLast?.map (·.id) = el at *
  have hLlead : ∀ x, max prev el = some x → x ∈ lead := by
    intro x hx
    rcases max_cases prev el with h1 | h1
    · rw [h1] at hx; exact hp x hx
    · rw [h1, ← hlst] at hx
      cases hg : es.getLast? with
      | none => rw [hg] at hx; cases hx
      | some z => rw [hg] at hx; simp at hx; subst hx; exact hes z (List.mem_of_getLast? hg)
  split at hr
  · next x xs hdrop =>
    rw [bind_ok] at hr
    obtain ⟨e1, he1, hr⟩ := hr
    obtain ⟨t1, t2, t3⟩ := s3 x (by rw [hdrop]; rfl)
    have hxlead : x.id ∈ lead := hes x (List.mem_of_mem_drop (by rw [hdrop]; simp))
    have hfl := floor_le hl hxlead t3
    obtain ⟨h4, h5⟩ := lm_fhTruncate hlm t2 (fun y hy hi => by have := hfl y hy hi; exact Nat.le_trans f2 this) he1
    have hnl : nextIndex prev + k ≤ nextIndex e.st.lastLogId := s1.2
    have hl1 : nextIndex e1.st.lastLogId = x.id.index := h5.last (by
      show _ ≤ nextIndex e.st.lastLogId
      omega)
    have hL1 : ∀ y ∈ e1.st.lv.L, y ∈ lead ∧ y.index < x.id.index := by
      intro y hy
      rw [h5.L] at hy
      obtain ⟨hy1, hy2⟩ := List.mem_filter.1 hy
      have hy3 : y.index < x.id.index := by simpa using hy2
      exact ⟨s1.1 y hy1 (by omega), hy3⟩
    have hsub : ∀ z ∈ x :: xs, z ∈ es := fun z hz => List.mem_of_mem_drop (by rw [hdrop]; exact hz)
    have hcx : Cons ((x :: xs).map (·.id)) := by
      have := hc.drop k
      rw [← List.map_drop, hdrop] at this; exact this
    have hv1 : e1.st.vote.data = e.st.vote.data := by rw [h5.vote]
    obtain ⟨d1, d2, d3, d4, d5, d6, d7, d8, d9, d10⟩ := lm_fhDoAppend h4 (by simp)
      (by intro z hz; simp at hz; subst hz; exact hl1.symm) hcx
      (by
        intro l z hl' hz
        simp at hz; subst hz
        have hlm1 := h4.log.last_mem (x := l) hl'
        exact hl.cons.mono (hL1 l hlm1).1 hxlead (Nat.le_of_lt (hL1 l hlm1).2))
      (by intro z hz; rw [hv1]; exact hl.bound _ (hes z (hsub z hz))) (by rw [hv1]) hr
    have hall : ∀ y ∈ e'.st.lv.L, y ∈ lead := by
      intro y hy
      rw [d2] at hy
      rcases List.mem_append.1 hy with h1 | h1
      · exact (hL1 y h1).1
      · obtain ⟨z, hz, rfl⟩ := List.mem_map.1 h1
        exact hes z (hsub z hz)
    have hcom' : e'.st.committed = e.st.committed := by rw [d5, h5.com]
    have hkeep : ∀ y, Known e.st.lv y → y.index < x.id.index → Known e'.st.lv y := by
      intro y hy hi
      rcases hy with hy | hy
      · left; rw [d2]; apply List.mem_append_left; rw [h5.L]
        exact List.mem_filter.2 ⟨hy, by simpa using hi⟩
      · right; show some y ≤ e'.st.committed; rw [hcom']; exact hy
    have hkeepC : ∀ y, some y ≤ e.st.committed → Known e'.st.lv y := by
      intro y hy; right; show some y ≤ e'.st.committed; rw [hcom']; exact hy
    have hacc' : e'.st.accLast = max a.last (max prev el) := by
      rw [← hacc]; unfold RState.accLast; rw [d6, h5.acc]
    have hfol : Following e' := ⟨by rw [d7, h5.leader]; exact hf.leader, by rw [d8, h5.cand]; exact hf.cand,
      by rw [d4, h5.vote]; exact hf.com, by rw [d4, d3, h5.vote, h5.cfg]; exact hf.node,
      ⟨a', by rw [d6, h5.acc]; exact ha', by rw [d4, h5.vote]; exact hav'⟩⟩
    have hknown : KnownO e'.st.lv e'.st.accLast := by
      rw [hacc']
      refine KnownO.max ?_ (KnownO.max ?_ ?_)
      · intro y hy
        rcases ha3 y hy with hk1 | hk1
        · by_cases hlt : y.index < x.id.index
          · exact hkeep y (Or.inl hk1) hlt
          · exfalso
            obtain ⟨w, hw, hwi⟩ := h.lm.log.exists_index (i := x.id.index)
              (Nat.le_trans (purged_le_com h.lm) (Nat.le_trans t2 (by omega)))
              (Nat.lt_of_le_of_lt (by omega) (h.lm.log.le_last hk1))
            have := hfl w hw hwi
            rw [hal0, hy] at f3
            simp at f3; omega
        · exact hkeepC y hk1
      · intro y hy
        rcases hpk y hy with hk1 | hk1
        · exact hkeep y (Or.inl hk1) (by rw [hy] at t1; simp at t1; omega)
        · exact hkeepC y hk1
      · intro y hy
        rw [← hlst] at hy
        have hgl : es.getLast? = (x :: xs).getLast? := by
          rw [← hdrop, List.getLast?_drop, if_neg]
          intro hle
          rw [List.drop_eq_nil_of_le hle] at hdrop; cases hdrop
        rw [hgl] at hy
        cases hg : (x :: xs).getLast? with
        | none => simp at hg
        | some z =>
          rw [hg] at hy; simp at hy; subst hy
          left; rw [d2]; apply List.mem_append_right
          exact List.mem_map.2 ⟨z, List.mem_of_getLast? hg, rfl⟩
    refine ⟨inv_of_following d1 hfol ?_ hknown, hfol, ⟨hl.cons, hl.bound, fun y hy _ => hall y hy,
      fun y _ _ z hz _ => hall z hz⟩, fun b _ hb => hall b hb⟩
    rw [d9, h5.gv, d4, h5.vote]; exact h.pj.gv
  · next hdrop =>
    have hfol : Following { e with st := { e.st with io := io } } :=
      ⟨hf.leader, hf.cand, hf.com, hf.node, ⟨a', ha', hav'⟩⟩
    have hfull : ∀ z ∈ es, Known e.st.lv z.id := by
      intro z hz
      have : es.take k = es := by
        have := List.take_append_drop k es
        rw [hdrop, List.append_nil] at this; exact this
      rw [← this] at hz
      exact s2 z hz
    have hknown : KnownO e.st.lv (max a.last (max prev el)) := by
      refine KnownO.max ha3 (KnownO.max hpk ?_)
      intro y hy
      rw [← hlst] at hy
      cases hg : es.getLast? with
      | none => rw [hg] at hy; cases hy
      | some z => rw [hg] at hy; simp at hy; subst hy; exact hfull z (List.mem_of_getLast? hg)
    have hinv : EInv g0 { e with st := { e.st with io := io } } :=
      inv_of_following hlm hfol h.pj.gv (by
        have : ({ e with st := { e.st with io := io } } : Eng).st.accLast = max a.last (max prev el) := hacc
        rw [this]; exact hknown)
    have htook : ∀ e2 : Eng, e2.st = { e.st with io := io } → Took lead e.st.vote.data e2 := by
      intro e2 h2
      refine ⟨by rw [h2]; exact hl.mono f1, ?_⟩
      intro b hb hbL
      rw [h2] at hb hbL
      have hb' : max a.last (max prev el) = some b := by rw [← hacc]; exact hb
      rcases max_cases a.last (max prev el) with h3 | h3
      · rw [h3] at hb'
        rw [hal0, hb'] at f3
        exact hl.agree b hbL (by simp at f3; omega)
      · rw [h3] at hb'; exact hLlead b hb'
    split at hr
    · rw [pure_ok] at hr; subst hr; exact ⟨hinv, hfol, htook _ rfl⟩
    · rw [pure_ok] at hr; subst hr
      refine ⟨(Frame.push _ (c := .updateIO _ _) rfl).inv hinv, ⟨hfol.leader, hfol.cand, hfol.com, hfol.node, hfol.acc⟩, htook _ rfl⟩

/-! ## Commit on the follower -/

theorem inv_fhCommit {g0 : Gh} {dbg : Bool} {e e' : Eng} {lead : List LogId} {v : Vote} {lc : Option LogId} (h : EInv g0 e)
    (ht : Took lead v e) (hlc : ∀ x, lc = some x → x ∈ lead) (hr : fhCommit dbg e lc = .ok e') : EInv g0 e' := by
  unfold fhCommit at hr
  rw [bind_ok] at hr
  obtain ⟨⟨ch, st⟩, h1, hr⟩ := hr
  simp only at hr
  unfold RState.updateCommitted at h1
  split at h1
  · next hlt =>
    rw [bind_ok] at h1
    obtain ⟨ms', h2, h1⟩ := h1
    rw [pure_ok] at h1
    cases h1
    rw [if_pos rfl, bind_ok] at hr
    obtain ⟨id, hid, hr⟩ := hr
    rw [unwrap_ok] at hid
    rw [pure_ok] at hr
    subst hr
    obtain ⟨a, ha1, ha2, ha3⟩ := h.pj.acc
    have hal : e.st.accLast = a.last := by unfold RState.accLast; rw [ha1]; rfl
    have hbind : (e.st.io.prog.accepted.bind (·.last)) = a.last := hal
    rw [hbind] at hid hlt h2
    rw [hid] at hlt h2
    have hin : id ∈ e.st.lv.L := by
      rw [omin_eq] at hid
      split at hid
      · rcases ha3 id hid with hx | hx
        · exact hx
        · exact absurd hlt (not_lt.2 hx)
      · next hn =>
        -- the leader's commit is below what was accepted
        cases hx : a.last with
        | none => rw [hx] at hn; exact absurd (OptOrd.none_le' _) hn
        | some y =>
          rw [hx, hid] at hn
          have hle : id ≤ y := le_of_lt (not_le.1 (show ¬ y ≤ id from hn))
          have hyL : y ∈ e.st.lv.L := by
            rcases ha3 y hx with hk | hk
            · exact hk
            · exact absurd (lt_of_lt_of_le hlt (show some id ≤ some y from hle)) (not_lt.2 hk)
          have hyl := ht.acc y (by rw [hal, hx]) hyL
          have hidl := hlc id hid
          have hidx := (ht.log.cons.le_iff hidl hyl).1 hle
          have hcid : nextIndex e.st.committed ≤ id.index := by
            cases hc : e.st.committed with
            | none => simp
            | some c =>
              have hcl := ht.log.agree c (h.lm.log.comIn c hc) (by rw [hc]; simp)
              rw [hc] at hlt
              have := (ht.log.cons.lt_iff hcl hidl).1 hlt
              simp; omega
          obtain ⟨z, hz, hzi⟩ := h.lm.log.exists_index (i := id.index)
            (Nat.le_trans (purged_le_com h.lm) (by omega)) (Nat.lt_of_le_of_lt hidx (h.lm.log.le_last hyL))
          have hzl := ht.log.mat y hyL hyl z hz (by omega)
          rw [← ht.log.cons.inj hzl hidl hzi]; exact hz
    refine (frame_maybeSnapshot _).inv (inv_commit [] h hin hlt h2 (by simp) ?_)
    simp [Eng.push, hbind, hid]
  · rw [pure_ok] at h1
    cases h1
    rw [if_neg (by simp), pure_ok] at hr
    subst hr; exact h

/-! ## Installing a snapshot -/

/-- what the node assumes about a snapshot of the leader of vote `v`, beside that it is newer than the
committed position -/
structure SnapOk (e : Eng) (v : Vote) (m : SnapMeta) (x : LogId) : Prop where
  leader : x.leaderId ≤ v.leaderId
  ahead : nextIndex e.st.committed ≤ x.index
  agree : ∀ y ∈ e.st.lv.L, y.index = x.index → x.index < e.floor v → y = x
  acc : ∀ a, e.st.vote.data = v → e.st.accLast = some a → a.index ≤ x.index → a ≤ x
  conflict : (∃ y ∈ e.st.lv.L, y.index = x.index ∧ y ≠ x) →
    nextIndex e.st.ms.committed.logId ≤ nextIndex e.st.committed
  inside : x ∈ e.st.lv.L → MemJ.SnapMemInside e.st.ms x m.mem
  beyond : x ∉ e.st.lv.L →
    m.mem.logId ≤ some x ∧ nextIndex m.mem.logId ≤ x.index + 1 ∧
    (e.st.ms.committed.logId < m.mem.logId ∨ e.st.ms.committed = m.mem) ∧
    nextIndex e.st.ms.committed.logId ≤ nextIndex m.mem.logId ∧
    ((∃ y ∈ e.st.lv.L, y.index = x.index) ∧ nextIndex e.st.committed < nextIndex e.st.ms.effective.logId ∨
      nextIndex e.st.ms.effective.logId ≤ nextIndex m.mem.logId)

theorem fhTruncate_snap {dbg : Bool} {e e2 : Eng} {m : SnapMeta} {n : Nat}
    (h : fhTruncate dbg { e with st := { e.st with snap := m } } n = .ok e2) :
    ∃ e1, fhTruncate dbg e n = .ok e1 ∧ e2 = { e1 with st := { e1.st with snap := m } } := by
  unfold fhTruncate at h ⊢
  rw [bind_ok] at h
  obtain ⟨u, hu, h⟩ := h
  have hu' : dassert dbg (decide (nextIndex e.st.lastPurged ≤ n)) = .ok u := hu
  rw [hu']
  simp only [bind, Except.bind]
  have hg : ({ e with st := { e.st with snap := m } } : Eng).st.getLogId n = e.st.getLogId n := rfl
  rw [hg] at h
  cases hx : e.st.getLogId n with
  | none => rw [hx] at h; rw [pure_ok] at h; exact ⟨e, rfl, h.symm⟩
  | some id =>
    rw [hx] at h
    simp only at h ⊢
    rw [bind_ok] at h
    obtain ⟨ms, hms, h⟩ := h
    have hms' : RState.MemState.truncate dbg e.st.ms n = .ok ms := hms
    rw [hms']
    simp only
    split at h
    · next h1 =>
      rw [pure_ok] at h
      rw [if_pos (show some n ≤ e.st.ms.effective.logId.map (·.index) from h1)]
      exact ⟨_, rfl, h.symm⟩
    · next h1 =>
      rw [pure_ok] at h
      rw [if_neg (show ¬ some n ≤ e.st.ms.effective.logId.map (·.index) from h1)]
      exact ⟨_, rfl, h.symm⟩

theorem fhTruncate_eff {dbg : Bool} {e e' : Eng} {n : Nat} (h : fhTruncate dbg e n = .ok e') {y : LogId}
    (hy : e.st.getLogId n = some y) : nextIndex e'.st.ms.effective.logId ≤ n ∨
      e'.st.ms.effective = e.st.ms.committed := by
  unfold fhTruncate at h
  rw [bind_ok] at h
  obtain ⟨_, _, h⟩ := h
  rw [hy] at h
  simp only [bind_ok] at h
  obtain ⟨ms, hms, h⟩ := h
  have hk : nextIndex ms.effective.logId ≤ n ∨ ms.effective = e.st.ms.committed := by
    unfold RState.MemState.truncate at hms
    rw [bind_ok] at hms
    obtain ⟨_, _, hms⟩ := hms
    split at hms
    · rw [pure_ok] at hms; subst hms; right; rfl
    · next hn =>
      rw [pure_ok] at hms; subst hms
      left
      rw [some_le_map_index] at hn; omega
  split at h
  · rw [pure_ok] at h; subst h; exact hk
  · rw [pure_ok] at h; subst h; exact hk

/-- the last steps of `install_full_snapshot`, from a state whose log either holds the snapshot's last
id or ends before it -/
theorem inv_installCore {g0 : Gh} {dbg : Bool} {e e' : Eng} {m : SnapMeta} {x : LogId} {ms' : MemState} {io : IOState}
    {srv : ServerState} {ioid : IOId}
    (h : LM g0 e) (hf : Following { e with st := { e.st with io := io } }) (hg : (g0.runs e.out).vote = e.st.vote.data)
    (hm : m.lastLogId = some x) (hb : x.leaderId ≤ e.st.vote.data.leaderId)
    (hx : nextIndex e.st.committed ≤ x.index)
    (hlt : e.st.committed < some x)
    (hcase : (x ∈ e.st.lv.L ∧ MemJ.SnapMemInside e.st.ms x m.mem) ∨
      (nextIndex e.st.lastLogId ≤ x.index ∧ m.mem.logId ≤ some x ∧ nextIndex m.mem.logId ≤ x.index + 1 ∧
        nextIndex e.st.ms.effective.logId ≤ nextIndex m.mem.logId ∧
        (e.st.ms.committed.logId < m.mem.logId ∨ e.st.ms.committed = m.mem)))
    (hk : ∀ y, ({ e.st with io := io } : RState).accLast = some y →
      some y ≤ some x ∨ (x ∈ e.st.lv.L ∧ y ∈ e.st.lv.L ∧ x.index ≤ y.index))
    (hr : RState.MemState.updateCommitted dbg e.st.ms m.mem = .ok ms')
    (he : e' = logPurge { e with
      st := { e.st with snap := m, io := io, committed := some x, ms := ms', server := srv, purgeUpto := some x }
      out := e.out ++ [.sm (.install m ioid)] }) : EInv g0 e' := by
  have hp : ¬ (some x ≤ e.st.lastPurged) := by
    intro hle
    cases hq : e.st.lastPurged with
    | none => rw [hq] at hle; exact OptOrd.not_some_le_none' hle
    | some p =>
      rw [hq] at hle
      have hpin := h.log.purged_mem (p := p) hq
      have hpi : p.index < nextIndex e.st.committed := by
        have h1 := purged_le_com h
        have h2 : e.st.purgedNext = nextIndex e.st.lastPurged := h.log.pn
        rw [hq] at h2; simp at h2; omega
      cases hc : e.st.committed with
      | none => rw [hc] at hpi; simp at hpi
      | some c =>
        have hcin := h.log.comIn c hc
        rw [hc] at hpi hlt
        simp at hpi
        have h3 := (h.log.cons.le_iff hpin hcin).2 (by omega)
        exact absurd (lt_of_lt_of_le hlt hle) (not_lt.2 (show some p ≤ some c from h3))
  have he2 : e' = { e with
      st := { e.st with snap := m, io := io, committed := some x, ms := ms', server := srv, purgeUpto := some x,
                        purgedNext := x.index + 1, logIds := LogIdList.purge e.st.logIds x }
      out := e.out ++ [.sm (.install m ioid)] ++ [.purge x] } := by
    rw [he]
    unfold logPurge
    exact (if_neg hp).trans rfl
  have hlv : e'.st.lv = ⟨e.st.lv.vote, some x, x.index + 1, LogIdList.purge e.st.lv.logIds x, some x, some x⟩ := by
    rw [he2]; simp [RState.lv, hm]
  have hout : e'.out = e.out ++ [.sm (.install m ioid)] ++ [.purge x] := by rw [he2]
  have hgr : g0.runs e'.out = ((g0.runs e.out).run (.sm (.install m ioid))).run (.purge x) := by
    rw [hout, Gh.runs_snoc, Gh.runs_snoc]
  have hj : LogJ e'.st.lv (g0.runs e'.out) ∧ (g0.runs e.out).Ok (.sm (.install m ioid)) ∧
      ((g0.runs e.out).run (.sm (.install m ioid))).Ok (.purge x) := by
    rw [hlv, hgr]
    rcases hcase with ⟨hin, _⟩ | ⟨hbe, _⟩
    · exact h.log.install_inside hm hin hx hg hlt
    · exact h.log.install_beyond hm hbe hb hg hlt
  have hpur : (⟨e.st.lv.vote, some x, x.index + 1, LogIdList.purge e.st.lv.logIds x, some x, some x⟩ : LogV).lastPurged = some x := by
    rw [← hlv, ← hj.1.stp, hgr]; rfl
  have hmj : MemJ e'.st.ms e'.st.lv (g0.runs e'.out) := by
    rw [hlv, hgr]
    have hms : e'.st.ms = ms' := by rw [he2]
    rw [hms]
    rcases hcase with ⟨hin, hsm⟩ | ⟨hbe, hm1, hm2, hm3, hm4⟩
    · exact h.mem.install_inside h.log hin hx hsm hpur hr
    · exact MemJ.install_beyond h.log hbe hm1 hm2 hm3 hm4 hpur rfl hr
  have hlm : LM g0 e' := by
    refine ⟨?_, hj.1, hmj⟩
    rw [hout, Gh.oks_snoc, Gh.oks_snoc, Gh.runs_snoc]
    exact ⟨⟨h.oks, hj.2.1⟩, hj.2.2⟩
  have hfol : Following e' := by
    rw [he2]
    exact ⟨hf.leader, hf.cand, hf.com, hf.node, hf.acc⟩
  refine inv_of_following hlm hfol ?_ ?_
  · rw [hgr]
    have : e'.st.vote = e.st.vote := by rw [he2]
    rw [this]
    exact hg
  · have hac : e'.st.accLast = ({ e.st with io := io } : RState).accLast := by rw [he2]; rfl
    rw [hac]
    intro y hy
    rcases hk y hy with h1 | ⟨h1, h2, h3⟩
    · right; rw [hlv]; exact h1
    · left
      rw [hlv]
      show y ∈ expand (LogIdList.purge e.st.lv.logIds x)
      rw [(expand_purge h.log.sorted x).1, if_neg]
      · exact List.mem_filter.2 ⟨h2, by simpa using h3⟩
      · have := h.log.le_last h1
        show ¬ x.index ≥ nextIndex e.st.lv.last
        omega

/-- the state after the truncation of `install_full_snapshot`, without the snapshot -/
theorem fhInstallTruncate_spec {g0 : Gh} {dbg : Bool} {e e2 : Eng} {m : SnapMeta} {x : LogId} {a : IOId} (h : EInv g0 e)
    (hlt : e.st.committed < some x) (ho : SnapOk e e.st.vote.data m x)
    (ha3 : KnownO e.st.lv a.last) (hal0 : e.st.accLast = a.last)
    (he2 : fhInstallTruncate dbg { e with st := { e.st with snap := m } } x = .ok e2) :
    ∃ e3 : Eng, e2 = { e3 with st := { e3.st with snap := m } } ∧ LM g0 e3 ∧
      e3.cfg = e.cfg ∧ e3.st.vote = e.st.vote ∧ e3.st.committed = e.st.committed ∧ e3.st.io = e.st.io ∧
      e3.leader = e.leader ∧ e3.candidate = e.candidate ∧ (g0.runs e3.out).vote = (g0.runs e.out).vote ∧
      ((x ∈ e.st.lv.L ∧ e3 = e ∧ MemJ.SnapMemInside e3.st.ms x m.mem) ∨
        (x ∉ e.st.lv.L ∧ nextIndex e3.st.lastLogId ≤ x.index ∧ m.mem.logId ≤ some x ∧ nextIndex m.mem.logId ≤ x.index + 1 ∧
          nextIndex e3.st.ms.effective.logId ≤ nextIndex m.mem.logId ∧
          (e3.st.ms.committed.logId < m.mem.logId ∨ e3.st.ms.committed = m.mem))) ∧
      (∀ y, a.last = some y → some y ≤ some x ∨ (x ∈ e3.st.lv.L ∧ y ∈ e3.st.lv.L ∧ x.index ≤ y.index)) := by
  obtain ⟨f1, f2, f3⟩ := floor_parts (e := e) rfl
  have haccx : ∀ y, a.last = some y → y.index ≤ x.index → some y ≤ some x :=
    fun y hy hi => ho.acc y rfl (by rw [hal0, hy]) hi
  unfold fhInstallTruncate at he2
  split at he2
  · next loc hloc =>
    have hloc' : e.st.getLogId x.index = some loc := hloc
    obtain ⟨hlin, hli⟩ := (getLogId_iff h.lm).1 hloc'
    split at he2
    · next hne =>
      obtain ⟨e3, h3, h4⟩ := fhTruncate_snap he2
      have hcf := ho.conflict ⟨loc, hlin, hli, hne⟩
      have h3' : fhTruncate dbg e (nextIndex e.st.committed) = .ok e3 := h3
      obtain ⟨k1, k2⟩ := lm_fhTruncate h.lm (Nat.le_refl _) (fun _ _ _ => hcf) h3'
      have hxl : x ∉ e.st.lv.L := fun hxin => hne (h.lm.log.cons.inj hlin hxin hli)
      obtain ⟨b1, b2, b3, b4, b5⟩ := ho.beyond hxl
      have hfl : e.floor e.st.vote.data ≤ x.index := by
        by_contra hlt'
        exact hne (ho.agree loc hlin hli (by omega))
      refine ⟨e3, h4, k1, k2.cfg, k2.vote, k2.com, k2.acc, k2.leader, k2.cand, k2.gv g0,
        Or.inr ⟨hxl, Nat.le_trans k2.lastLe ho.ahead, b1, b2, ?_, by rw [k2.mcom]; exact b3⟩, ?_⟩
      · -- the effective membership after the truncation
        obtain ⟨y, hy⟩ : ∃ y, e.st.getLogId (nextIndex e.st.committed) = some y := by
          obtain ⟨y, hy1, hy2⟩ := h.lm.log.exists_index (i := nextIndex e.st.committed)
            (Nat.le_trans (purged_le_com h.lm) (by omega))
            (Nat.lt_of_le_of_lt (by rw [hli]; exact ho.ahead) (h.lm.log.le_last hlin))
          exact ⟨y, (getLogId_iff h.lm).2 ⟨hy1, hy2⟩⟩
        unfold fhTruncate at h3'
        rw [bind_ok] at h3'
        obtain ⟨_, _, h3'⟩ := h3'
        rw [hy] at h3'
        simp only [bind_ok] at h3'
        obtain ⟨ms, hms, h3'⟩ := h3'
        have hm3 : e3.st.ms = ms := by
          split at h3' <;> (rw [pure_ok] at h3'; subst h3'; rfl)
        rw [hm3]
        unfold RState.MemState.truncate at hms
        rw [bind_ok] at hms
        obtain ⟨_, _, hms⟩ := hms
        split at hms
        · rw [pure_ok] at hms; subst hms; exact b4
        · next hnn =>
          rw [pure_ok] at hms; subst hms
          rw [some_le_map_index] at hnn
          rcases b5 with ⟨_, hb⟩ | hb
          · omega
          · exact hb
      · intro y hy
        refine Or.inl (haccx y hy ?_)
        rw [hal0, hy] at f3; simp at f3; omega
    · next heq =>
      rw [pure_ok] at he2
      have heq' : loc = x := by by_contra hh; exact heq hh
      subst heq'
      refine ⟨e, he2.symm, h.lm, rfl, rfl, rfl, rfl, rfl, rfl, rfl, Or.inl ⟨hlin, rfl, ho.inside hlin⟩, ?_⟩
      intro y hy
      by_cases hi : y.index ≤ loc.index
      · exact Or.inl (haccx y hy hi)
      · rcases ha3 y hy with hk | hk
        · exact Or.inr ⟨hlin, hk, by omega⟩
        · exact Or.inl (le_of_lt (lt_of_le_of_lt hk hlt))
  · next hnone =>
    have hnone' : e.st.getLogId x.index = none := hnone
    rw [pure_ok] at he2
    have hxl : x ∉ e.st.lv.L := by
      intro hxin
      rw [(getLogId_iff h.lm).2 ⟨hxin, rfl⟩] at hnone'; cases hnone'
    have hpn := purged_le_com h.lm
    have hah := ho.ahead
    have hbe := getLogId_none h.lm hnone' (by omega)
    obtain ⟨b1, b2, b3, b4, b5⟩ := ho.beyond hxl
    refine ⟨e, he2.symm, h.lm, rfl, rfl, rfl, rfl, rfl, rfl, rfl, Or.inr ⟨hxl, hbe, b1, b2, ?_, b3⟩, ?_⟩
    · rcases b5 with ⟨⟨y, hy1, hy2⟩, _⟩ | hb
      · rw [(getLogId_iff h.lm).2 ⟨hy1, hy2⟩] at hnone'; cases hnone'
      · exact hb
    · intro y hy
      rcases ha3 y hy with hk | hk
      · refine Or.inl (haccx y hy ?_)
        have := h.lm.log.le_last hk
        have h9 : nextIndex e.st.lv.last = nextIndex e.st.lastLogId := rfl
        omega
      · exact Or.inl (le_of_lt (lt_of_le_of_lt hk hlt))

theorem inv_fhInstall {g0 : Gh} {dbg : Bool} {e e' : Eng} {m : SnapMeta} {cond : Option Cond} (h : EInv g0 e) (hf : Following e)
    (hs : ∀ x, m.lastLogId = some x → e.st.committed < some x → SnapOk e e.st.vote.data m x)
    (hr : fhInstall dbg e e.st.vote.data m = .ok (cond, e')) : EInv g0 e' := by
  unfold fhInstall at hr
  split at hr
  · rw [pure_ok] at hr; cases hr; exact h
  · next hn =>
    simp only [bind_ok, unwrap_ok] at hr
    obtain ⟨x, hx, hr⟩ := hr
    have hlt : e.st.committed < some x := by rw [← hx]; exact not_le.1 hn
    have ho := hs x hx hlt
    obtain ⟨f1, f2, f3⟩ := floor_parts (e := e) rfl
    unfold updateSnapshot at hr
    split at hr
    · next heq =>
      rw [pure_ok] at hr; cases hr
      split at heq
      · cases heq; exact h
      · cases heq
    · next e1 heq =>
      split at heq
      · cases heq
      · cases heq
        simp only [bind_ok, pure_ok] at hr
        obtain ⟨e2, he2, st, hst, ms', hms', hr⟩ := hr
        cases hr
        obtain ⟨a, ha1, ha2, ha3⟩ := h.pj.acc
        have hal0 : e.st.accLast = a.last := by unfold RState.accLast; rw [ha1]; rfl
        have htr := fhInstallTruncate_spec h hlt ho ha3 hal0 he2
        obtain ⟨e3, q1, q2, q3, q4, q5, q6, q7, q8, q9, q10, q11⟩ := htr
        subst q1
        have hacc1 : ({ e3.st with snap := m } : RState).io.prog.accepted = some a := by
          show e3.st.io.prog.accepted = _; rw [q6]; exact ha1
        obtain ⟨⟨io, hio⟩, hacc, a', ha', hav'⟩ := acceptIo_same (s := { e3.st with snap := m }) hacc1 ha2 hf.com hst
        subst hio
        refine inv_installCore (e := e3) (m := m) (x := x) (ms' := ms') (io := io)
          (srv := _) (ioid := IOId.newLog e.st.vote.data (some x)) q2 ?_ ?_ hx ?_ ?_ ?_ ?_ ?_ hms' rfl
        · exact ⟨by rw [q7]; exact hf.leader, by rw [q8]; exact hf.cand, by show e3.st.vote.data.committed = _; rw [q4]; exact hf.com,
            by show e3.st.vote.data.leaderId.node ≠ e3.cfg.id; rw [q4, q3]; exact hf.node,
            ⟨a', ha', by show _ = e3.st.vote.data; rw [q4]; exact hav'⟩⟩
        · rw [q9, q4]; exact h.pj.gv
        · rw [q4]; exact ho.leader
        · rw [q5]; exact ho.ahead
        · rw [q5]; exact hlt
        · rcases q10 with ⟨h1, rfl, h2⟩ | ⟨_, h2⟩
          · exact Or.inl ⟨h1, h2⟩
          · exact Or.inr h2
        · intro y hy
          have hy' : max a.last (some x) = some y := by rw [← hacc]; exact hy
          rcases max_cases a.last (some x) with h1 | h1
          · rw [h1] at hy'; exact q11 y hy'
          · rw [h1] at hy'; cases hy'; exact Or.inl (le_refl _)

end Eng
end Openraft.Engine
