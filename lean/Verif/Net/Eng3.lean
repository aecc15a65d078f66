import Verif.Net.Eng2

/-!
# The engine agrees with the history: the follower
-/

set_option autoImplicit false
set_option linter.unusedSectionVars false

namespace Openraft.Net
open Openraft.Repl (Panic dassert Inflight)
open Openraft.Engine Openraft.Cluster
open Openraft.VecProgress (AllP BI)

variable {m0 : Membership} [hne : Fact (m0.configs ≠ [])] {g g' : Ghost} {dv dv' : NodeId → Vote} {q : NodeId} {g0 : Gh} {p : Nat} {dbg : Bool} {now : Nat}

/-! ## The log ids of a whole log -/

/-- the log ids of a log whose first entry has index `n` -/
def idsFrom : Nat → Log → List LogId
  | _, [] => []
  | n, e :: l => ⟨e.lid, n⟩ :: idsFrom (n + 1) l

theorem mem_idsFrom {l : Log} {n : Nat} {x : LogId} : x ∈ idsFrom n l ↔ n ≤ x.index ∧ ∃ e, l[x.index - n]? = some e ∧ x.leaderId = e.lid := by
  induction l generalizing n with
  | nil => simp [idsFrom]
  | cons a l ih =>
    rw [idsFrom, List.mem_cons, ih]
    constructor
    · rintro (rfl | ⟨h1, e, h2, h3⟩)
      · exact ⟨le_refl _, a, by simp, rfl⟩
      · refine ⟨by omega, e, ?_, h3⟩
        rw [show x.index - n = (x.index - (n + 1)) + 1 by omega]; exact h2
    · rintro ⟨h1, e, h2, h3⟩
      by_cases hx : x.index = n
      · left
        rw [hx] at h2
        simp only [Nat.sub_self, List.getElem?_cons_zero, Option.some.injEq] at h2
        subst h2
        cases x; simp only at hx h3; subst hx; subst h3; rfl
      · right
        refine ⟨by omega, e, ?_, h3⟩
        rw [show x.index - n = (x.index - (n + 1)) + 1 by omega] at h2; exact h2

theorem mem_ids0 {l : Log} {x : LogId} : x ∈ idsFrom 0 l ↔ idAt l x.index = some x := by
  rw [mem_idsFrom]
  simp only [Nat.zero_le, true_and, Nat.sub_zero]
  constructor
  · rintro ⟨e, he, hx⟩
    exact idAt_some.2 ⟨e, he, by cases x; simp only at hx; subst hx; rfl⟩
  · intro h
    obtain ⟨e, he, hx⟩ := idAt_some.1 h
    exact ⟨e, he, by rw [hx]⟩

theorem cons_idsFrom {l : Log} (n : Nat) (h : ∀ i a b, l[i]? = some a → l[i + 1]? = some b → a.lid ≤ b.lid) : Cons (idsFrom n l) := by
  induction l generalizing n with
  | nil => trivial
  | cons a l ih =>
    have h1 := ih (n + 1) fun i x y hx hy => h (i + 1) x y (by simpa using hx) (by simpa using hy)
    cases l with
    | nil => trivial
    | cons b l => exact ⟨rfl, h 0 a b rfl rfl, h1⟩

/-- the leader ids of a log of the history do not decrease -/
theorem good_mono (hg : GInv m0 g) {l : Log} (hl : Good g l) {i j : Nat} {a b : Entry} (hij : i ≤ j) (ha : l[i]? = some a) (hb : l[j]? = some b) :
    a.lid ≤ b.lid := by
  have hp := hl j b hb
  exact hg.lidLe (i := i) (get_of_pre_some hp (by rw [get_take (by omega)]; exact ha))

theorem cons_ids (hg : GInv m0 g) {l : Log} (hl : Good g l) : Cons (idsFrom 0 l) :=
  cons_idsFrom 0 fun _ _ _ ha hb => good_mono hg hl (by omega) ha hb

/-- positions of a log of the history are ordered as their indexes -/
theorem idAt_le (hg : GInv m0 g) {l : Log} (hl : Good g l) {x y : LogId} (hx : idAt l x.index = some x) (hy : idAt l y.index = some y)
    (hle : x ≤ y) : x.index ≤ y.index :=
  ((cons_ids hg hl).le_iff (mem_ids0.2 hx) (mem_ids0.2 hy)).1 hle

theorem idAt_lt' (hg : GInv m0 g) {l : Log} (hl : Good g l) {x y : LogId} (hx : idAt l x.index = some x) (hy : idAt l y.index = some y)
    (hle : x < y) : x.index < y.index :=
  ((cons_ids hg hl).lt_iff (mem_ids0.2 hx) (mem_ids0.2 hy)).1 hle

/-! ## The engine's log ids in the whole log -/

theorem elog_mem {e : Eng} (h : LM g0 e) (hv : VS g dv q (g0.runs e.out)) {x : LogId} (hx : x ∈ e.st.lv.L) : idAt (elog g g0 e) x.index = some x := by
  rw [h.log.cpl, ← h.log.stp] at hx
  exact hv.st.idAt_mem hx

theorem elog_len {e : Eng} (h : LM g0 e) (hv : VS g dv q (g0.runs e.out)) : (elog g g0 e).length = nextIndex e.st.lastLogId := by
  have := hv.st.len_last
  rw [h.log.store_last] at this
  exact this

theorem elog_idAt {e : Eng} (h : LM g0 e) (hv : VS g dv q (g0.runs e.out)) {x : LogId} (hx : idAt (elog g g0 e) x.index = some x)
    (hi : e.st.lv.purgedNext ≤ x.index + 1) : x ∈ e.st.lv.L := by
  rw [h.log.cpl, ← h.log.stp]
  refine hv.st.mem_idAt hx ?_
  rw [h.log.stp, ← h.log.pn]; exact hi

theorem eff_memOf {e : Eng} (h : LM g0 e) (hv : VS g dv q (g0.runs e.out)) : e.st.ms.effective = memOf (elog g g0 e) := by
  have h1 := h.mem.eff
  have h2 := hv.mems_last
  rw [h1] at h2
  exact Option.some.inj h2

/-- an append-entries request of the leader of `v` -/
structure AppPkt (g : Ghost) (v : Vote) (prev : Option LogId) (es : List Ent) (lc : Option LogId) : Prop where
  com : v.committed = true
  el : ∃ S, g.el v.leaderId = some S
  prevIn : ∀ x, prev = some x → idAt (g.ll v.leaderId) x.index = some x
  ents : es.map toEntry = ((g.ll v.leaderId).drop (nextIndex prev)).take es.length
  idx : ∀ i e, es[i]? = some e → e.id.index = nextIndex prev + i
  lcOk : ∀ x, lc = some x → Val g x ∧ CVote g v (cont g lc)

theorem AppPkt.get {v : Vote} {prev : Option LogId} {es : List Ent} {lc : Option LogId} (h : AppPkt g v prev es lc) {i : Nat} {e : Ent}
    (he : es[i]? = some e) : (g.ll v.leaderId)[nextIndex prev + i]? = some (toEntry e) := by
  have h1 : (es.map toEntry)[i]? = some (toEntry e) := by rw [List.getElem?_map, he]; rfl
  rw [h.ents, get_take (lt_of_get he), List.getElem?_drop] at h1
  exact h1

theorem AppPkt.idAt {v : Vote} {prev : Option LogId} {es : List Ent} {lc : Option LogId} (h : AppPkt g v prev es lc) {e : Ent}
    (he : e ∈ es) : idAt (g.ll v.leaderId) e.id.index = some e.id := by
  obtain ⟨i, hi⟩ := List.getElem?_of_mem he
  have h1 := h.get hi
  have h2 := h.idx i e hi
  refine idAt_some.2 ⟨toEntry e, by rw [h2]; exact h1, rfl⟩

theorem AppPkt.lcIn (hm0 : m0.configs ≠ []) (hg : GInv m0 g) {v : Vote} {prev : Option LogId} {es : List Ent} {lc : Option LogId}
    (h : AppPkt g v prev es lc) {x : LogId} (hx : lc = some x) : cont g lc <+: g.ll v.leaderId ∧ Openraft.Cluster.idAt (g.ll v.leaderId) x.index = some x := by
  obtain ⟨h1, h2⟩ := h.lcOk x hx
  have h3 := h2.ll hg (le_refl _) h.el
  refine ⟨h3, idAt_pre h3 ?_⟩
  rw [hx]; exact cont_last h1

theorem AppPkt.cons (hg : GInv m0 g) {v : Vote} {prev : Option LogId} {es : List Ent} {lc : Option LogId} (h : AppPkt g v prev es lc) :
    Cons (es.map (·.id)) := by
  have hlist : es.map (·.id) = idsFrom (nextIndex prev) (es.map toEntry) := by
    have : ∀ (n : Nat) (xs : List Ent), (∀ i e, xs[i]? = some e → e.id.index = n + i) → xs.map (·.id) = idsFrom n (xs.map toEntry) := by
      intro n xs
      induction xs generalizing n with
      | nil => intro _; rfl
      | cons a xs ih =>
        intro hx
        rw [List.map_cons, List.map_cons, idsFrom, ih (n + 1) fun i e he => by have := hx (i + 1) e (by simpa using he); omega]
        congr 1
        have := hx 0 a rfl
        show a.id = ⟨a.id.leaderId, n⟩
        cases hid : a.id; rw [hid] at this; simp only at this; subst this; rfl
    exact this _ _ h.idx
  rw [hlist]
  refine cons_idsFrom _ fun i a b ha hb => ?_
  rw [List.getElem?_map] at ha hb
  cases h1 : es[i]? with
  | none => rw [h1] at ha; cases ha
  | some x =>
    cases h2 : es[i + 1]? with
    | none => rw [h2] at hb; cases hb
    | some y =>
      rw [h1] at ha; rw [h2] at hb
      cases ha; cases hb
      exact good_mono hg (hg.goodL _) (by omega) (h.get h1) (h.get h2)

/-- the log of an elected leader and the engine's log -/
theorem leadLog_of (hg : GInv m0 g) {e : Eng} (h : EInv g0 e) (hn : EN g dv q g0 p e) {v : Vote} (hpc : v.committed = true)
    (hpe : ∃ S, g.el v.leaderId = some S) (hq : v.leaderId.node ≠ q) (hle : e.st.vote.data ≤ v) :
    LeadLog (idsFrom 0 (g.ll v.leaderId)) v e.st.lv.L (e.floor v) := by
  have hvs := hn.sq.endVS hg h.lm.oks
  have hgood := hg.goodL v.leaderId
  have hmat : ∀ x ∈ e.st.lv.L, idAt (g.ll v.leaderId) x.index = some x → ∀ y ∈ e.st.lv.L, y.index ≤ x.index →
      idAt (g.ll v.leaderId) y.index = some y := by
    intro x hx hxl y hy hyx
    have h1 := match_of_idAt hvs.good hgood (elog_mem h.lm hvs hx) hxl
    have h2 := elog_mem h.lm hvs hy
    obtain ⟨a, ha, hya⟩ := idAt_some.1 h2
    refine idAt_some.2 ⟨a, ?_, hya⟩
    have h3 : ((logOf g (g0.runs e.out)).take (x.index + 1))[y.index]? = some a := by rw [get_take (by omega)]; exact ha
    rw [h1, get_take (by omega)] at h3
    exact h3
  have hpre : ∀ n, CVote g v ((elog g g0 e).take n) → ∀ x ∈ e.st.lv.L, x.index < n → idAt (g.ll v.leaderId) x.index = some x := by
    intro n hc x hx hi
    have h1 := hc.ll hg (le_refl _) hpe
    refine idAt_pre h1 ?_
    obtain ⟨a, ha, hxa⟩ := idAt_some.1 (elog_mem h.lm hvs hx)
    exact idAt_some.2 ⟨a, by rw [get_take hi]; exact ha, hxa⟩
  have hcom : CVote g v ((elog g g0 e).take (nextIndex e.st.committed)) := by
    have := hvs.comT (lm_anch h.lm hvs)
    rw [h.lm.log.com, h.pj.gv] at this
    exact this.le hle
  have hll : LeadLog (idsFrom 0 (g.ll v.leaderId)) v e.st.lv.L (e.floor v) := by
    refine ⟨cons_ids hg hgood, ?_, ?_, fun x hx hxl y hy hyx => mem_ids0.2 (hmat x hx (mem_ids0.1 hxl) y hy hyx)⟩
    · intro x hx
      obtain ⟨a, ha, hxa⟩ := idAt_some.1 (mem_ids0.1 hx)
      rw [hxa]; exact hg.lidLe ha
    · intro x hx hi
      refine mem_ids0.2 ?_
      unfold Eng.floor at hi
      rw [lt_max_iff, lt_max_iff] at hi
      rcases hi with (hi | hi) | hi
      · exact hpre _ hcom x hx hi
      · cases hy : e.st.ms.committed.logId with
        | none => rw [hy] at hi; simp at hi
        | some y =>
          rw [hy] at hi
          exact hpre _ ((hn.ec.mcom' hg h hvs hy).le hle) x hx hi
      · split at hi
        · next hv =>
          cases ha : e.st.accLast with
          | none => rw [ha] at hi; simp at hi
          | some a =>
            rw [ha] at hi
            simp only [nextIndex_some] at hi
            have hal := hn.ec.acc (by rw [hv]; exact hpc) (by rw [hv]; exact hq) a ha
            rw [hv] at hal
            obtain ⟨io, hio, _, hk⟩ := h.pj.acc
            have hio' : io.last = some a := by
              unfold RState.accLast at ha; rw [hio] at ha; exact ha
            rcases hk a hio' with hk | hk
            · exact hmat a hk hal x hx (by omega)
            · have hk : some a ≤ e.st.committed := hk
              cases hc : e.st.committed with
              | none => rw [hc] at hk; exact absurd hk (by exact fun h => h)
              | some c =>
                rw [hc] at hk
                have hcL := h.lm.log.comIn c hc
                have h1 := hpre _ hcom c hcL (by rw [hc]; simp)
                have h2 := idAt_le hg hgood hal h1 hk
                exact hpre _ hcom x hx (by rw [hc]; simp only [nextIndex_some]; omega)
        · omega
  exact hll

/-- the premises of the engine about a request hold when it comes from the history -/
theorem appendOk_of (hm0 : m0.configs ≠ []) (hg : GInv m0 g) {e : Eng} (h : EInv g0 e) (hn : EN g dv q g0 p e) {v : Vote} {prev : Option LogId}
    {es : List Ent} {lc : Option LogId} (hp : AppPkt g v prev es lc) (hq : v.leaderId.node ≠ q) (hle : e.st.vote.data ≤ v) :
    LeadLog (idsFrom 0 (g.ll v.leaderId)) v e.st.lv.L (e.floor v) ∧
    AppendOk e v prev es lc := by
  have hll := leadLog_of hg h hn hp.com hp.el hq hle
  refine ⟨hll, by rw [hn.id]; exact hq, hp.com, _, hll, fun x hx => mem_ids0.2 (hp.prevIn x hx), fun x hx => mem_ids0.2 (hp.idAt hx), hp.cons hg, ?_,
    fun x hx => mem_ids0.2 (hp.lcIn hm0 hg hx).2⟩
  intro x hx
  have := hp.idx 0 x (by rw [← List.head?_eq_getElem?]; exact hx)
  omega

end Openraft.Net
