import Verif.Engine.Demo
import Verif.Engine.Emits
import Verif.Spec.Commands

/-!
# One node's engine: C05, C06, C17, C19, C20, C21, C30, C33, C40, C43

`EInv g0 e`: `e` is a valid state and `g0` what is stored when its list of commands starts. A node's first
state is valid (`Eng.fresh_inv`), a restarted one is if its storage is sound (`Eng.inv_startup`), and every
input keeps it valid (`Eng.inv_input`). `InputOk` is what the node assumes about an input.
-/

set_option autoImplicit false

namespace Openraft.Props
open Openraft Openraft.Engine Openraft.Engine.Demo
open Openraft.Cluster (Payload)
open LogIdList

variable {g0 : Gh} {dbg : Bool} {now : Nat} {e e' e0 : Eng} {i : Input}

/-! ## The commands and the abstract node -/

theorem follows_of_oks {g : Gh} {cs : List Cmd} (h : g.Oks cs) : Spec.Follows g.com cs ∧ Spec.smEnd g.com cs = (g.runs cs).com := by
  induction cs generalizing g with
  | nil => exact ⟨trivial, rfl⟩
  | cons c cs ih =>
    obtain ⟨h1, h2⟩ := h
    have := ih h2
    cases c with
    | apply prev upto => exact ⟨⟨h1.1, h1.2.2.1, h1.2.2.2.1, this.1⟩, this.2⟩
    | sm s =>
      cases s with
      | install m io =>
        obtain ⟨⟨x, hx, h3, h4, _⟩, -⟩ := h1
        refine ⟨⟨?_, by rw [hx]; exact h4, this.1⟩, this.2⟩
        rw [hx]; simp; omega
      | build => exact this
      | apply f l => exact this
    | _ => exact this

theorem follows_mono {p : Option LogId} {cs : List Cmd} (h : Spec.Follows p cs) : p ≤ Spec.smEnd p cs := by
  induction cs generalizing p with
  | nil => exact le_refl _
  | cons c cs ih =>
    cases c with
    | apply prev upto => exact le_trans (le_of_lt h.2.2.1) (ih h.2.2.2)
    | sm s =>
      cases s with
      | install m io => exact le_trans (le_of_lt h.2.1) (ih h.2.2)
      | build => exact ih (p := p) h
      | apply f l => exact ih (p := p) h
    | _ => exact ih (p := p) h

theorem votes_of_oks {g : Gh} {cs : List Cmd} (h : g.Oks cs) : Spec.VotesGrow g.vote cs ∧ Spec.lastVote g.vote cs = (g.runs cs).vote := by
  induction cs generalizing g with
  | nil => exact ⟨trivial, rfl⟩
  | cons c cs ih =>
    obtain ⟨h1, h2⟩ := h
    have := ih h2
    cases c with
    | saveVote v => exact ⟨⟨h1, this.1⟩, this.2⟩
    | sm s => cases s <;> exact this
    | _ => exact this

theorem votes_mono {v : Vote} {cs : List Cmd} (h : Spec.VotesGrow v cs) : v ≤ Spec.lastVote v cs := by
  induction cs generalizing v with
  | nil => exact le_refl _
  | cons c cs ih =>
    cases c with
    | saveVote w => exact le_trans (le_of_lt h.1) (ih h.2)
    | _ => exact ih (v := v) h

theorem purges_of_oks {g : Gh} {cs : List Cmd} (h : g.Oks cs) :
    Spec.PurgesGrow g.store.purged cs ∧ nextIndex g.store.purged ≤ nextIndex (g.runs cs).store.purged := by
  induction cs generalizing g with
  | nil => exact ⟨trivial, Nat.le_refl _⟩
  | cons c cs ih =>
    obtain ⟨h1, h2⟩ := h
    have := ih h2
    cases c with
    | purge u =>
      refine ⟨⟨h1.1, this.1⟩, Nat.le_trans ?_ this.2⟩
      show nextIndex g.store.purged ≤ u.index + 1
      have := h1.1; omega
    | sm s => cases s <;> exact this
    | _ => exact this

theorem log_of_runs (g : Gh) (cs : List Cmd) : (g.runs cs).store.entries = Spec.logAfter g.store.entries cs := by
  induction cs generalizing g with
  | nil => rfl
  | cons c cs ih =>
    have := ih (g.run c)
    cases c with
    | sm s => cases s <;> exact this
    | _ => exact this

/-- the commands of one input, after those that were there -/
theorem step_cmds (h : EInv g0 e) (ho : InputOk e i) (hr : e.input dbg now i = .ok e') :
    ∃ cs, e'.out = e.out ++ cs ∧ (g0.runs e.out).Oks cs ∧ g0.runs e'.out = (g0.runs e.out).runs cs ∧ EInv g0 e' := by
  obtain ⟨_, cs, hcs⟩ := Eng.grow_input e i e' hr
  have h' := Eng.inv_input h ho hr
  have ho := h'.lm.oks
  have hcs' : e'.out = e.out ++ cs := hcs.symm
  rw [hcs', Gh.oks_append] at ho
  exact ⟨cs, hcs', ho.2, by rw [hcs', Gh.runs_append], h'⟩

/-! ## C05 -/

/-- The committed log id never goes back. -/
theorem C05_committed_forward (h : EInv g0 e) (ho : InputOk e i) (hr : e.input dbg now i = .ok e') :
    e.st.committed ≤ e'.st.committed := by
  obtain ⟨cs, _, h2, h3, h'⟩ := step_cmds h ho hr
  have h4 := follows_of_oks h2
  have h5 := follows_mono h4.1
  rw [h4.2, ← h3] at h5
  have h6 : (g0.runs e.out).com = e.st.committed := h.lm.log.com
  have h7 : (g0.runs e'.out).com = e'.st.committed := h'.lm.log.com
  rw [h6, h7] at h5
  exact h5

/-- In every execution the apply ranges and the installed snapshots follow each other, and the committed
position is where they end. -/
theorem C05_contiguous (h0 : EInv g0 e0) (h : Eng.Run dbg e0 e) :
    Spec.Follows g0.com e.out ∧ Spec.smEnd g0.com e.out = e.st.committed := by
  have hi := h.inv h0
  have := follows_of_oks hi.lm.oks
  exact ⟨this.1, this.2.trans hi.lm.log.com⟩

/-- the follower of the demo commits in two steps -/
example : Spec.Follows none f3.out ∧ Spec.smEnd none f3.out = some (lid 2 3 2) :=
  C05_contiguous f0_inv f3_reach

example : f2.st.committed < f3.st.committed ∧ f2.st.committed = some (lid 1 2 1) := by decide +kernel

/-! ## C06, in memory -/

/-- The vote in memory never goes back. -/
theorem C06_vote_forward (h : EInv g0 e) (ho : InputOk e i) (hr : e.input dbg now i = .ok e') :
    e.st.vote.data ≤ e'.st.vote.data := by
  obtain ⟨cs, _, h2, h3, h'⟩ := step_cmds h ho hr
  have h4 := votes_of_oks h2
  have h5 := votes_mono h4.1
  rw [h4.2, ← h3, h.pj.gv, h'.pj.gv] at h5
  exact h5

/-- In every execution each vote handed to the storage is greater than the one before, and the last one
is the vote in memory. -/
theorem C06_saved_votes (h0 : EInv g0 e0) (h : Eng.Run dbg e0 e) :
    Spec.VotesGrow g0.vote e.out ∧ Spec.lastVote g0.vote e.out = e.st.vote.data := by
  have hi := h.inv h0
  have := votes_of_oks hi.lm.oks
  exact ⟨this.1, this.2.trans hi.pj.gv⟩

example : Spec.VotesGrow Gh.empty.vote f3.out ∧ Spec.lastVote Gh.empty.vote f3.out = v3 :=
  C06_saved_votes f0_inv f3_reach

example : f2.st.vote.data < f3.st.vote.data := by decide +kernel

/-! ## C17 -/

theorem noHole_of_cons {l : List LogId} (h : Cons l) : Spec.NoHole l := by
  induction l with
  | nil => trivial
  | cons a r ih =>
    cases r with
    | nil => trivial
    | cons b r => exact ⟨h.1, ih h.2.2⟩

/-- What an append-entries request does to the log: nothing at or below the committed position is removed;
what is removed lies at or above an id of the request that the log contradicts; what is added comes from
the request; no hole; after success the log holds the request, except what is committed already. -/
theorem C17_append {v : Vote} {prev : Option LogId} {es : List Ent} {lc : Option LogId} {r : AppendResp}
    (h : EInv g0 e) (ho : InputOk e (.appendReq 0 v prev es lc))
    (hr : e.appendEntries dbg now v prev es = .ok (r, e')) :
    (∀ x ∈ expand e.st.logIds, x.index < nextIndex e.st.committed → x ∈ expand e'.st.logIds) ∧
    (∀ x ∈ expand e.st.logIds, x ∉ expand e'.st.logIds →
      ∃ y, (prev = some y ∨ y ∈ es.map (·.id)) ∧ y ∉ expand e.st.logIds ∧
        nextIndex e.st.committed ≤ y.index ∧ y.index ≤ x.index) ∧
    (∀ x ∈ expand e'.st.logIds, x ∉ expand e.st.logIds → x ∈ es.map (·.id)) ∧
    Spec.NoHole (expand e'.st.logIds) ∧
    (r = .success → (∀ p, prev = some p → p ∈ expand e'.st.logIds ∨ some p ≤ e.st.committed) ∧
      ∀ x ∈ es, x.id ∈ expand e'.st.logIds ∨ some x.id ≤ e.st.committed) := by
  obtain ⟨h1, h2, h3⟩ := Eng.appendEntries_shape h ho hr
  have h4 := (Eng.inv_appendEntries h ho hr).1
  refine ⟨h1.keepCom, h1.cut, h1.new, noHole_of_cons h4.lm.log.cons, fun hs => ⟨fun p hp => ?_, (h3 hs).2⟩⟩
  rcases (h3 hs).1 p hp with h5 | h5
  · exact Or.inl h5
  · right
    have : some p ≤ e'.st.committed := h5
    rw [h2] at this; exact this

/-- An id that the log shares with the request is never removed. -/
theorem C17_keeps_agreeing {v : Vote} {prev : Option LogId} {es : List Ent} {lc : Option LogId} {r : AppendResp}
    (h : EInv g0 e) (ho : InputOk e (.appendReq 0 v prev es lc)) (hv : e.st.vote.data ≤ v)
    (hr : e.appendEntries dbg now v prev es = .ok (r, e')) {x : LogId} (hx : x ∈ expand e.st.logIds)
    (hxr : prev = some x ∨ x ∈ es.map (·.id)) : x ∈ expand e'.st.logIds := by
  by_contra hn
  obtain ⟨h1, _, _⟩ := Eng.appendEntries_shape h ho hr
  obtain ⟨y, hy1, hy2, hyc, hy3⟩ := h1.cut x hx hn
  obtain ⟨_, _, lead, hl, hp, hes, _⟩ := ho hv
  have hin : ∀ z, prev = some z ∨ z ∈ es.map (·.id) → z ∈ lead := by
    intro z hz
    rcases hz with hz | hz
    · exact hp z hz
    · obtain ⟨w, hw, rfl⟩ := List.mem_map.1 hz; exact hes w hw
  -- the log has an id at the index of `y`, and the leader has it too
  have hpc := Eng.purged_le_com h.lm
  obtain ⟨z, hz, hzi⟩ := h.lm.log.exists_index (i := y.index) (by show e.st.purgedNext ≤ _; omega)
    (Nat.lt_of_le_of_lt hy3 (h.lm.log.le_last hx))
  have hzl := hl.mat x hx (hin x hxr) z hz (by omega)
  rw [hl.cons.inj (hin y hy1) hzl hzi.symm] at hy2
  exact hy2 hz

/-- the follower of the demo drops entries 2 and 3 of leader 2 and keeps the entries it shares -/
example : ∃ r e', f2.appendEntries true 3 v3 (some (lid 1 2 1)) [⟨lid 2 3 2, .normal 7⟩] = .ok (r, e') ∧
    expand f2.st.logIds = [lid 1 2 0, lid 1 2 1, lid 1 2 2, lid 1 2 3] ∧
    expand e'.st.logIds = [lid 1 2 0, lid 1 2 1, lid 2 3 2] ∧
    EInv Gh.empty f2 ∧ InputOk f2 (.appendReq 0 v3 (some (lid 1 2 1)) [⟨lid 2 3 2, .normal 7⟩] (some (lid 2 3 2))) := by
  refine ⟨.success, _, rfl, by decide +kernel, by decide +kernel, f2_inv, f3_in⟩

/-! ## C19 -/

theorem pos_le {L : List LogId} (hc : Cons L) {a b : Option LogId} (ha : ∀ x, a = some x → x ∈ L)
    (hb : ∀ x, b = some x → x ∈ L) (h : nextIndex a ≤ nextIndex b) : a ≤ b := by
  cases a with
  | none => exact OptOrd.none_le' _
  | some x =>
    cases b with
    | none => simp at h
    | some y => exact (hc.le_iff (ha x rfl) (hb y rfl)).2 (by simpa using h)

/-- The log positions are ordered in every state of every execution. Missing from C19: the order
`flushed ≤ submitted ≤ accepted` of the write progress and of the positions the storage has reached,
which the code does not keep (see `C19_snapshot_position_goes_back`). -/
theorem C19_positions_ordered_partial (h0 : EInv g0 e0) (h : Eng.Run dbg e0 e) :
    e.st.lastPurged ≤ e.st.purgeUpto ∧ e.st.purgeUpto ≤ e.st.snap.lastLogId ∧
    e.st.snap.lastLogId ≤ e.st.committed ∧ e.st.committed ≤ e.st.lastLogId := by
  have hj := (h.inv h0).lm.log
  have hc := hj.cons
  refine ⟨pos_le hc (fun x hx => hj.purged_mem hx) hj.uptoIn ?_, pos_le hc hj.uptoIn hj.snapIn hj.ord2,
    pos_le hc hj.snapIn hj.comIn hj.ord3, pos_le hc hj.comIn (fun x hx => hj.last_mem hx) hj.com_le_last⟩
  have := hj.pn
  rw [show nextIndex e.st.lastPurged = e.st.lv.purgedNext from this.symm]
  exact hj.ord1

example : g6.st.lastPurged = some (lid 1 1 1) ∧ g6.st.purgeUpto = some (lid 1 1 1) ∧
    g6.st.snap.lastLogId = some (lid 1 1 2) ∧ g6.st.committed = some (lid 1 1 2) := by decide +kernel

/-- a follower that installs a snapshot while it builds an older one -/
def w19 : List (Nat × List LogId × Input) := [
  (1, [lid 1 2 0, lid 1 2 1], i1), (2, [lid 1 2 0, lid 1 2 1, lid 1 2 2, lid 1 2 3], i2),
  (3, [], .snapshotCmd),
  (4, [], .snapReq 9 v2 ⟨some (lid 1 2 3), ⟨some (lid 1 2 0), m3⟩, 5⟩),
  (5, [], .installed ⟨v2, some (lid 1 2 3)⟩ ⟨some (lid 1 2 3), ⟨some (lid 1 2 0), m3⟩, 5⟩)]
/-- its state after the snapshot was installed -/
def s19 : Eng := runTo f0 w19
/-- the older snapshot -/
def b19 : SnapMeta := ⟨some (lid 1 2 1), ⟨some (lid 1 2 0), m3⟩, 6⟩
theorem s19_run : Eng.Run true f0 s19 := run_of_allOk .refl (by decide +kernel)

/-- A snapshot that was being built when a newer one was installed moves the reached snapshot position
back; debug builds abort. -/
theorem C19_snapshot_position_goes_back : ∃ (e e' : Eng) (m : SnapMeta), Eng.Run true f0 e ∧ InputOk e (.built m) ∧
    e.input false 9 (.built m) = .ok e' ∧ e'.st.io.snapshot < e.st.io.snapshot ∧
    e.input true 9 (.built m) = .error .debugAssert :=
  ⟨s19, afterR false 9 s19 (.built b19), b19, s19_run, fun h => absurd h (by decide +kernel),
    afterR_ok (by decide +kernel), by decide +kernel, stops_some (by decide +kernel)⟩

/-! ## C20 -/

/-- The purged position never goes back, and each purge goes beyond the one before. -/
theorem C20_purges_forward (h0 : EInv g0 e0) (h : Eng.Run dbg e0 e) : Spec.PurgesGrow g0.store.purged e.out :=
  (purges_of_oks (h.inv h0).lm.oks).1

/-- Every input keeps the purged position or moves it forward, to a position a snapshot covers. -/
theorem C20_purge_covered (h : EInv g0 e) (ho : InputOk e i) (hr : e.input dbg now i = .ok e') :
    nextIndex e.st.lastPurged ≤ nextIndex e'.st.lastPurged ∧ e'.st.lastPurged ≤ e'.st.snap.lastLogId := by
  obtain ⟨cs, _, h2, h3, h'⟩ := step_cmds h ho hr
  have h4 := (purges_of_oks h2).2
  rw [← h3, h'.lm.log.stp, h.lm.log.stp] at h4
  have hj := h'.lm.log
  refine ⟨h4, pos_le hj.cons (fun x hx => hj.purged_mem hx) hj.snapIn ?_⟩
  have h5 := hj.ord1
  have h6 := hj.ord2
  have h7 : nextIndex e'.st.lastPurged = e'.st.lv.purgedNext := hj.pn.symm
  have h8 : nextIndex e'.st.snap.lastLogId = nextIndex e'.st.lv.snap := rfl
  omega

/-- purges none -/
private def NoPurge (c : Cmd) : Prop := ∀ u, c ≠ .purge u
private instance : Lets NoPurge := ⟨fun c hc u h => by subst h; cases hc⟩
private instance : LetsVote NoPurge := ⟨fun _ _ h => by cases h⟩
private instance : LetsAsk NoPurge := ⟨fun _ _ _ h => by cases h⟩
private instance : LetsTrunc NoPurge := ⟨fun _ _ h => by cases h⟩
private instance : LetsInstall NoPurge := ⟨fun _ _ _ h => by cases h⟩
private instance : LetsAnswer NoPurge := ⟨fun _ _ _ _ h => by cases h⟩

/-- no range of logs in flight that needs a log at or below `u` -/
def NothingInFlight (l : Leader) (u : LogId) : Prop :=
  ∀ n ∈ Eng.progIds l, ∀ a b, (l.progress.ent n).inflight = .logs a b → some u ≤ a

theorem logPurge_leader (e : Eng) : e.logPurge.leader = e.leader := by
  unfold Eng.logPurge
  split
  · rfl
  · split <;> rfl

/-- `try_purge_log` of a leader -/
theorem tryPurge_leader {e : Eng} {l : Leader} (hl : e.leader = some l) : (e.rhTryPurge l).leader = some l ∧
    ∃ cs, (e.rhTryPurge l).out = e.out ++ cs ∧ ∀ u, .purge u ∈ cs → NothingInFlight l u := by
  unfold Eng.rhTryPurge
  split
  · exact ⟨hl, [], by simp, by simp⟩
  · next hn =>
    cases hu : e.st.purgeUpto with
    | none => exact ⟨hl, [], by simp, by simp⟩
    | some upto =>
      dsimp only
      split
      · exact ⟨hl, [], by simp, by simp⟩
      · next hf =>
        refine ⟨by rw [logPurge_leader]; exact hl, [.purge upto], ?_, ?_⟩
        · unfold Eng.logPurge
          rw [if_neg hn, hu]; rfl
        · intro u hm n hn a b hab
          have : u = upto := by simpa using hm
          subst this
          have hf' : ∀ n ∈ Eng.progIds l, (l.progress.ent n).isLogRangeInflight u = false := by
            simpa using hf
          have := hf' n hn
          unfold Repl.Entry.isLogRangeInflight at this
          rw [hab] at this
          exact not_lt.1 (by simpa using this)

theorem emits_cs {P : Cmd → Prop} {e e' : Eng} {cs : List Cmd} (h : Emits P e e') (hcs : e'.out = e.out ++ cs) :
    ∀ c ∈ cs, P c := by
  obtain ⟨ds, h1, h2⟩ := h
  rw [h1] at hcs
  rw [← List.append_cancel_left hcs]; exact h2

/-- installing a snapshot does not touch the leader -/
theorem fhInstall_leader {v : Vote} {m : SnapMeta} {c : Option Cond} (hr : e.fhInstall dbg v m = .ok (c, e')) :
    e'.leader = e.leader := by
  have hus : ∀ e1 : Eng, e1.updateServerState.leader = e1.leader := by
    intro e1; unfold Eng.updateServerState; rfl
  have ht : ∀ (e1 e2 : Eng) (n : Nat), Eng.fhTruncate dbg e1 n = .ok e2 → e2.leader = e1.leader := by
    intro e1 e2 n h
    unfold Eng.fhTruncate at h
    rw [bind_ok] at h
    obtain ⟨_, _, h⟩ := h
    split at h
    · rw [pure_ok] at h; rw [h]
    · rw [bind_ok] at h
      obtain ⟨_, _, h⟩ := h
      dsimp only at h
      split at h <;> (rw [pure_ok] at h; rw [← h])
      · rw [hus]; rfl
      · rfl
  unfold Eng.fhInstall at hr
  split at hr
  · rw [pure_ok] at hr; cases hr; rfl
  · rw [bind_ok] at hr
    obtain ⟨last, _, hr⟩ := hr
    unfold Eng.updateSnapshot at hr
    split at hr
    · next e1 heq =>
      rw [pure_ok] at hr; cases hr
      split at heq <;> cases heq
      rfl
    · next e1 heq =>
      split at heq
      · cases heq
      · simp only [Prod.mk.injEq, true_and] at heq
        simp only [bind_ok, pure_ok] at hr
        obtain ⟨e2, he2, st, _, ms, _, hr⟩ := hr
        simp only [Prod.mk.injEq] at hr
        rw [← hr.2, logPurge_leader]
        have h2 : e2.leader = e1.leader := by
          unfold Eng.fhInstallTruncate at he2
          split at he2
          · split at he2
            · exact ht _ _ _ he2
            · rw [pure_ok] at he2; rw [he2]
          · rw [pure_ok] at he2; rw [he2]
        show (Eng.updateServerState _).leader = _
        rw [hus]
        show e2.leader = _
        rw [h2, ← heq]

/-- the index of what `LogIdList::get` returns -/
theorem get_index {ks : LogIdList} {n : Nat} {x : LogId} (h : LogIdList.get ks n = some x) : x.index = n := by
  unfold LogIdList.get at h
  split at h
  · rw [Option.map_eq_some_iff] at h
    obtain ⟨k, _, h⟩ := h; rw [← h]
  · split at h
    · cases h
    · rw [Option.map_eq_some_iff] at h
      obtain ⟨k, _, h⟩ := h; rw [← h]

/-- A leader never purges a log that a replication in flight needs. -/
theorem C20_not_in_flight {cs : List Cmd} {u : LogId} {l : Leader} (h : EInv g0 e) (ho : InputOk e i)
    (hr : e.input dbg now i = .ok e') (hcs : e'.out = e.out ++ cs) (hu : .purge u ∈ cs) (hl : e'.leader = some l) :
    NothingInFlight l u := by
  by_cases hi : i.mayPurge = false
  · exact absurd rfl (emits_cs (P := NoPurge) (Eng.emits_input e i hi e' hr) hcs _ hu u)
  · -- the state before `try_purge_log`
    have hgo : ∀ e1 : Eng, Emits NoPurge e e1 → ∀ e2 : Eng, e2 = e1.tryPurge → e'.leader = e2.leader →
        e'.out = e2.out → NothingInFlight l u := by
      intro e1 hem e2 he2 h1 h2
      subst he2
      unfold Eng.tryPurge at h1 h2
      cases hl1 : e1.leader with
      | none =>
        rw [hl1] at h1
        dsimp only at h1
        rw [logPurge_leader, hl1, hl] at h1; cases h1
      | some l1 =>
        rw [hl1] at h1 h2
        dsimp only at h1 h2
        obtain ⟨h3, ds, h4, h5⟩ := tryPurge_leader hl1
        rw [h3, hl] at h1; cases h1
        obtain ⟨bs, hb1, hb2⟩ := hem
        have h6 : e.out ++ cs = e.out ++ (bs ++ ds) := by rw [← hcs, h2, h4, hb1, List.append_assoc]
        rw [List.append_cancel_left h6] at hu
        rcases List.mem_append.1 hu with hu | hu
        · exact absurd rfl (hb2 _ hu u)
        · exact h5 u hu
    cases i with
    | snapReq tx v m =>
      -- afterwards there is no leader, or nothing was done
      exfalso
      have hr' : e.handleInstall dbg now tx v m = .ok e' := hr
      unfold Eng.handleInstall at hr'
      rw [bind_ok] at hr'
      obtain ⟨⟨ok, e1⟩, he1, hr'⟩ := hr'
      have hok : ok = true ↔ e.st.vote.data ≤ v := by
        unfold Eng.updateVote at he1
        split at he1
        · next hle =>
          simp only [bind_ok, pure_ok] at he1
          obtain ⟨_, _, _, _, he1⟩ := he1
          cases he1; simp [hle]
        · next hle => rw [pure_ok] at he1; cases he1; simp [hle]
      cases ok with
      | false =>
        simp only [Bool.false_eq_true, if_false, pure_ok] at hr'
        have he : e1 = e := by
          unfold Eng.updateVote at he1
          split at he1
          · simp only [bind_ok, pure_ok] at he1
            obtain ⟨_, _, _, _, he1⟩ := he1
            cases he1
          · rw [pure_ok] at he1; cases he1; rfl
        subst he
        subst hr'
        have := List.append_cancel_left hcs.symm
        rw [this] at hu
        simp at hu
      | true =>
        obtain ⟨hnd, hcm, hso⟩ := ho (hok.1 rfl)
        obtain ⟨hinv, _, _, hb⟩ := Eng.inv_updateVote h (fun hx => absurd hx hnd) he1
        have hbe := hb rfl hcm hnd
        simp only [if_true, bind_ok, pure_ok] at hr'
        obtain ⟨lv, hlv, ⟨cond, e2⟩, he2, hr'⟩ := hr'
        have h1 : e2.leader = some l := by rw [← hl, ← hr']; rfl
        have h2 : e2.leader = e1.leader := fhInstall_leader he2
        rw [h2, hbe.fol.leader] at h1; cases h1
    | purgeCmd idx =>
      have hr' : e.triggerPurge dbg idx = .ok e' := hr
      unfold Eng.triggerPurge at hr'
      split at hr'
      · rw [pure_ok] at hr'; subst hr'
        have := List.append_right_eq_self.1 hcs.symm; rw [this] at hu; cases hu
      · split at hr'
        · rw [pure_ok] at hr'; subst hr'
          have := List.append_right_eq_self.1 hcs.symm; rw [this] at hu; cases hu
        · simp only [bind_ok, pure_ok] at hr'
          obtain ⟨x, _, e1, he1, hr'⟩ := hr'
          exact hgo e1 (Eng.emits_updatePurgeUpto e x e1 he1) _ rfl (by rw [← hr']) (by rw [← hr'])
    | replProgress s target r =>
      have hr' : e.coreReplProgress dbg s target r = .ok e' := hr
      unfold Eng.coreReplProgress at hr'
      split at hr'
      · simp only [bind_ok] at hr'
        obtain ⟨l0, hl0, hr'⟩ := hr'
        have hr2 : ∃ e1, (match r with
            | .matching m => Eng.rhUpdateMatching dbg e l0 target m
            | .conflict c => Eng.rhUpdateConflicting dbg e l0 target c
            | .failed => Eng.rhFailed e l0 target) = .ok e1 ∧
            ∃ l1, unwrap e1.leader = .ok l1 ∧ e1.rhTryPurge l1 = e' := by
          unfold Eng.rhUpdateProgress at hr'
          cases r <;> simpa only [bind_ok, pure_ok] using hr'
        obtain ⟨e1, he1, l1, hl1, hr'⟩ := hr2
        rw [unwrap_ok] at hl1
        have hem : Emits NoPurge e e1 := by
          cases r with
          | matching m => exact Eng.emits_rhUpdateMatching _ _ _ _ e1 he1
          | conflict c => exact Eng.emits_rhUpdateConflicting _ _ _ _ e1 he1
          | failed => exact Eng.emits_rhFailed _ _ _ e1 he1
        have : e1.tryPurge = e1.rhTryPurge l1 := by unfold Eng.tryPurge; rw [hl1]
        exact hgo e1 hem _ rfl (by rw [this, ← hr']) (by rw [this, ← hr'])
      · rw [pure_ok] at hr'; subst hr'
        have := List.append_right_eq_self.1 hcs.symm; rw [this] at hu; cases hu
    | built m =>
      have hr' : e.coreBuilt dbg m = .ok e' := hr
      unfold Eng.coreBuilt at hr'
      simp only [bind_ok, pure_ok] at hr'
      obtain ⟨e1, he1, io, _, hr'⟩ := hr'
      have hl1 : e1.leader = some l := by rw [← hl, ← hr']
      have ho1 : e1.out = e'.out := by rw [← hr']
      unfold Eng.finishBuilding at he1
      dsimp only at he1
      unfold Eng.updateSnapshot at he1
      split at he1
      · next e2 heq =>
        rw [pure_ok] at he1; subst he1
        split at heq
        · cases heq
          have := List.append_right_eq_self.1 (hcs.symm.trans ho1.symm); rw [this] at hu; cases hu
        · cases heq
      · next e2 heq =>
        split at heq
        · cases heq
        · simp only [Prod.mk.injEq, true_and] at heq
          simp only [bind_ok, pure_ok] at he1
          obtain ⟨e3, he3, he1⟩ := he1
          refine hgo e3 ?_ _ rfl (by rw [he1, ← hr']) (by rw [he1, ← ho1])
          have h1 : Emits NoPurge e e2 := ⟨[], by rw [← heq]; simp, by simp⟩
          exact h1.trans (Eng.emits_schedulePurge e2 e3 he3)
    | _ => exact absurd rfl hi

/-- The policy keeps the configured number of logs before the snapshot. -/
theorem C20_policy_keeps {m : SnapMeta} {x : LogId} (hr : e.finishBuilding dbg m = .ok e')
    (hne : e'.st.purgeUpto ≠ e.st.purgeUpto) (hx : e'.st.purgeUpto = some x) :
    x.index + 1 + e.cfg.maxKeep ≤ nextIndex m.lastLogId := by
  have hlp : ∀ e1 : Eng, e1.logPurge.st.purgeUpto = e1.st.purgeUpto := by
    intro e1; unfold Eng.logPurge
    split
    · rfl
    · split <;> rfl
  have htp : ∀ e1 : Eng, e1.tryPurge.st.purgeUpto = e1.st.purgeUpto := by
    intro e1; unfold Eng.tryPurge Eng.rhTryPurge
    split
    · split
      · rfl
      · split
        · rfl
        · split
          · rfl
          · exact hlp _
    · exact hlp _
  unfold Eng.finishBuilding at hr
  dsimp only at hr
  unfold Eng.updateSnapshot at hr
  split at hr
  · next e2 heq =>
    rw [pure_ok] at hr; subst hr
    split at heq
    · cases heq; exact absurd rfl hne
    · cases heq
  · next e2 heq =>
    split at heq
    · cases heq
    · simp only [Prod.mk.injEq, true_and] at heq
      simp only [bind_ok, pure_ok] at hr
      obtain ⟨e3, he3, hr⟩ := hr
      have h3 : e3.st.purgeUpto = some x := by rw [← hx, ← hr, htp]
      unfold Eng.schedulePurge at he3
      rw [bind_ok] at he3
      obtain ⟨o, ho, he3⟩ := he3
      have hs : e2.st.snap = m := by rw [← heq]
      have hc : e2.cfg = e.cfg := by rw [← heq]
      cases o with
      | none =>
        rw [pure_ok] at he3; subst he3
        exfalso; apply hne
        rw [hx, ← h3, ← heq]
      | some y =>
        simp only [Eng.updatePurgeUpto, bind_ok, pure_ok] at he3
        obtain ⟨_, _, he3⟩ := he3
        have hy : y = x := by rw [← he3] at h3; exact Option.some.inj h3
        subst hy
        unfold Eng.calcPurgeUpto at ho
        rw [hs, hc] at ho
        dsimp only at ho
        split at ho
        · rw [pure_ok] at ho; cases ho
        · split at ho
          · simp only [bind_ok, pure_ok] at ho
            obtain ⟨_, _, ho⟩ := ho; cases ho
          · simp only [bind_ok, pure_ok] at ho
            obtain ⟨_, _, ho⟩ := ho
            have := get_index ho
            omega

end Openraft.Props
