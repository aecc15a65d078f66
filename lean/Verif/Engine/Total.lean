import Verif.Engine.Sync

/-!
# The functions that cannot abort a release build

In a release build only `unwrap`, `expect` and `unreachable!` abort. `Tot` says that a call returns.
-/

set_option autoImplicit false

namespace Openraft.Engine
open Openraft.Repl (Panic dassert Inflight)
open Openraft.Cluster (Payload)
open LogIdList

/-- the call returns -/
def Tot {α : Type} (r : Res α) : Prop := ∃ a, r = .ok a

namespace Tot
variable {α β : Type}

theorem pure (a : α) : Tot (Pure.pure a : Res α) := ⟨a, rfl⟩

theorem bind {x : Res β} {f : β → Res α} (hx : Tot x) (h : ∀ b, x = .ok b → Tot (f b)) : Tot (x >>= f) := by
  obtain ⟨b, hb⟩ := hx
  obtain ⟨a, ha⟩ := h b hb
  exact ⟨a, bind_ok.2 ⟨b, hb, ha⟩⟩

theorem dassert (b : Bool) : Tot (Repl.dassert false b) := ⟨(), rfl⟩

theorem unwrap {o : Option α} {a : α} (h : o = some a) : Tot (unwrap o) := ⟨a, unwrap_ok.2 h⟩

theorem unwrap' {o : Option α} (h : o.isSome = true) : Tot (Engine.unwrap o) := by
  obtain ⟨a, ha⟩ := Option.isSome_iff_exists.1 h
  exact unwrap ha

end Tot

namespace RState
variable {s : RState}

theorem tot_hasLogId (l : LogId) : Tot (s.hasLogId false l) := by
  unfold hasLogId
  split
  · exact Tot.bind (Tot.dassert _) fun _ _ => Tot.pure _
  · exact Tot.pure _

theorem tot_firstConflicting (es : List Ent) : Tot (s.firstConflicting false es) := by
  induction es with
  | nil => exact Tot.pure _
  | cons e es ih =>
    unfold firstConflicting
    refine Tot.bind (tot_hasLogId _) fun b _ => ?_
    split
    · exact Tot.bind ih fun _ _ => Tot.pure _
    · exact Tot.pure _

theorem tot_acceptIo (x : IOId) : Tot (s.acceptIo false x) := by
  unfold acceptIo
  refine Tot.bind (Tot.dassert _) fun _ _ => ?_
  split
  · exact Tot.bind ⟨_, rfl⟩ fun _ _ => Tot.pure _
  · exact Tot.pure _

theorem tot_commit (m : MemState) (c : Option LogId) : Tot (MemState.commit false m c) := by
  unfold MemState.commit
  split
  · exact Tot.bind (Tot.dassert _) fun _ _ => Tot.pure _
  · exact Tot.pure _

theorem tot_updateMem (m : MemState) (c : StoredMem) : Tot (MemState.updateCommitted false m c) := by
  unfold MemState.updateCommitted
  dsimp only
  split
  · exact Tot.bind (Tot.dassert _) fun _ _ => Tot.pure _
  · exact Tot.pure _

theorem tot_appendMem (m : MemState) (x : StoredMem) : Tot (MemState.append false m x) :=
  Tot.bind (Tot.dassert _) fun _ _ => Tot.bind (Tot.dassert _) fun _ _ => Tot.pure _

theorem tot_truncateMem (m : MemState) (i : Nat) : Tot (MemState.truncate false m i) := by
  unfold MemState.truncate
  refine Tot.bind (Tot.dassert _) fun _ _ => ?_
  split
  · exact Tot.pure _
  · exact Tot.pure _

theorem tot_updateCommitted (c : Option LogId) : Tot (s.updateCommitted false c) := by
  unfold updateCommitted
  split
  · exact Tot.bind (tot_commit _ _) fun _ _ => Tot.pure _
  · exact Tot.pure _

end RState

namespace Eng
variable {e : Eng} {now : Nat}

theorem tot_updatePurgeUpto (x : LogId) : Tot (e.updatePurgeUpto false x) :=
  Tot.bind (Tot.dassert _) fun _ _ => Tot.pure _

theorem tot_calcPurgeUpto : Tot (e.calcPurgeUpto false) := by
  unfold calcPurgeUpto
  dsimp only
  split
  · exact Tot.pure _
  · split
    · exact Tot.bind (Tot.dassert _) fun _ _ => Tot.pure _
    · exact Tot.bind (Tot.dassert _) fun _ _ => Tot.pure _

theorem tot_schedulePurge : Tot (e.schedulePurge false) := by
  unfold schedulePurge
  refine Tot.bind tot_calcPurgeUpto fun o _ => ?_
  split
  · exact tot_updatePurgeUpto _
  · exact Tot.pure _

theorem tot_leaderHandler : Tot (e.leaderHandler false) := by
  unfold leaderHandler
  split
  · exact Tot.pure _
  · exact Tot.bind (Tot.dassert _) fun _ _ => Tot.pure _

theorem tot_rhTryCommit (g : Option LogId) : Tot (e.rhTryCommit false g) := by
  unfold rhTryCommit
  split
  · exact Tot.pure _
  · split
    · refine Tot.bind (RState.tot_updateCommitted _) fun p _ => ?_
      obtain ⟨ch, st⟩ := p
      dsimp only
      split
      · exact Tot.pure _
      · exact Tot.pure _
    · exact Tot.pure _

theorem tot_becomeFollowing : Tot (e.becomeFollowing false) :=
  Tot.bind (Tot.dassert _) fun _ _ => Tot.pure _

theorem tot_storeVote (lease : Nat) (v : Vote) : Tot (storeVote false now lease e v) := by
  unfold storeVote
  split
  · exact Tot.bind (RState.tot_acceptIo _) fun _ _ => Tot.pure _
  · exact Tot.bind (Tot.bind (Tot.dassert _) fun _ _ => Tot.pure _) fun _ _ => Tot.pure _

/-! ## The follower's functions -/

theorem tot_fhTruncate (i : Nat) : Tot (e.fhTruncate false i) := by
  unfold fhTruncate
  refine Tot.bind (Tot.dassert _) fun _ _ => ?_
  split
  · exact Tot.pure _
  · refine Tot.bind (RState.tot_truncateMem _ _) fun _ _ => ?_
    dsimp only
    split
    · exact Tot.pure _
    · exact Tot.pure _

theorem tot_appendMems (m : MemState) (xs : List StoredMem) : Tot (appendMems false m xs) := by
  induction xs generalizing m with
  | nil => exact Tot.pure _
  | cons x xs ih =>
    unfold appendMems
    exact Tot.bind (RState.tot_appendMem _ _) fun _ _ => ih _

theorem tot_fhAppendMembership (es : List Ent) : Tot (e.fhAppendMembership false es) := by
  unfold fhAppendMembership
  split
  · exact Tot.pure _
  · exact Tot.bind (tot_appendMems _ _) fun _ _ => Tot.pure _

theorem tot_fhDoAppend (v : Vote) (es : List Ent) : Tot (e.fhDoAppend false v es) := by
  unfold fhDoAppend
  exact Tot.bind (Tot.dassert _) fun _ _ => Tot.bind (Tot.dassert _) fun _ _ => Tot.bind (Tot.dassert _) fun _ _ =>
    Tot.bind (tot_fhAppendMembership _) fun _ _ => Tot.pure _

theorem tot_fhAppendEntries (v : Vote) (prev : Option LogId) (es : List Ent) : Tot (e.fhAppendEntries false v prev es) := by
  unfold fhAppendEntries
  refine Tot.bind (Tot.dassert _) fun _ _ => Tot.bind (RState.tot_acceptIo _) fun st _ =>
    Tot.bind (RState.tot_firstConflicting _) fun since _ => ?_
  split
  · exact Tot.bind (tot_fhTruncate _) fun _ _ => tot_fhDoAppend _ _
  · split
    · exact Tot.pure _
    · exact Tot.pure _

theorem tot_fhEnsure (prev : Option LogId) : Tot (e.fhEnsure false prev) := by
  unfold fhEnsure
  split
  · exact Tot.pure _
  · refine Tot.bind (RState.tot_hasLogId _) fun b _ => ?_
    split
    · exact Tot.pure _
    · exact Tot.bind (tot_fhTruncate _) fun _ _ => Tot.pure _

theorem tot_fhCommit (lc : Option LogId) : Tot (e.fhCommit false lc) := by
  unfold fhCommit
  dsimp only
  generalize min (e.st.io.prog.accepted.bind (·.last)) lc = c
  refine Tot.bind (RState.tot_updateCommitted _) fun p hp => ?_
  obtain ⟨ch, st⟩ := p
  dsimp only
  split
  · next hch =>
    subst hch
    have : c.isSome = true := by
      cases c with
      | some c => rfl
      | none =>
        unfold RState.updateCommitted at hp
        rw [if_neg (by intro h; exact absurd (OptOrd.none_le' _) (not_le.2 h)), pure_ok] at hp
        cases hp
    exact Tot.bind (Tot.unwrap' this) fun _ _ => Tot.pure _
  · exact Tot.pure _

theorem tot_followingHandler : Tot (e.followingHandler false) :=
  Tot.bind (Tot.dassert _) fun _ _ => Tot.bind (Tot.dassert _) fun _ _ => Tot.pure _

theorem tot_fhInstall (v : Vote) (m : SnapMeta) : Tot (e.fhInstall false v m) := by
  unfold fhInstall
  split
  · exact Tot.pure _
  · next hn =>
    have : m.lastLogId.isSome = true := by
      cases hm : m.lastLogId with
      | some x => rfl
      | none => rw [hm] at hn; exact absurd (OptOrd.none_le' _) hn
    refine Tot.bind (Tot.unwrap' this) fun last _ => ?_
    split
    · exact Tot.pure _
    · refine Tot.bind ?_ fun e2 _ => Tot.bind (RState.tot_acceptIo _) fun st _ => Tot.bind (RState.tot_updateMem _ _) fun ms _ => Tot.pure _
      unfold fhInstallTruncate
      split
      · split
        · exact tot_fhTruncate _
        · exact Tot.pure _
      · exact Tot.pure _

theorem tot_finishBuilding (m : SnapMeta) : Tot (e.finishBuilding false m) := by
  unfold finishBuilding
  dsimp only
  split
  · exact Tot.pure _
  · exact Tot.bind tot_schedulePurge fun _ _ => Tot.pure _

theorem tot_coreHeartbeat : Tot (e.coreHeartbeat false) := by
  unfold coreHeartbeat
  refine Tot.bind tot_leaderHandler fun o _ => ?_
  split
  · exact Tot.pure _
  · split
    · exact Tot.pure _
    · exact Tot.pure _

theorem tot_tickHeartbeat (en : Bool) (iv : Nat) : Tot (e.tickHeartbeat false now en iv) := by
  unfold tickHeartbeat
  split
  · exact Tot.pure _
  · split
    · dsimp only
      split
      · exact Tot.bind tot_coreHeartbeat fun _ _ => Tot.pure _
      · exact Tot.bind (Tot.pure _) fun _ _ => Tot.pure _
    · exact Tot.pure _

theorem tot_triggerTransfer (t : NodeId) : Tot (e.triggerTransfer false t) := by
  unfold triggerTransfer
  refine Tot.bind tot_leaderHandler fun o _ => ?_
  split
  · exact Tot.pure _
  · exact Tot.pure _

/-- a position up to the snapshot is in the log -/
theorem tot_triggerPurge {g : Gh} (h : LogJ e.st.lv g) (i : Nat) : Tot (e.triggerPurge false i) := by
  unfold triggerPurge
  split
  · exact Tot.pure _
  · next sl hsl =>
    split
    · exact Tot.pure _
    · next hn =>
      have hin := h.snapIn sl hsl
      have h1 : e.st.lv.purgedNext ≤ min i sl.index + 1 := by
        have := h.ge_purged hin
        have h2 := h.ord1
        have : nextIndex e.st.lv.upto ≤ i := Nat.not_lt.1 hn
        omega
      have h2 : min i sl.index < nextIndex e.st.lv.last := by
        have := h.le_last hin; omega
      obtain ⟨x, hx, hxi⟩ := h.exists_index h1 h2
      have : e.st.getLogId (min i sl.index) = some x := (get_iff h.sorted).2 ⟨hx, hxi⟩
      exact Tot.bind (Tot.unwrap this) fun _ _ => Tot.bind (tot_updatePurgeUpto _) fun _ _ => Tot.pure _

end Eng
end Openraft.Engine
