import Verif.Engine.Rebuild

/-!
# What a leader asks its replication tasks to send

A `Replicate` command carries a request computed by `ProgressEntry::next_send` from the log ids, the purge
position and the snapshot of the moment. The walk below shows that when the input is done, every request it has
added is still the one in flight in the leader's progress, and is made of what the node has then.
-/

set_option autoImplicit false

namespace Openraft.Engine
open Openraft.Repl (Panic dassert Inflight)
open Openraft.Cluster (Payload)
open Openraft.VecProgress (ids)

/-- a command other than `Replicate` -/
def Cmd.noRep : Cmd → Prop
  | .replicate _ _ => False
  | _ => True

instance : LetsRow Cmd.noRep := ⟨fun c _ _ h => by cases c <;> first | trivial | exact absurd rfl (h _ _)⟩
instance : LetsVote Cmd.noRep := ⟨fun _ => trivial⟩
instance : LetsAsk Cmd.noRep := ⟨fun _ _ => trivial⟩
instance : LetsTrunc Cmd.noRep := ⟨fun _ => trivial⟩
instance : LetsPurge Cmd.noRep := ⟨fun _ => trivial⟩
instance : LetsInstall Cmd.noRep := ⟨fun _ _ => trivial⟩
instance : LetsAnswer Cmd.noRep := ⟨fun _ _ _ => trivial⟩

/-- A request that `next_send` makes from a view of the log for a target with this progress; a debug build has
checked the progress. -/
def Req (dbg : Bool) (v : Repl.LogView) (max : Nat) (en : Repl.Entry) : Inflight → Prop
  | .none => False
  | .snapshot x => x = v.snapshot ∧ en.searchingEnd < nextIndex v.purgeUpto
  | .logs p q => ∃ i,
      nextIndex v.purgeUpto ≤ en.searchingEnd ∧ nextIndex v.purgeUpto ≤ i ∧ nextIndex en.matching ≤ i ∧
      (nextIndex en.matching ≤ en.searchingEnd → i ≤ en.searchingEnd) ∧
      (dbg = true → nextIndex en.matching ≤ en.searchingEnd ∧ en.searchingEnd ≤ v.lastNext) ∧
      i ≠ min (i + max) v.lastNext ∧ p = v.prevLogId i ∧ q = v.prevLogId (min (i + max) v.lastNext)

theorem nextSend_req {dbg : Bool} {p en : Repl.Entry} {v : Repl.LogView} {max : Nat} {sent : Bool}
    (h : p.nextSend dbg v max = .ok (sent, en)) :
    (p.inflight ≠ .none → sent = false ∧ en = p) ∧
    (sent = true → en.inflight ≠ .none → Req dbg v max en en.inflight) := by
  unfold Repl.Entry.nextSend at h
  dsimp only at h
  split at h
  · rw [pure_ok] at h; cases h; exact ⟨fun _ => ⟨rfl, rfl⟩, fun hx => by cases hx⟩
  · next hn =>
    refine ⟨fun hx => absurd hx hn, ?_⟩
    rw [bind_ok] at h
    obtain ⟨_, hd1, h⟩ := h
    have hd1 := dassert_ok.1 hd1
    split at h
    · next hlt => rw [pure_ok] at h; cases h; exact fun _ _ => ⟨rfl, hlt⟩
    · next hge =>
      rw [bind_ok] at h
      obtain ⟨mid, hm, h⟩ := h
      unfold Repl.Entry.calcMid at hm
      rw [bind_ok] at hm
      obtain ⟨_, hd2, hm⟩ := hm
      have hd2 := dassert_ok.1 hd2
      rw [pure_ok] at hm
      obtain ⟨st, hst⟩ : ∃ st, st = (if mid < nextIndex v.purgeUpto then nextIndex v.purgeUpto else mid) := ⟨_, rfl⟩
      have hb : nextIndex v.purgeUpto ≤ st ∧ nextIndex p.matching ≤ st ∧ (nextIndex p.matching ≤ p.searchingEnd → st ≤ p.searchingEnd) := by
        rw [hst]; split <;> omega
      rw [← hst] at h
      split at h
      · rw [pure_ok] at h; cases h; exact fun hx => by cases hx
      · next hne =>
        rw [pure_ok] at h; cases h
        intro _ hx
        dsimp only at hx ⊢
        unfold Inflight.mkLogs at hx ⊢
        split
        · refine ⟨st, Nat.not_lt.1 hge, hb.1, hb.2.1, hb.2.2, fun hdb => ?_, hne, rfl, rfl⟩
          exact ⟨by simpa using hd2 hdb, by simpa using hd1 hdb⟩
        · next hlt => rw [if_neg hlt] at hx; exact absurd rfl hx

theorem sendToTarget_ok {i q : Inflight} (h : Repl.sendToTarget i = .ok q) : q = i ∧ i ≠ .none := by
  cases i <;> simp only [Repl.sendToTarget] at h <;> cases h <;> exact ⟨rfl, by simp⟩

/-- The requests that were added are in flight in the leader's progress and made of what the node has, and come last. -/
def Sent (dbg : Bool) (e e' : Eng) : Prop :=
  ∃ cs, e'.out = e.out ++ cs ∧ (∀ t q, Cmd.replicate t q ∈ cs → ∃ l, e'.leader = some l ∧ t ∈ Eng.progIds l ∧ t ≠ e'.cfg.id ∧
    (l.progress.ent t).inflight = q ∧ Req dbg e'.st.view e'.cfg.maxPayload (l.progress.ent t) q) ∧
    ∃ as bs, cs = as ++ bs ∧ (∀ c ∈ as, c.noRep) ∧ ∀ c ∈ bs, ∃ t q, c = .replicate t q

theorem Sent.quiet {dbg : Bool} {e e' : Eng} (h : Emits Cmd.noRep e e') : Sent dbg e e' := by
  obtain ⟨cs, h1, h2⟩ := h
  exact ⟨cs, h1, fun t q hx => absurd (h2 _ hx) (fun hh => hh), cs, [], by simp, h2, by simp⟩

theorem Sent.after {dbg : Bool} {a b c : Eng} (h : Emits Cmd.noRep a b) (k : Sent dbg b c) : Sent dbg a c := by
  obtain ⟨cs, h1, h2⟩ := h
  obtain ⟨ds, k1, k2, as, bs, k3, k4, k5⟩ := k
  refine ⟨cs ++ ds, by rw [k1, h1]; simp, fun t q hx => ?_, cs ++ as, bs, by rw [k3, List.append_assoc],
    fun x hx => (List.mem_append.1 hx).elim (h2 x) (k4 x), k5⟩
  rcases List.mem_append.1 hx with hx | hx
  · exact absurd (h2 _ hx) (fun hh => hh)
  · exact k2 t q hx

namespace Eng
variable {dbg : Bool} {now : Nat} {e e' : Eng} {l : Leader}

theorem rhInitLoop_reqs {me : NodeId} {v : Repl.LogView} {max : Nat} {ns : List NodeId} {ent : NodeId → Repl.Entry}
    {out : List Cmd} {p : (NodeId → Repl.Entry) × List Cmd} (h : rhInitLoop dbg me v max ns ent out = .ok p) :
    (∀ n, (ent n).inflight ≠ .none → p.1 n = ent n) ∧
    ∃ cs, p.2 = out ++ cs ∧ (∀ t q, Cmd.replicate t q ∈ cs → t ∈ ns ∧ t ≠ me ∧ (p.1 t).inflight = q ∧ Req dbg v max (p.1 t) q) ∧
      ∀ c ∈ cs, ∃ t q, c = .replicate t q := by
  induction ns generalizing ent out with
  | nil => rw [rhInitLoop, pure_ok] at h; subst h; exact ⟨fun _ _ => rfl, [], by simp, by simp, by simp⟩
  | cons n ns ih =>
    rw [rhInitLoop] at h
    split at h
    · obtain ⟨h1, cs, h2, h3, h9⟩ := ih h
      refine ⟨h1, cs, h2, fun t q hx => ?_, h9⟩
      obtain ⟨a, b⟩ := h3 t q hx
      exact ⟨List.mem_cons_of_mem _ a, b⟩
    · next hne =>
      rw [bind_ok] at h
      obtain ⟨⟨sent, en⟩, hs, h⟩ := h
      obtain ⟨s1, s2⟩ := nextSend_req hs
      dsimp only at h
      have hold : ∀ k, (ent k).inflight ≠ .none → (if k = n then en else ent k) = ent k := by
        intro k hk
        split
        · next hkn => subst hkn; exact (s1 hk).2
        · rfl
      split at h
      · next hsent =>
        rw [bind_ok] at h
        obtain ⟨req, hreq, h⟩ := h
        obtain ⟨rfl, hnn⟩ := sendToTarget_ok hreq
        obtain ⟨h1, cs, h2, h3, h9⟩ := ih h
        have hq : p.1 n = en := by
          have := h1 n (by rw [if_pos rfl]; exact hnn)
          rw [this, if_pos rfl]
        refine ⟨fun k hk => ?_, .replicate n en.inflight :: cs, by rw [h2]; simp, fun t q hx => ?_,
          fun c hc => (List.mem_cons.1 hc).elim (fun hh => ⟨_, _, hh⟩) (h9 c)⟩
        · have := h1 k (by rw [hold k hk]; exact hk)
          rw [this]; exact hold k hk
        · rcases List.mem_cons.1 hx with hx | hx
          · cases hx
            exact ⟨by simp, hne, by rw [hq], by rw [hq]; exact s2 hsent hnn⟩
          · obtain ⟨a, b⟩ := h3 t q hx
            exact ⟨List.mem_cons_of_mem _ a, b⟩
      · obtain ⟨h1, cs, h2, h3, h9⟩ := ih h
        refine ⟨fun k hk => ?_, cs, h2, fun t q hx => ?_, h9⟩
        · have := h1 k (by rw [hold k hk]; exact hk)
          rw [this]; exact hold k hk
        · obtain ⟨a, b⟩ := h3 t q hx
          exact ⟨List.mem_cons_of_mem _ a, b⟩

theorem Req.some {v : Repl.LogView} {max : Nat} {en : Repl.Entry} {q : Inflight} (h : Req dbg v max en q) : q ≠ .none := by
  rintro rfl; exact h

/-- more requests after some -/
theorem sent_rhInitiate {e1 : Eng} (h : Sent dbg e e1) (hl : e1.leader = some l) (hr : e1.rhInitiate dbg l = .ok e') : Sent dbg e e' := by
  unfold rhInitiate at hr
  rw [bind_ok] at hr
  obtain ⟨⟨ent, cmds⟩, h1, hr⟩ := hr
  rw [pure_ok] at hr; subst hr
  obtain ⟨k1, cs, k2, k3, k9⟩ := rhInitLoop_reqs h1
  simp only [List.nil_append] at k2
  subst k2
  obtain ⟨ds, d1, d2, as, bs, d3, d4, d5⟩ := h
  refine ⟨ds ++ cmds, by rw [show ({ e1 with leader := _, out := e1.out ++ cmds } : Eng).out = e1.out ++ cmds from rfl, d1, List.append_assoc], fun t q hx => ⟨_, rfl, ?_⟩,
    as, bs ++ cmds, by rw [d3, List.append_assoc], d4, fun c hc => (List.mem_append.1 hc).elim (d5 c) (k9 c)⟩
  rcases List.mem_append.1 hx with hx | hx
  · obtain ⟨l', a, b, c, d, f⟩ := d2 t q hx
    rw [hl] at a; cases a
    have hn : (l.progress.ent t).inflight ≠ .none := by rw [d]; exact Req.some f
    have hk : ent t = l.progress.ent t := k1 t hn
    refine ⟨b, c, ?_, ?_⟩
    · show (ent t).inflight = q
      rw [hk]; exact d
    · show Req dbg e1.st.view e1.cfg.maxPayload (ent t) q
      rw [hk]; exact f
  · exact k3 t q hx

theorem sent_rhAppendMembership {i : LogId} {m : Membership} (h : e.rhAppendMembership dbg l i m = .ok e') : Sent dbg e e' := by
  unfold rhAppendMembership at h
  simp only [bind_ok] at h
  obtain ⟨_, _, _, _, ms, _, l2, hl2, h⟩ := h
  refine sent_rhInitiate (Sent.quiet ?_) (unwrap_some hl2) h
  exact ⟨[_], rfl, by simp [Cmd.noRep]⟩

theorem sent_lhAppend {ps : List Payload} (h : e.lhAppend dbg l ps = .ok e') : Sent dbg e e' := by
  unfold lhAppend at h
  split at h
  · rw [pure_ok] at h; subst h; exact Sent.quiet (Emits.refl _)
  · simp only [bind_ok] at h
    obtain ⟨_, _, _, _, _, _, st, _, e2, h2, l2, hl2, h⟩ := h
    refine sent_rhInitiate ?_ (unwrap_some hl2) h
    unfold lhMembership at h2
    have hpush : ∀ (x : Eng) (v : Vote) (es : List Ent) (o : Eng), x.out = e.out → x.cfg = e.cfg → Sent dbg (x.push (.append v es)) o → Sent dbg e o :=
      fun x v es o h1 h2 h3 => Sent.after (emits_upd (.append v es) (emits_same h2 h1)) h3
    refine hpush { e with st := st, leader := some { l with lastLogId := (assign l.vote.leaderId (nextIndex l.lastLogId) ps).getLast?.map (·.id) } }
      l.vote (assign l.vote.leaderId (nextIndex l.lastLogId) ps) e2 rfl rfl ?_
    split at h2
    · exact sent_rhAppendMembership h2
    · rw [pure_ok] at h2; subst h2; exact Sent.quiet (Emits.refl _)

theorem noRep_rebuild : Emits Cmd.noRep e (e.rhRebuildStreams l) := ⟨[_], rfl, by simp [Cmd.noRep]⟩

theorem sent_establishLeader (hr : e.establishLeader dbg now = .ok e') : Sent dbg e e' := by
  unfold establishLeader at hr
  simp only [bind_ok] at hr
  obtain ⟨c, _, o, _, hr⟩ := hr
  cases o with
  | none => simp only [pure_ok] at hr; subst hr; exact Sent.quiet (emits_same rfl rfl)
  | some l =>
    simp only [bind_ok] at hr
    obtain ⟨⟨ok, e2⟩, h2, _, _, st, _, lo, _, l3, _, hr⟩ := hr
    have h3 : Sent dbg e2 e' :=
      Sent.after (emits_same (e := e2) (e1 := { e2 with st := st }) rfl rfl) (sent_lhAppend hr)
    refine Sent.after (b := { { e with candidate := none } with leader := some l }) (emits_same rfl rfl) ?_
    refine Sent.after (b := rhRebuildStreams { { e with candidate := none } with leader := some l } l) noRep_rebuild (Sent.after ?_ h3)
    revert h2
    obtain ⟨e1, he1⟩ : ∃ e1, e1 = rhRebuildStreams { { e with candidate := none } with leader := some l } l := ⟨_, rfl⟩
    intro h2
    have h2 : e1.updateVote dbg now l.vote = .ok (ok, e2) := by rw [he1]; exact h2
    show Emits Cmd.noRep (rhRebuildStreams { { e with candidate := none } with leader := some l } l) e2
    rw [← he1]
    have hle1 : ∃ l1, e1.leader = some l1 ∧ l1.vote = l.vote := by rw [he1]; exact ⟨_, rfl, rfl⟩
    unfold updateVote at h2
    split at h2
    · next hle =>
      simp only [bind_ok, pure_ok] at h2
      obtain ⟨e4, he4, e5, he5, h2⟩ := h2
      cases h2
      refine (emits_storeVote _ _ _ _ he4).trans ?_
      have hd := storeVote_vote hle he4
      have hl4 := (storeVote_same he4).2.2.1
      obtain ⟨l1, k1, k2⟩ := hle1
      unfold updateInternal at he5
      split at he5
      · unfold becomeLeader at he5
        rw [hl4, k1] at he5
        simp only at he5
        rw [if_pos (by rw [hd, k2]), pure_ok] at he5
        subst he5; exact emits_same rfl rfl
      · split at he5
        · rw [pure_ok] at he5; subst he5; exact Emits.refl _
        · exact emits_becomeFollowing _ _ he5
    · rw [pure_ok] at h2; cases h2; exact Emits.refl _

theorem sent_writeEntry {p : Payload} {o : Option Nat} (hr : e.writeEntry dbg p = .ok (o, e')) : Sent dbg e e' := by
  unfold writeEntry at hr
  rw [bind_ok] at hr
  obtain ⟨lo, _, hr⟩ := hr
  cases lo with
  | none => simp only [pure_ok] at hr; cases hr; exact Sent.quiet (Emits.refl _)
  | some l =>
    simp only at hr
    split at hr
    · rw [pure_ok] at hr; cases hr; exact Sent.quiet (Emits.refl _)
    · simp only [bind_ok, pure_ok] at hr
      obtain ⟨e1, h1, _, _, hr⟩ := hr
      cases hr
      exact sent_lhAppend h1

theorem sent_handleVoteResp {g0 : Gh} (hI : EInv g0 e) {target : NodeId} {v : Vote} {last : Option LogId} {granted : Bool}
    (hv : VoteOk e v) (hr : e.handleVoteResp dbg now target v last granted = .ok e') : Sent dbg e e' := by
  unfold handleVoteResp at hr
  cases hc : e.candidate with
  | none => rw [hc] at hr; rw [pure_ok] at hr; subst hr; exact Sent.quiet (Emits.refl _)
  | some c =>
    rw [hc] at hr
    simp only at hr
    split at hr
    · rw [bind_ok] at hr
      obtain ⟨c1, _, hr⟩ := hr
      split at hr
      · exact Sent.after (b := { e with candidate := some c1 }) (emits_same rfl rfl) (sent_establishLeader hr)
      · rw [pure_ok] at hr; subst hr; exact Sent.quiet (emits_same rfl rfl)
    · rw [bind_ok] at hr
      obtain ⟨p, hp, hr⟩ := hr
      rw [pure_ok] at hr; subst hr
      split at hp
      · have hf : Frame e { e with seenGreater := true } :=
          ⟨rfl, rfl, rfl, rfl, fun _ => rfl, rfl, LSame.refl _, [], by simp, by simp⟩
        have hp : updateVote dbg now { e with seenGreater := true } v = .ok p := by rw [hc]; exact hp
        exact Sent.quiet (Emits.trans (emits_same rfl rfl) (nr_updateVote (hf.inv hI) hv _ hp))
      · exact Sent.quiet (nr_updateVote hI hv _ hp)

/-- **The requests that an input adds are in flight and made of what the node has after it.** -/
theorem sent_input {g0 : Gh} {i : Input} (hI : EInv g0 e) (ho : InputOk e i) (hr : e.input dbg now i = .ok e') : Sent dbg e e' := by
  have go : ∀ x : Res Eng, EmitsR Cmd.noRep id e x → x = .ok e' → Sent dbg e e' := fun x hx he => Sent.quiet (hx e' he)
  cases i with
  | appendReq tx v prev es lc => exact go _ (nr_handleAppend hI ho) hr
  | voteReq tx v last =>
    refine go _ ?_ hr
    simp only [input, coreVoteReq]
    refine EmitsR.bindE Prod.snd ?_ fun p => EmitsR.pure (emits_push _ _)
    unfold handleVoteReq
    split
    · exact EmitsR.pure (Emits.refl _)
    · split
      · exact EmitsR.bindE Prod.snd (nr_updateVote hI ho) fun p => EmitsR.pure (Emits.refl _)
      · exact EmitsR.pure (Emits.refl _)
  | snapReq tx v m => exact go _ (nr_handleInstall hI ho) hr
  | init tx m =>
    refine go _ ?_ hr
    simp only [input, coreInit]
    exact EmitsR.bindE Prod.snd (nr_initCluster _ _) fun p => EmitsR.pure (emits_push _ _)
  | write p =>
    simp only [input, bind_ok, pure_ok] at hr
    obtain ⟨⟨o, e1⟩, h1, hr⟩ := hr
    subst hr; exact sent_writeEntry h1
  | change c r =>
    simp only [input, bind_ok, pure_ok] at hr
    obtain ⟨⟨o, e1⟩, h1, hr⟩ := hr
    subst hr
    unfold changeMembership at h1
    split at h1
    · rw [pure_ok] at h1; cases h1; exact Sent.quiet (Emits.refl _)
    · exact sent_writeEntry h1
  | handleTransfer v target =>
    refine go _ ?_ hr
    simp only [input, coreHandleTransfer]
    split
    · split
      · exact EmitsR.from' (e1 := { e with st := { e.st with vote := e.st.vote.disable } }) (emits_same rfl rfl) (nr_elect _)
      · exact EmitsR.pure (emits_same rfl rfl)
    · exact EmitsR.pure (Emits.refl _)
  | electCmd =>
    refine go _ ?_ hr
    simp only [input, coreElect]
    split
    · exact nr_elect _
    · exact EmitsR.pure (Emits.refl _)
  | heartbeatCmd => exact go _ (emits_coreHeartbeat _) hr
  | snapshotCmd => exact go _ (EmitsR.pure (emits_triggerSnapshot _)) hr
  | purgeCmd i => exact go _ (emits_triggerPurge _ _) hr
  | transferCmd t => exact go _ (emits_triggerTransfer _ _) hr
  | voteResp target v last granted sender =>
    simp only [input] at hr
    split at hr
    · exact sent_handleVoteResp hI ho hr
    · rw [pure_ok] at hr; subst hr; exact Sent.quiet (Emits.refl _)
  | higherVote v sender =>
    refine go _ ?_ hr
    simp only [input]
    split
    · exact EmitsR.bindE Prod.snd (nr_updateVote hI ho) fun p => EmitsR.pure (Emits.refl _)
    · exact EmitsR.pure (Emits.refl _)
  | tick el hb iv => exact go _ (nr_coreTick hI el hb iv) hr
  | localIO io =>
    refine go _ ?_ hr
    simp only [input, coreLocalIO]
    refine EmitsR.bind fun p => ?_
    split
    · split
      · split
        · exact EmitsR.from' (e1 := e.withProg p) (emits_same rfl rfl) (emits_rhUpdateLocal _ _ _)
        · exact EmitsR.pure (emits_same rfl rfl)
      · exact EmitsR.pure (emits_same rfl rfl)
    · exact EmitsR.pure (emits_same rfl rfl)
  | replProgress s target r =>
    refine go _ ?_ hr
    simp only [input, coreReplProgress]
    split
    · exact EmitsR.bind fun l => emits_rhUpdateProgress _ _ _ _
    · exact EmitsR.pure (Emits.refl _)
  | hbProgress s target t =>
    refine go _ ?_ hr
    simp only [input, coreHbProgress]
    split
    · exact EmitsR.bind fun l => emits_rhUpdateClock _ _ _ _
    · exact EmitsR.pure (Emits.refl _)
  | built m =>
    refine go _ ?_ hr
    simp only [input, coreBuilt]
    exact EmitsR.bindE id (emits_finishBuilding _ _) fun e1 => EmitsR.bind fun io => EmitsR.pure (emits_same rfl rfl)
  | installed io m =>
    refine go _ ?_ hr
    simp only [input, coreInstalled]
    exact EmitsR.bind fun p => EmitsR.bind fun s1 => EmitsR.bind fun s2 => EmitsR.pure (emits_same rfl rfl)
  | applied last =>
    refine go _ ?_ hr
    simp only [input, coreApplied]
    exact EmitsR.bind fun s => EmitsR.pure (emits_same rfl rfl)
  | initiate =>
    simp only [input, coreInitiate, bind_ok] at hr
    obtain ⟨lo, hlo, hr⟩ := hr
    cases lo with
    | none => simp only [pure_ok] at hr; subst hr; exact Sent.quiet (Emits.refl _)
    | some l => exact sent_rhInitiate (Sent.quiet (Emits.refl _)) (leaderHandler_some hlo) hr

theorem sent_startup {g0 : Gh} (h : StartOk g0 e) (hr : e.startup dbg now = .ok e') : Sent dbg e e' := by
  unfold startup at hr
  split at hr
  · next hil =>
    unfold updateInternal at hr
    rw [if_pos hil] at hr
    unfold becomeLeader at hr
    rw [h.leader] at hr
    simp only at hr
    unfold becomeNewLeader at hr
    simp only [bind_ok] at hr
    obtain ⟨l, _, st, _, l2, hl2, hr⟩ := hr
    have key : ∀ e0 : Eng, Emits Cmd.noRep e e0 → e0.leader = some l2 → (if l.lastLogId < l.noopLogId then lhAppend dbg e0 l2 [.blank] else rhInitiate dbg e0 l2) = .ok e' → Sent dbg e e' := by
      intro e0 h0 hs hr
      split at hr
      · exact Sent.after h0 (sent_lhAppend hr)
      · exact sent_rhInitiate (Sent.quiet h0) hs hr
    refine key _ ?_ (unwrap_some hl2) hr
    refine Emits.trans ?_ noRep_rebuild
    exact (emits_upd (.updateIO none (IOId.newLog l.vote l.lastLogId)) (emits_same rfl rfl)).trans (emits_updateServerState _)
  · rw [pure_ok] at hr; subst hr; exact Sent.quiet (emits_same rfl rfl)

end Eng
end Openraft.Engine
