import Verif.Runtime.TeamLife

/-!
# What a replication task reads from the log
-/

set_option autoImplicit false

namespace Openraft.Runtime
open Openraft.Engine
open Openraft.Repl (dassert)

/-- `send_log_entries` up to the request, `replication/mod.rs:376-420`, with the entries of the log: the entries that are sent,
`prev_log_id` and the last log id of the request. `hint`: `entries_hint.get()`; `limited_get_log_entries` returns one entry of
`[start, end)` at least if there is one, and at most `lim + 1` (its contract, `storage/v2/raft_log_reader.rs:52-64`). An error of
the storage is left out. -/
def readRange (dbg : Bool) (es : List Ent) (hint : Option Nat) (lim : Nat) (p q : Option LogId) : Res (List Ent × Option LogId × Option LogId) := do
  let start := nextIndex p
  let stop := match hint with
    | some h => min (nextIndex q) (start + h)
    | none => nextIndex q
  if start = stop then return ([], p, p)
  else
    let logs := (es.filter fun e => decide (start ≤ e.id.index ∧ e.id.index < stop)).take (lim + 1)
    let _first ← unwrap logs.head?
    let last ← unwrap logs.getLast?
    dassert dbg (!logs.isEmpty && decide (logs.length ≤ stop - start))
    return (logs, p, some last.id)

/-- the read of a range that is in a log -/
theorem readRange_ok {es : List Ent} {p : Option LogId} {x : LogId} (hc : Cons (es.map (·.id))) (hle : nextIndex p ≤ nextIndex (some x))
    (hall : ∀ i, nextIndex p ≤ i → i ≤ x.index → ∃ e ∈ es, e.id.index = i) (dbg : Bool) (hint : Option Nat) (lim : Nat) :
    ∃ logs r, readRange dbg es hint lim p (some x) = .ok (logs, p, r) ∧ (∀ j e, logs[j]? = some e → e ∈ es ∧ e.id.index = nextIndex p + j) ∧
      nextIndex r = nextIndex p + logs.length ∧ nextIndex r ≤ nextIndex (some x) ∧ (r = p ∨ ∃ e ∈ es, r = some e.id) ∧
      (nextIndex p ≤ x.index → hint ≠ some 0 → logs ≠ []) := by
  unfold readRange
  have hst : ∀ stop : Nat, nextIndex p ≤ stop → stop ≤ nextIndex (some x) → (nextIndex p ≤ x.index → hint ≠ some 0 → nextIndex p ≠ stop) →
      ∃ logs r, (if nextIndex p = stop then (.ok ([], p, p) : Res (List Ent × Option LogId × Option LogId)) else do
        let logs := (es.filter fun e => decide (nextIndex p ≤ e.id.index ∧ e.id.index < stop)).take (lim + 1)
        let _first ← unwrap logs.head?
        let last ← unwrap logs.getLast?
        dassert dbg (!logs.isEmpty && decide (logs.length ≤ stop - nextIndex p))
        return (logs, p, some last.id)) = .ok (logs, p, r) ∧ (∀ j e, logs[j]? = some e → e ∈ es ∧ e.id.index = nextIndex p + j) ∧
      nextIndex r = nextIndex p + logs.length ∧ nextIndex r ≤ nextIndex (some x) ∧ (r = p ∨ ∃ e ∈ es, r = some e.id) ∧
      (nextIndex p ≤ x.index → hint ≠ some 0 → logs ≠ []) := by
    intro stop h1 h2 h3
    by_cases hs : nextIndex p = stop
    · rw [if_pos hs]
      exact ⟨[], p, rfl, (fun j e he => by simp at he), rfl, hle, Or.inl rfl, fun a b => absurd hs (h3 a b)⟩
    · rw [if_neg hs]
      simp only [nextIndex_some] at h2
      obtain ⟨e0, he0, hi0⟩ := hall (nextIndex p) (le_refl _) (by omega)
      generalize hL : es.filter (fun e => decide (nextIndex p ≤ e.id.index ∧ e.id.index < stop)) = L
      have hmem : ∀ e, e ∈ L ↔ e ∈ es ∧ nextIndex p ≤ e.id.index ∧ e.id.index < stop := by
        intro e; rw [← hL, List.mem_filter, decide_eq_true_eq]
      have hcL : Cons (L.map (·.id)) := by
        have := (hc.filterGe (nextIndex p)).filterLt stop
        rw [List.filter_filter, List.filter_map] at this
        rw [← hL]
        convert this using 3
        funext e
        simp [Bool.and_comm]
      have hin : e0 ∈ L := (hmem e0).2 ⟨he0, by omega, by omega⟩
      cases hLL : L with
      | nil => rw [hLL] at hin; cases hin
      | cons a b =>
        rw [hLL] at hcL hin hmem
        have ha : a.id.index = nextIndex p := by
          have h4 := ((hmem a).1 (by simp)).2.1
          have h5 := hcL.head_le (a := a.id) rfl (List.mem_map.2 ⟨e0, hin, rfl⟩)
          omega
        have hidx : ∀ (j : Nat) (e : Ent), (a :: b)[j]? = some e → e.id.index = nextIndex p + j := by
          intro j e he
          have : (a.id :: b.map (·.id))[j]? = some e.id := by
            rw [← List.map_cons (f := fun e : Ent => e.id), List.getElem?_map, he]; rfl
          have := Cons.getElem? (a := a.id) hcL this
          omega
        have hidx' : ∀ (j : Nat) (e : Ent), ((a :: b).take (lim + 1))[j]? = some e → e ∈ es ∧ e.id.index = nextIndex p + j := by
          intro j e he
          rw [List.getElem?_take] at he
          split at he
          · exact ⟨((hmem e).1 (List.mem_of_getElem? he)).1, hidx j e he⟩
          · cases he
        have htk : (a :: b).take (lim + 1) = a :: b.take lim := rfl
        obtain ⟨z, hz⟩ : ∃ z, ((a :: b).take (lim + 1)).getLast? = some z := by
          rw [htk]; exact ⟨_, List.getLast?_eq_some_getLast (by simp)⟩
        have hzl : ((a :: b).take (lim + 1))[((a :: b).take (lim + 1)).length - 1]? = some z := by
          rw [← List.getLast?_eq_getElem?]; exact hz
        have hzi := hidx' _ _ hzl
        have hpos : 0 < ((a :: b).take (lim + 1)).length := by rw [htk]; simp
        have hzs : z.id.index < stop := by
          have : z ∈ a :: b := List.mem_of_mem_take (List.mem_of_getElem? hzl)
          exact ((hmem z).1 this).2.2
        refine ⟨(a :: b).take (lim + 1), some z.id, ?_, hidx', ?_, ?_, Or.inr ⟨z, hzi.1, rfl⟩, fun _ _ => by rw [htk]; simp⟩
        · have hb : (!((a :: b).take (lim + 1)).isEmpty && decide (((a :: b).take (lim + 1)).length ≤ stop - nextIndex p)) = true := by
            rw [Bool.and_eq_true, decide_eq_true_eq]
            refine ⟨by rw [htk]; rfl, by omega⟩
          have hh : ((a :: b).take (lim + 1)).head? = some a := rfl
          simp only [hz, hb, hh]
          cases dbg <;> rfl
        · simp only [nextIndex_some]; omega
        · simp only [nextIndex_some]; omega
  cases hint with
  | none => exact hst _ hle (le_refl _) (fun h _ => by simp only [nextIndex_some]; omega)
  | some h =>
    refine hst (min (nextIndex (some x)) (nextIndex p + h)) (by omega) (by omega) (fun h1 h2 => ?_)
    have : h ≠ 0 := fun hx => h2 (by rw [hx])
    simp only [nextIndex_some] at *
    omega

end Openraft.Runtime
