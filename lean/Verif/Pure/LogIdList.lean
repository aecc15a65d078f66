import Verif.Base.Ids

/-!
# `LogIdList`: the compressed in-memory index of log ids

Model of `engine/log_id_list.rs`. A `LogIdList` is the list `key_log_ids`.
-/

set_option autoImplicit false

namespace Openraft

/-- `LogIdList`, `engine/log_id_list.rs:17-20` -/
abbrev LogIdList := List LogId

namespace LogIdList

/-- `Vec::binary_search_by(|log_id| log_id.index.cmp(&index))` on a list whose indexes strictly
increase: the position of the element, or the position where it would be inserted. Simplification:
the result of the standard library's search is taken by its contract (linear search here). -/
def search (ks : LogIdList) (index : Nat) : Except Nat Nat :=
  let i := ks.findIdx fun k => index ≤ k.index
  match ks[i]? with
  | some k => if k.index = index then .ok i else .error i
  | none => .error i

/-- `LogIdList::get`, `log_id_list.rs:279-292` -/
def get (ks : LogIdList) (index : Nat) : Option LogId :=
  match search ks index with
  | .ok i => (ks[i]?).map fun k => ⟨k.leaderId, index⟩
  | .error i =>
    if i = 0 ∨ i = ks.length then none
    else (ks[i-1]?).map fun k => ⟨k.leaderId, index⟩

/-- `LogIdList::append`, `log_id_list.rs:181-216` (the `debug_assert!` of line 190 is not modelled) -/
def append (ks : LogIdList) (x : LogId) : LogIdList :=
  let l := ks.length
  if l = 0 then ks ++ [x]
  else if l = 1 then ks ++ [x]
  else if (ks[l-2]?).map (·.leaderId) = (ks[l-1]?).map (·.leaderId) then ks.set (l - 1) x
  else ks ++ [x]

/-- `LogIdList::extend_from_same_leader`, `log_id_list.rs:133-147`. The `assert_eq!` of line 140 is
an explicit failure (`none`). -/
def extendFromSameLeader (ks : LogIdList) (new : List LogId) : Option LogIdList :=
  match new.head?, new.getLast? with
  | some first, some last =>
    let ks1 := append ks first
    if last.leaderId = first.leaderId then
      if last ≠ first then some (append ks1 last) else some ks1
    else none
  | _, _ => some ks

/-- loop of `extend`, `log_id_list.rs:154-162` -/
def extendLoop : LogIdList → Option LeaderId → List LogId → LogIdList
  | ks, _, [] => ks
  | ks, prev, x :: xs =>
    if prev ≠ some x.leaderId then extendLoop (append ks x) (some x.leaderId) xs
    else extendLoop ks prev xs

/-- `LogIdList::extend`, `log_id_list.rs:151-171` -/
def extend (ks : LogIdList) (new : List LogId) : LogIdList :=
  let ks1 := extendLoop ks (ks.getLast?.map (·.leaderId)) new
  match new.getLast? with
  | some last => if ks1.getLast? ≠ some last then append ks1 last else ks1
  | none => ks1

/-- `LogIdList::truncate`, `log_id_list.rs:220-243` -/
def truncate (ks : LogIdList) (at_ : Nat) : LogIdList :=
  let cut (i : Nat) : LogIdList :=
    let ks1 := ks.take i
    match ks1.getLast? with
    | some last => if last.index < at_ - 1 then append ks1 ⟨last.leaderId, at_ - 1⟩ else ks1
    | none => ks1
  match search ks at_ with
  | .ok i => cut i
  | .error i => if i = ks.length then ks else cut i

/-- `LogIdList::purge`, `log_id_list.rs:247-274` -/
def purge (ks : LogIdList) (upto : LogId) : LogIdList :=
  if upto.index ≥ nextIndex ks.getLast? then [upto]
  else
    match ks.head? with
    | none => ks      -- not reachable: an empty list has next index 0
    | some k0 =>
      if upto.index < k0.index then ks
      else
        match search ks upto.index with
        | .ok i => if i > 0 then ks.drop i else ks
        | .error i =>
          match ks.drop (i - 1) with
          | [] => []
          | k :: r => { k with index := upto.index } :: r

/-- `LogIdList::by_last_leader`, `log_id_list.rs:313-326` -/
def byLastLeader (ks : LogIdList) : LogIdList :=
  let l := ks.length
  if l < 2 then ks
  else if (ks[l-1]?).map (·.leaderId) = (ks[l-2]?).map (·.leaderId) then ks.drop (l - 2)
  else ks.drop (l - 1)

/-! ## Start-up: `load_log_ids` -/

/-- `res.last().map(|x| x.leader_id) < Some(first.leader_id)` then push, `log_id_list.rs:77-79` -/
def pushIfNewLeader (res : LogIdList) (x : LogId) : LogIdList :=
  if res.getLast?.map (·.leaderId) < some x.leaderId then res ++ [x] else res

/-- The loop of `load_log_ids`, `log_id_list.rs:68-111`, with the recursion stack (top first).
`read` is `sto.get_log_id`. `none` for `fuel = 0`; `loadLoop_terminates` gives a sufficient fuel. -/
def loadLoop (read : Nat → LogId) : Nat → List (LogId × LogId) → LogIdList → Option LogIdList
  | 0, _, _ => none
  | _ + 1, [], res => some res
  | fuel + 1, (first, last) :: stack, res =>
    if first.leaderId = last.leaderId then loadLoop read fuel stack (pushIfNewLeader res first)
    else if first.index + 1 = last.index then
      loadLoop read fuel stack (pushIfNewLeader res first ++ [last])
    else
      let mid := read ((first.index + last.index) / 2)
      if first.leaderId = mid.leaderId then
        loadLoop read fuel ((mid, last) :: stack) (pushIfNewLeader res first)
      else if mid.leaderId = last.leaderId then
        loadLoop read fuel ((first, mid) :: stack) res
      else
        loadLoop read fuel ((first, mid) :: (mid, last) :: stack) res

/-- `LogIdList::load_log_ids`, `log_id_list.rs:46-118` -/
def loadLogIds (lastPurged : Option LogId) (last : Option LogId) (read : Nat → LogId) (fuel : Nat) :
    Option LogIdList :=
  match last with
  | none => some []
  | some last =>
    let first := match lastPurged with
      | none => read 0
      | some x => x
    match loadLoop read fuel [(first, last)] [] with
    | none => none
    | some res => some (if res.getLast? ≠ some last then res ++ [last] else res)

end LogIdList
end Openraft
