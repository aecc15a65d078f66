import Mathlib.Data.List.Basic
import Mathlib.Data.List.TakeDrop
import Mathlib.Logic.Function.Basic

/-!
# Sending a snapshot in chunks

Model of `network/snapshot_transport.rs:47-253` (`Chunked::send_snapshot`,
`Chunked::receive_snapshot`, `Streaming::receive`) with any number of concurrent transfers to one
receiver. Snapshot ids are numbers; `content id` is the data of the snapshot with that id (the
storage contract wants ids to be unique).

Simplified: storage errors, cancellation and a rejected vote end a transfer and have no effect on
the receiver; they are covered by transfers that stop sending. `SnapshotData` is a byte list with
`AsyncSeek`/`AsyncWrite` semantics: writing behind the end fills the gap with zeros.
`begin_receiving_snapshot` returns an empty one.
-/

set_option autoImplicit false

namespace Openraft.Rt.Chunked

variable {α : Type}

/-- `InstallSnapshotRequest`, `raft/message/install_snapshot.rs`: the fields that matter here -/
structure Chunk (α : Type) where
  id : Nat
  offset : Nat
  data : List α
  done : Bool
deriving DecidableEq, Repr

/-- `Streaming`, `network/snapshot_transport.rs:343-358` -/
structure Streaming (α : Type) where
  id : Nat
  offset : Nat
  file : List α
deriving DecidableEq, Repr

/-- `write_all` at a position -/
def writeAt (zero : α) (file : List α) (pos : Nat) (d : List α) : List α :=
  (file ++ List.replicate (pos - file.length) zero).take pos ++ d ++ file.drop (pos + d.length)

/-- `Streaming::receive`, `snapshot_transport.rs:227-252` -/
def Streaming.receive (zero : α) (s : Streaming α) (c : Chunk α) : Streaming α :=
  let pos := if c.offset ≠ s.offset then c.offset else s.offset
  { s with offset := pos + c.data.length, file := writeAt zero s.file pos c.data }

/-- the answer to a chunk -/
inductive Answer where
  | ok
  | mismatch
deriving DecidableEq, Repr

/-- `Chunked::receive_snapshot`, `snapshot_transport.rs:165-216`: the new streaming state, the answer
and the finished snapshot `(id, data)` -/
def receive (zero : α) (st : Option (Streaming α)) (c : Chunk α) :
    Option (Streaming α) × Answer × Option (Nat × List α) :=
  let cur : Option (Streaming α) :=
    if st.map (·.id) ≠ some c.id then
      if c.offset ≠ 0 then none else some ⟨c.id, 0, []⟩
    else st
  match cur with
  | none => (st, .mismatch, none)
  | some s =>
    let s' := s.receive zero c
    if c.done then (none, .ok, some (c.id, s'.file)) else (some s', .ok, none)

/-- one transfer: the loop state of `send_snapshot` and the requests that are still under way -/
structure Transfer (α : Type) where
  offset : Nat
  finished : Bool
  transit : List (Chunk α)
deriving DecidableEq, Repr

/-- the chunk sent at the current offset, `snapshot_transport.rs:73-96`. `cap` is the capacity of the
read buffer (`Vec::with_capacity(chunk_size)` guarantees at least `chunk_size`). -/
def nextChunk (content : List α) (id cap offset : Nat) : Chunk α :=
  let d := (content.drop offset).take cap
  ⟨id, offset, d, offset + d.length == content.length⟩

/-- what the sender does with an answer, `snapshot_transport.rs:110-160` -/
def Transfer.answered (t : Transfer α) (c : Chunk α) : Answer → Transfer α
  | .mismatch => { t with offset := 0 }
  | .ok => if c.done then { t with finished := true } else { t with offset := t.offset + c.data.length }

/-- a receiver and its transfers; there is one transfer at a time per snapshot id -/
structure Sys (α : Type) where
  recv : Option (Streaming α)
  tr : Nat → Transfer α
  /-- snapshots reported as complete by the receiver -/
  out : List (Nat × List α)

def Sys.init : Sys α := ⟨none, fun _ => ⟨0, false, []⟩, []⟩

/-- replace the state of one transfer -/
def Sys.setTr (s : Sys α) (id : Nat) (t : Transfer α) : Sys α :=
  { s with tr := Function.update s.tr id t }

/-- Events. With `fifo` the requests of one transfer arrive in the order in which they were sent. -/
inductive Step (zero : α) (content : Nat → List α) (fifo : Bool) : Sys α → Sys α → Prop
  /-- (re)send the chunk at the current offset; an earlier request that timed out may still be under
  way -/
  | send (s : Sys α) (id cap : Nat) : 0 < cap → (s.tr id).finished = false →
      Step zero content fifo s (s.setTr id { s.tr id with
        transit := (s.tr id).transit ++ [nextChunk (content id) id cap (s.tr id).offset] })
  /-- a request is lost -/
  | lose (s : Sys α) (id : Nat) (a b : List (Chunk α)) (c : Chunk α) :
      (s.tr id).transit = a ++ c :: b →
      Step zero content fifo s (s.setTr id { s.tr id with transit := a ++ b })
  /-- a request arrives; its answer is lost or comes too late -/
  | arrive (s : Sys α) (id : Nat) (a b : List (Chunk α)) (c : Chunk α) :
      (s.tr id).transit = a ++ c :: b → (fifo = true → a = []) →
      Step zero content fifo s
        { recv := (receive zero s.recv c).1
          tr := Function.update s.tr id { s.tr id with transit := a ++ b }
          out := s.out ++ (receive zero s.recv c).2.2.toList }
  /-- the newest request arrives and its answer reaches the waiting sender -/
  | arriveAnswered (s : Sys α) (id : Nat) (a : List (Chunk α)) (c : Chunk α) :
      (s.tr id).transit = a ++ [c] → (fifo = true → a = []) →
      Step zero content fifo s
        { recv := (receive zero s.recv c).1
          tr := Function.update s.tr id
            (Transfer.answered { s.tr id with transit := a } c (receive zero s.recv c).2.1)
          out := s.out ++ (receive zero s.recv c).2.2.toList }
  /-- the leader sends the snapshot again in a new transfer; with `fifo`, nothing of the old one is
  still under way -/
  | again (s : Sys α) (id : Nat) : (fifo = true → (s.tr id).transit = []) →
      Step zero content fifo s (s.setTr id { s.tr id with offset := 0, finished := false })
  /-- the receiver restarts: the streaming state is in memory only -/
  | crash (s : Sys α) : Step zero content fifo s { s with recv := none }

inductive Run (zero : α) (content : Nat → List α) (fifo : Bool) : Sys α → Prop
  | init : Run zero content fifo Sys.init
  | step {s s' : Sys α} : Run zero content fifo s → Step zero content fifo s s' →
      Run zero content fifo s'

/-- a transfer without any fault: the chunks are received one after the other; the result is what
the receiver reports as complete and the number of requests -/
def clean (zero : α) (content : List α) (id cap : Nat) :
    Nat → Option (Streaming α) → Nat → Option (Nat × List α)
  | 0, _, _ => none
  | fuel + 1, st, offset =>
    let c := nextChunk content id cap offset
    let r := receive zero st c
    match r.2.2 with
    | some x => some x
    | none =>
      match r.2.1 with
      | .mismatch => clean zero content id cap fuel r.1 0
      | .ok => clean zero content id cap fuel r.1 (offset + c.data.length)

end Openraft.Rt.Chunked
