import Verif.Rt.Backoff

/-!
# Errors on their way from a network of version 1 to the replication task

`network/v2/adapt_v1.rs` makes a `RaftNetwork` of version 1 one of version 2. The errors pass through `error/decompose.rs`, `error/into_ok.rs` and the conversions in
`error/streaming_error.rs`, and a snapshot is sent by `Chunked::send_snapshot`, `network/snapshot_transport.rs`.

Simplifications: what an error carries is a number; votes are numbers (only their order is used); the data of a snapshot does not change while it is sent, so that
a chunk has `min cap (fin - offset)` bytes; `snapshot_chunk_size` is set, as `stream_snapshot` does, `replication/mod.rs:752`. The bytes are in `Rt/Chunked.lean`.
`unreachable!()` and `unwrap` of nothing are `none`.
-/

set_option autoImplicit false

namespace Openraft.Rt

/-- `Fatal`, `error.rs:125-137` -/
inductive NFatal where
  | storage (e : Nat)
  | panicked
  | stopped
deriving DecidableEq, Repr

/-- `RaftError`, `error.rs:36-47`; `Infallible` is `Empty` -/
inductive NRaft (ε : Type) where
  | api (e : ε)
  | fatal (f : NFatal)
deriving DecidableEq, Repr

/-- the `source` of `Unreachable`, `error.rs:378-381`: given by the network, or the `Fatal` of the target -/
inductive NSource where
  | net (n : Nat)
  | fatal (f : NFatal)
deriving DecidableEq, Repr

/-- `RPCError`, `error.rs:255-274` -/
inductive NRpc (ε : Type) where
  | timeout (n : Nat)
  | unreachable (s : NSource)
  | tooLarge (hint : Nat)
  | network (n : Nat)
  | remote (target : Nat) (e : ε)
deriving DecidableEq, Repr

/-- `StreamingError`, `error/streaming_error.rs:25-49` -/
inductive NStream (ε : Type) where
  | closed
  | storage (e : Nat)
  | timeout (n : Nat)
  | unreachable (s : NSource)
  | network (n : Nat)
  | remote (target : Nat) (e : ε)
deriving DecidableEq, Repr

/-- `ReplicationError`, `error.rs:228-242` -/
inductive NRepl where
  | higherVote (v : Nat)
  | closed
  | storage (e : Nat)
  | rpc (e : NRpc Empty)
deriving DecidableEq, Repr

/-- `decompose` of a `RaftError`, `error/decompose.rs:40-48` -/
def decomposeRaft {ρ ε : Type} : Except (NRaft ε) ρ → Except (NRaft Empty) (Except ε ρ)
  | .ok r => .ok (.ok r)
  | .error (.api e) => .ok (.error e)
  | .error (.fatal f) => .error (.fatal f)

/-- `decompose` of an `RPCError`, `error/decompose.rs:59-73` -/
def decomposeRpc {ρ ε : Type} : Except (NRpc (NRaft ε)) ρ → Except (NRpc Empty) (Except ε ρ)
  | .ok r => .ok (.ok r)
  | .error (.timeout n) => .error (.timeout n)
  | .error (.unreachable s) => .error (.unreachable s)
  | .error (.tooLarge h) => .error (.tooLarge h)
  | .error (.network n) => .error (.network n)
  | .error (.remote _ (.api e)) => .ok (.error e)
  | .error (.remote _ (.fatal f)) => .error (.unreachable (.fatal f))

/-- `decompose` of a `StreamingError`, `error/decompose.rs:82-94` -/
def decomposeStream {ρ : Type} : Except (NStream NFatal) ρ → Except (NStream Empty) (Except Empty ρ)
  | .ok r => .ok (.ok r)
  | .error .closed => .error .closed
  | .error (.storage e) => .error (.storage e)
  | .error (.timeout n) => .error (.timeout n)
  | .error (.unreachable s) => .error (.unreachable s)
  | .error (.network n) => .error (.network n)
  | .error (.remote _ f) => .error (.unreachable (.fatal f))

/-- `into_ok`, `error/into_ok.rs:11-16` -/
def intoOk {ρ ε : Type} : Except ε ρ → Option ρ
  | .ok r => some r
  | .error _ => none

/-- `decompose_infallible`, `error/decompose.rs:26-32`, after `decompose` -/
def infallible {ρ ε κ : Type} : Except κ (Except ε ρ) → Option (Except κ ρ)
  | .ok r => (intoOk r).map .ok
  | .error e => some (.error e)

/-- `append_entries` and `vote` of the adapter, `network/v2/adapt_v1.rs:27-37` -/
def v1Rpc {ρ : Type} (r : Except (NRpc (NRaft Empty)) ρ) : Option (Except (NRpc Empty) ρ) := infallible (decomposeRpc r)

/-- `full_snapshot` of the adapter, `network/v2/adapt_v1.rs:39-51`, after `send_snapshot` -/
def v1Stream {ρ : Type} (r : Except (NStream NFatal) ρ) : Option (Except (NStream Empty) ρ) := infallible (decomposeStream r)

/-- `From<StreamingError<C, Fatal<C>>> for ReplicationError<C>`, `error/streaming_error.rs:51-65` -/
def NStream.replFatal : NStream NFatal → NRepl
  | .closed => .closed
  | .storage e => .storage e
  | .timeout n => .rpc (.timeout n)
  | .unreachable s => .rpc (.unreachable s)
  | .network n => .rpc (.network n)
  | .remote _ f => .rpc (.unreachable (.fatal f))

/-- `From<StreamingError<C>> for ReplicationError<C>`, `error/streaming_error.rs:82-96` -/
def NStream.repl : NStream Empty → Option NRepl
  | .closed => some .closed
  | .storage e => some (.storage e)
  | .timeout n => some (.rpc (.timeout n))
  | .unreachable s => some (.rpc (.unreachable s))
  | .network n => some (.rpc (.network n))
  | .remote _ _ => none

/-- `From<RPCError<C>> for StreamingError<C>`, `error/streaming_error.rs:67-80` -/
def NRpc.stream : NRpc Empty → Option (NStream Empty)
  | .timeout n => some (.timeout n)
  | .unreachable s => some (.unreachable s)
  | .tooLarge _ => none
  | .network n => some (.network n)
  | .remote t e => some (.remote t e)

/-- what `main` does with an error, `replication/mod.rs:258-305` -/
def NRepl.res : NRepl → BkRes
  | .higherVote _ => .quit
  | .closed => .quit
  | .storage _ => .quit
  | .rpc (.timeout _) => .other
  | .rpc (.unreachable _) => .unreachable
  | .rpc (.tooLarge _) => .tooLarge
  | .rpc (.network _) => .other
  | .rpc (.remote _ _) => .other

/-- `handle_snapshot_callback`, `replication/mod.rs:810-843`: `last` is the log id of the snapshot -/
def snapRes (vote last : Nat) : Except (NStream Empty) Nat → Option BkRes
  | .ok v => some (if vote < v then NRepl.res (.higherVote v) else .ok last none)
  | .error e => e.repl.map NRepl.res

/-- the answer to one chunk, `network/snapshot_transport.rs:107`: the time ran out (`late`), or what the network returned; `mismatch` is the only
`InstallSnapshotError` -/
inductive ChunkAns where
  | late
  | err (e : NRpc (NRaft Unit))
  | vote (v : Nat)
deriving DecidableEq, Repr

/-- one round of the loop of `send_snapshot`: the sender was cancelled; reading failed; a request was sent and took some time -/
inductive ChunkTurn where
  | cancelled
  | readFails (e : Nat)
  | rpc (took : Nat) (a : ChunkAns)
deriving DecidableEq, Repr

/-- what `send_snapshot` keeps: the offset; the clock in milliseconds; when chunks were sent, with their offsets and answers, newest first (no counterpart in the
code); what it returned -/
structure ChunkSend where
  offset : Nat
  now : Nat
  calls : List (Nat × Nat × ChunkAns)
  result : Option (Except (NStream NFatal) Nat)

/-- the begin of `send_snapshot`, `network/snapshot_transport.rs:58-59`: the seek to the end may fail -/
def ChunkSend.start : Option Nat → ChunkSend
  | none => ⟨0, 0, [], none⟩
  | some e => ⟨0, 0, [], some (.error (.storage e))⟩

/-- what an answer does, `network/snapshot_transport.rs:109-161`; `n` bytes were sent -/
def ChunkSend.answer (vote fin n : Nat) (s : ChunkSend) : ChunkAns → ChunkSend
  | .late => s
  | .err (.remote _ (.api ())) => { s with offset := 0 }
  | .err _ => s
  | .vote v =>
    if vote < v then { s with result := some (.ok v) }
    else if s.offset + n = fin then { s with result := some (.ok v) }
    else { s with offset := s.offset + n }

/-- one round of the loop, `network/snapshot_transport.rs:62-162` -/
def ChunkSend.turn (vote fin cap : Nat) (s : ChunkSend) (t : ChunkTurn) : ChunkSend :=
  match s.result with
  | some _ => s
  | none =>
    match t with
    | .cancelled => { s with result := some (.error .closed) }
    | .readFails e => { s with now := s.now + 1, result := some (.error (.storage e)) }
    | .rpc took a =>
      ChunkSend.answer vote fin (min cap (fin - s.offset)) { s with now := s.now + 1 + took, calls := (s.now + 1, s.offset, a) :: s.calls } a

/-- rounds in a row -/
def ChunkSend.run (vote fin cap : Nat) (s : ChunkSend) (ts : List ChunkTurn) : ChunkSend := ts.foldl (ChunkSend.turn vote fin cap) s

end Openraft.Rt
