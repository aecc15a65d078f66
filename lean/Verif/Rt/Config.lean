import Mathlib.Order.Nat

/-!
# Configuration

Model of `Config::validate` and of the time values derived from a configuration
(`config/config.rs:251-312`, `engine/engine_config.rs:38-54`). Durations are milliseconds.
The command line parser (`Config::build` calls it before `validate`) is not modelled.
-/

set_option autoImplicit false

namespace Openraft.Rt

/-- the fields of `Config` (`config/config.rs:95-232`) that this model uses -/
structure Config where
  electionTimeoutMin : Nat
  electionTimeoutMax : Nat
  heartbeatInterval : Nat
  maxPayloadEntries : Nat
  maxInSnapshotLogToKeep : Nat
  purgeBatchSize : Nat
deriving DecidableEq, Repr

/-- `ConfigError`, `config/error.rs` -/
inductive ConfigError where
  | electionTimeout (min max : Nat)
  | electionTimeoutLTHeartBeat (min heartbeat : Nat)
  | maxPayloadIs0
deriving DecidableEq, Repr

namespace Config

/-- `Config::validate`, `config/config.rs:291-311` -/
def validate (c : Config) : Except ConfigError Config :=
  if c.electionTimeoutMin ≥ c.electionTimeoutMax then
    .error (.electionTimeout c.electionTimeoutMin c.electionTimeoutMax)
  else if c.electionTimeoutMin ≤ c.heartbeatInterval then
    .error (.electionTimeoutLTHeartBeat c.electionTimeoutMin c.heartbeatInterval)
  else if c.maxPayloadEntries = 0 then .error .maxPayloadIs0
  else .ok c

/-- `new_rand_election_timeout`, `config/config.rs:251-253`: `gen_range(min..max)` with the random
number `r`; `gen_range` panics on an empty range (`none`). -/
def randElectionTimeout (c : Config) (r : Nat) : Option Nat :=
  if c.electionTimeoutMin < c.electionTimeoutMax then
    some (c.electionTimeoutMin + r % (c.electionTimeoutMax - c.electionTimeoutMin))
  else none

end Config

/-- `time_state::Config`, `engine/time_state.rs:5-24` -/
structure TimerConfig where
  electionTimeout : Nat
  smallerLogTimeout : Nat
  leaderLease : Nat
deriving DecidableEq, Repr

/-- `EngineConfig::new`, `engine/engine_config.rs:38-54` (the timer part) -/
def Config.timer (c : Config) (r : Nat) : Option TimerConfig :=
  (c.randElectionTimeout r).map fun t => ⟨t, c.electionTimeoutMax * 2, c.electionTimeoutMax⟩

end Openraft.Rt
