import Verif.Model.Basic
/-!
# Configuration

`configuration.rs`.
-/

namespace Ipv8

/-- `configuration.rs:11-28`; a `Duration` is its number of nanoseconds. -/
structure Config where
  queuesize : Nat
  buffersize : Nat
  pollinterval : Option Nat
  threadcount : Nat
  defaultHosts : List Address
  sendingAddress : Address
  receivingAddress : Address
  deriving DecidableEq, Repr

/-- `configuration.rs:30-105`. -/
def Config.default : Config where
  queuesize := 100
  buffersize := 2048
  pollinterval := none
  threadcount := 0
  sendingAddress := ⟨.v4 0 0 0 0 8000⟩
  receivingAddress := ⟨.v4 0 0 0 0 0⟩
  defaultHosts := [
    ⟨.v4 130 161 119 206 6421⟩,
    ⟨.v4 130 161 119 206 6422⟩,
    ⟨.v4 131 180 27 155 6423⟩,
    ⟨.v4 131 180 27 156 6424⟩,
    ⟨.v4 131 180 27 161 6427⟩,
    ⟨.v4 131 180 27 161 6427⟩,
    ⟨.v4 131 180 27 161 6521⟩,
    ⟨.v4 131 180 27 161 6522⟩,
    ⟨.v4 131 180 27 162 6523⟩,
    ⟨.v4 131 180 27 162 6524⟩,
    ⟨.v4 130 161 119 215 6525⟩,
    ⟨.v4 130 161 119 215 6526⟩,
    ⟨.v4 81 171 27 194 6527⟩,
    ⟨.v4 81 171 27 194 6528⟩]

end Ipv8
