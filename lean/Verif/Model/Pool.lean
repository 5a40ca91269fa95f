import Verif.Model.Ipv8
/-!
# Several listening threads and one thread pool

Every started instance has a listening thread of its own, and all of them hand their receivers to
rayon's global pool (`networking/mod.rs:133-140`, `lib.rs:56-63`), which has a fixed number of threads.

Simplification: here a pool thread is occupied by a receiver call and by nothing else, and the listening thread goes on as
soon as all its calls have ended.  In rayon a thread that waits for the end of a packet takes up other jobs meanwhile
and notices the end only after those.  `Model/Workers.lean` has that; `C89_refines` says that every execution there
is one here.
-/

namespace Ipv8

/-- A started instance: its listening thread and the state of it. -/
structure Member where
  listener : Listener
  state : NetState

/-- Receiver calls of a listening thread that occupy a pool thread. -/
def NetState.running (s : NetState) : Nat :=
  match s.phase with
  | .dispatch _ _ _ _ running _ => running.length
  | _ => 0

/-- All listening threads of the process, and the pool. -/
structure Pool where
  /-- size of rayon's global pool -/
  threads : Nat
  members : List Member

/-- Occupied pool threads. -/
def Pool.running (p : Pool) : Nat := (p.members.map fun m => m.state.running).sum

/-- One atomic step. -/
inductive PoolLabel
  /-- `start` of an instance (`lib.rs:80-82`, `networking/mod.rs:87-101`); these datagrams are already
  queued in its socket -/
  | launch (l : Listener) (queued : List Datagram)
  /-- a step of listening thread number `k`, its socket or its receivers -/
  | at (k : Nat) (x : Label)

/-- Does this step need a free pool thread?  (Simplification: a receiver that uses rayon itself would let
its pool thread take up further calls while it waits; not modelled.) -/
def Label.needsThread : Label → Bool
  | .start _ => true
  | _ => false

/-- One step; `none` if it is not enabled.  A receiver is only called on a free thread of the pool. -/
def Pool.step (p : Pool) : PoolLabel → Option Pool
  | .launch l queued => some { p with members := p.members ++ [⟨l, l.init queued⟩] }
  | .at k x =>
    match p.members[k]? with
    | none => none
    | some m =>
      if x.needsThread = true ∧ p.threads ≤ p.running then none
      else
        match m.listener.step m.state x with
        | none => none
        | some s' => some { p with members := p.members.set k ⟨m.listener, s'⟩ }

/-- Run a list of labels. -/
def Pool.run (p : Pool) : List PoolLabel → Option Pool
  | [] => some p
  | a :: as =>
    match p.step a with
    | some p' => p'.run as
    | none => none

end Ipv8
