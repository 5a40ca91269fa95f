import Verif.Model.Network
/-!
# How the pool goes through the receivers

`networking/mod.rs:133-140` in more detail than `Model/Network.lean`: the job of `scope_fifo` runs
`self.receivers.par_iter().for_each(…)`.  rayon's parallel iterator over a slice halves the range as long as it
sees fit (`bridge_producer_consumer`: at `len / 2`, and only ranges of at least two), hands both halves to
`join`, which always executes both, and goes through a range that it does not halve in order, on one thread.  A
panic ends the loop over that range only; `join` and the scope wait for everything else and then resume it.
When to halve depends on the load of the pool and is arbitrary here; so is the order of the jobs.
-/

namespace Ipv8

/-- A job of the pool: it has the receivers from `lo` up to but without `hi`. -/
inductive Task
  /-- not begun, may still be halved -/
  | pending (lo hi : Nat)
  /-- going through the range, between two calls -/
  | between (lo hi : Nat)
  /-- in the call of `r`, those behind it up to `hi` are to follow -/
  | inside (r hi : Nat)
  deriving DecidableEq, Repr

/-- Where the listening thread is, cf. `Phase`. -/
inductive RPhase
  | polling
  | handling (events : Nat)
  /-- inside `scope_fifo`, with these jobs -/
  | scope (events : Nat) (packet : Packet) (address : Address) (tasks : List Task) (panicked : Bool)
  | stopped (cause : Stop)
  deriving DecidableEq, Repr

/-- Thread, socket and history, cf. `NetState`. -/
structure RState where
  queue : List Datagram
  ready : Bool
  buffer : Bytes
  phase : RPhase
  trace : List Ev
  deriving DecidableEq, Repr

/-- One atomic step. -/
inductive RLabel
  | arrive (d : Datagram)
  | pollEvent
  | pollTimeout
  | pollSpurious
  | pollError
  | recv
  | recvError
  /-- a job halves its range -/
  | split (lo hi : Nat)
  /-- a job starts to go through its range -/
  | begin (lo hi : Nat)
  /-- the job with the range from `r` to `hi` calls receiver `r` -/
  | call (r hi : Nat)
  /-- that call returns -/
  | finish (r hi : Nat)
  /-- that call panics -/
  | crash (r hi : Nat)
  /-- a job is at the end of its range -/
  | done (hi : Nat)
  /-- `scope_fifo` returns, or resumes a panic -/
  | join
  deriving DecidableEq, Repr

/-- State when `listen` enters its loop (`networking/mod.rs:112-122`). -/
def Listener.rinit (l : Listener) (queued : List Datagram) : RState where
  queue := queued
  ready := !queued.isEmpty
  buffer := List.replicate l.buffersize 0
  phase := .polling
  trace := []

/-- After one event was handled (`networking/mod.rs:122-142`). -/
def rafterEvent (events : Nat) : RPhase :=
  if events = 0 then .polling else .handling events

/-- One step, `networking/mod.rs:122-142`; `none` when the label is not enabled. -/
def Listener.rstep (l : Listener) (s : RState) : RLabel → Option RState
  | .arrive d => some { s with queue := s.queue ++ [d], ready := true }
  | .pollEvent =>
    match s.phase, s.ready with
    | .polling, true => some { s with ready := false, phase := .handling 1 }
    | _, _ => none
  | .pollTimeout =>
    match s.phase with
    | .polling => some s
    | _ => none
  | .pollSpurious =>
    match s.phase with
    | .polling => some { s with phase := .handling 1 }
    | _ => none
  | .pollError =>
    match s.phase with
    | .polling => some { s with phase := .stopped .pollError }
    | _ => none
  | .recv =>
    match s.phase with
    | .handling (k + 1) =>
      match s.queue with
      | [] => some { s with phase := .stopped .recvError }
      | d :: q =>
        let (recvSize, buffer) := recvInto s.buffer d.bytes
        let packet : Packet := ⟨buffer.take recvSize⟩
        let address : Address := ⟨d.source⟩
        some { s with
          queue := q
          buffer := buffer
          phase := .scope k packet address [.pending 0 l.receivers.length] false
          trace := s.trace ++ [.taken packet address] }
    | _ => none
  | .recvError =>
    match s.phase with
    | .handling (_ + 1) => some { s with phase := .stopped .recvError }
    | _ => none
  | .split lo hi =>
    match s.phase with
    | .scope k p a tasks panicked =>
      if .pending lo hi ∈ tasks ∧ lo + 2 ≤ hi then
        let mid := lo + (hi - lo) / 2
        some { s with
          phase := .scope k p a (.pending lo mid :: .pending mid hi :: tasks.erase (.pending lo hi)) panicked }
      else none
    | _ => none
  | .begin lo hi =>
    match s.phase with
    | .scope k p a tasks panicked =>
      if .pending lo hi ∈ tasks then
        some { s with phase := .scope k p a (.between lo hi :: tasks.erase (.pending lo hi)) panicked }
      else none
    | _ => none
  | .call r hi =>
    match s.phase with
    | .scope k p a tasks panicked =>
      if .between r hi ∈ tasks ∧ r < hi then
        some { s with
          phase := .scope k p a (.inside r hi :: tasks.erase (.between r hi)) panicked
          trace := s.trace ++ [.call r p a] }
      else none
    | _ => none
  | .finish r hi =>
    match s.phase with
    | .scope k p a tasks panicked =>
      if .inside r hi ∈ tasks then
        some { s with
          phase := .scope k p a (.between (r + 1) hi :: tasks.erase (.inside r hi)) panicked
          trace := s.trace ++ [.ret r] }
      else none
    | _ => none
  | .crash r hi =>
    match s.phase with
    | .scope k p a tasks _ =>
      if .inside r hi ∈ tasks ∧ l.mayPanic r p a = true then
        some { s with
          phase := .scope k p a (tasks.erase (.inside r hi)) true
          trace := s.trace ++ [.ret r] }
      else none
    | _ => none
  | .done hi =>
    match s.phase with
    | .scope k p a tasks panicked =>
      if .between hi hi ∈ tasks then
        some { s with phase := .scope k p a (tasks.erase (.between hi hi)) panicked }
      else none
    | _ => none
  | .join =>
    match s.phase with
    | .scope k _ _ [] panicked =>
      some { s with phase := if panicked then .stopped .receiverPanic else rafterEvent k }
    | _ => none

/-- Run a list of labels; `none` when one of them is not enabled. -/
def Listener.rrun (l : Listener) (s : RState) : List RLabel → Option RState
  | [] => some s
  | x :: xs =>
    match l.rstep s x with
    | some s' => l.rrun s' xs
    | none => none

end Ipv8
