import Verif.Model.Community
import Verif.Model.Config
/-!
# Networking

`networking/mod.rs`.  The listening thread is a transition system: `step` gives the next state of
thread, socket queue and thread pool for every label that is enabled.  Every list of enabled labels is
one execution, so "for all label lists" is "for all arrival histories and all thread-pool schedules".
-/

namespace Ipv8

/-- An application object implementing `Receiver` (`networking/mod.rs:24-27`): whether its
`on_receive` can panic on the given packet (it may have state, so it need not always), and which
community callbacks it makes. -/
structure Receiver where
  mayPanic : Packet → Address → Bool
  calls : Packet → Address → List Call

/-- The receiver the documentation of `Receiver` asks for (`networking/mod.rs:22-23`: "distribute it
through its CommunityRegistry to communities"): it hands the packet to `forward_message`
(`community/mod.rs:147`).  The crate does not contain such a receiver; applications have to write it. -/
def registryReceiver (r : CommunityRegistry) : Receiver where
  mayPanic p a := (r.forwardMessage p a).1.isPanic
  calls p a := (r.forwardMessage p a).2

/-- `networking/mod.rs:59-64`; the socket lives in `NetState`. -/
structure NetworkReceiver where
  receivers : List Receiver

/-- `networking/mod.rs:69-79` after a successful bind. -/
def NetworkReceiver.new : NetworkReceiver := ⟨[]⟩

/-- `networking/mod.rs:146-148`. -/
def NetworkReceiver.addReceiver (n : NetworkReceiver) (r : Receiver) : NetworkReceiver :=
  ⟨n.receivers ++ [r]⟩

/-- A UDP datagram in the socket's queue. -/
structure Datagram where
  bytes : Bytes
  source : SocketAddr
  deriving DecidableEq, Repr

/-- `networking/mod.rs:49-51`: the datagram that `send_to` hands to the network when it succeeds.
`sender` is the address of the sending socket. -/
def NetworkSender.send (sender : SocketAddr) (_address : Address) (packet : Packet) : Datagram :=
  ⟨packet.raw, sender⟩

/-- Why the listening thread ended. -/
inductive Stop
  | pollError
  | recvError
  | receiverPanic
  deriving DecidableEq, Repr

/-- Program counter of the listening thread (`networking/mod.rs:122-142`). -/
inductive Phase
  /-- in `poll.poll` (123) -/
  | polling
  /-- in `for _ in events.iter()` (125) with this many iterations to go, before `recv_from` (128) -/
  | handling (events : Nat)
  /-- inside `scope_fifo` (133-140): receivers not yet called, receivers running, and whether one of
  them panicked; `events` iterations follow -/
  | dispatch (events : Nat) (packet : Packet) (address : Address) (todo running : List Nat)
      (panicked : Bool)
  /-- `listen` returned an error or unwound; the thread is gone (99) -/
  | stopped (cause : Stop)
  deriving DecidableEq, Repr

/-- Observable events of the listening thread. -/
inductive Ev
  /-- `recv_from` returned and `packet` was built (128-130) -/
  | taken (packet : Packet) (address : Address)
  /-- receiver number `r` is called (137) -/
  | call (r : Nat) (packet : Packet) (address : Address)
  /-- that call ended: it returned or panicked -/
  | ret (r : Nat)
  deriving DecidableEq, Repr

/-- Thread, socket and history. -/
structure NetState where
  /-- datagrams queued in the socket, oldest first -/
  queue : List Datagram
  /-- an edge-triggered readiness notification is pending for the socket -/
  ready : Bool
  /-- the receive buffer, reused for all datagrams (116-117) -/
  buffer : Bytes
  phase : Phase
  /-- everything that happened, oldest first -/
  trace : List Ev
  deriving DecidableEq, Repr

/-- One atomic step of the environment or of a thread. -/
inductive Label
  /-- the network delivers a datagram to the socket -/
  | arrive (d : Datagram)
  /-- `poll` returns the pending readiness event of the one registered socket -/
  | pollEvent
  /-- `poll` times out: no events -/
  | pollTimeout
  /-- `poll` returns a readiness event that is not backed by a new datagram -/
  | pollSpurious
  /-- `poll` fails; or, before the first poll, setting up does (`Poll::new`, `poll.register`, 112-120),
  which ends the thread in the same way -/
  | pollError
  /-- `recv_from` -/
  | recv
  /-- `recv_from` fails although a datagram may be queued -/
  | recvError
  /-- the thread pool starts `on_receive` of receiver `r` -/
  | start (r : Nat)
  /-- that call returns -/
  | finish (r : Nat)
  /-- that call panics -/
  | crash (r : Nat)
  /-- `scope_fifo` returns (or resumes a receiver's panic) -/
  | join
  deriving DecidableEq, Repr

/-- The parameters of a listening thread: `listen(self, queuesize, buffersize, pollinterval)`
(`networking/mod.rs:104-109`).  `queuesize` and `pollinterval` only influence what `poll` may answer: see
`Config.allows`. -/
structure Listener where
  receivers : List Receiver
  buffersize : Nat

/-- State when `listen` enters its loop (`networking/mod.rs:112-122`): a zeroed buffer; datagrams that
were queued before `poll.register` (120) are in `queue`, and registering a readable socket raises its
readiness. -/
def Listener.init (l : Listener) (queued : List Datagram) : NetState where
  queue := queued
  ready := !queued.isEmpty
  buffer := List.replicate l.buffersize 0
  phase := .polling
  trace := []

/-- `recv_from(buffer)` on a datagram (`networking/mod.rs:128`): copies as much as fits to the front of
the buffer and returns the number of bytes copied; the rest of the datagram is lost. -/
def recvInto (buffer : Bytes) (d : Bytes) : Nat × Bytes :=
  let n := min d.length buffer.length
  (n, d.take n ++ buffer.drop n)

/-- After one event was handled: next iteration of the `for`, or back to `poll`. -/
def afterEvent (events : Nat) : Phase :=
  if events = 0 then .polling else .handling events

/-- Can receiver number `r` panic on this packet? -/
def Listener.mayPanic (l : Listener) (r : Nat) (p : Packet) (a : Address) : Bool :=
  match l.receivers[r]? with
  | some x => x.mayPanic p a
  | none => false

/-- One step of the system; `none` when the label is not enabled.  `networking/mod.rs:122-142`.
Edge-triggered readiness (`PollOpt::edge()`, 120): an arrival raises the flag, delivering the event
clears it, whatever is still queued. -/
def Listener.step (l : Listener) (s : NetState) : Label → Option NetState
  | .arrive d => some { s with queue := s.queue ++ [d], ready := true }
  | .pollEvent =>
    match s.phase, s.ready with
    | .polling, true => some { s with ready := false, phase := .handling 1 }
    | _, _ => none
  | .pollTimeout =>
    match s.phase with
    | .polling => some s
    | _ => none
  | .pollSpurious =>
    match s.phase with
    | .polling => some { s with phase := .handling 1 }
    | _ => none
  | .pollError =>
    match s.phase with
    | .polling => some { s with phase := .stopped .pollError }
    | _ => none
  | .recv =>
    match s.phase with
    | .handling (k + 1) =>
      match s.queue with
      | [] => some { s with phase := .stopped .recvError }
      | d :: q =>
        let (recvSize, buffer) := recvInto s.buffer d.bytes
        let packet : Packet := ⟨buffer.take recvSize⟩
        let address : Address := ⟨d.source⟩
        some { s with
          queue := q
          buffer := buffer
          phase := .dispatch k packet address (List.range l.receivers.length) [] false
          trace := s.trace ++ [.taken packet address] }
    | _ => none
  | .recvError =>
    match s.phase with
    | .handling (_ + 1) => some { s with phase := .stopped .recvError }
    | _ => none
  | .start r =>
    match s.phase with
    | .dispatch k p a todo running panicked =>
      if r ∈ todo then
        some { s with
          phase := .dispatch k p a (todo.erase r) (r :: running) panicked
          trace := s.trace ++ [.call r p a] }
      else none
    | _ => none
  | .finish r =>
    match s.phase with
    | .dispatch k p a todo running panicked =>
      if r ∈ running then
        some { s with
          phase := .dispatch k p a todo (running.erase r) panicked
          trace := s.trace ++ [.ret r] }
      else none
    | _ => none
  | .crash r =>
    match s.phase with
    | .dispatch k p a todo running _ =>
      if r ∈ running ∧ l.mayPanic r p a = true then
        some { s with
          phase := .dispatch k p a todo (running.erase r) true
          trace := s.trace ++ [.ret r] }
      else none
    | _ => none
  | .join =>
    match s.phase with
    | .dispatch k _ _ todo running panicked =>
      if running = [] ∧ (todo = [] ∨ panicked = true) then
        some { s with phase := if panicked then .stopped .receiverPanic else afterEvent k }
      else none
    | _ => none

/-- Run a list of labels; `none` when one of them is not enabled. -/
def Listener.run (l : Listener) (s : NetState) : List Label → Option NetState
  | [] => some s
  | a :: as =>
    match l.step s a with
    | some s' => l.run s' as
    | none => none

/-- What `listen` did when the thread ended (`networking/mod.rs:104-143`): the loop has no `break`, so it
returns only through one of the two `?`, or unwinds when `scope_fifo` resumes a receiver's panic. -/
def Stop.listen : Stop → Outcome Unit
  | .pollError => .err (.io 0)
  | .recvError => .err (.io 1)
  | .receiverPanic => .panic

/-- The closure given to `thread::spawn` (`networking/mod.rs:93-100`): how it ends, given how `listen`
ended, and the `error!` lines it logs.  (The unwinding of a panic prints a message to stderr as well; that
is std's and not modelled.) -/
def threadMain : Outcome Unit → Outcome Unit × List String
  | .ok () => (.ok (), [])
  | .err _ => (.panic, ["the listening thread crashed"])
  | .panic => (.panic, [])

/-- What `join` on the `JoinHandle` returned by `start` (`networking/mod.rs:87-101`) answers in this state:
nothing yet (it blocks), or how the thread's closure ended, where `.panic` is `Err(_)`; and what had been
logged. -/
def NetState.joined (s : NetState) : Option (Outcome Unit × List String) :=
  match s.phase with
  | .stopped cause => some (threadMain cause.listen)
  | _ => none

/-- Which steps a thread started with this configuration can take (`networking/mod.rs:88-90`, 114, 123).
`Events::with_capacity(queuesize)` is the array into which the operating system writes events: with room for
none, `epoll_wait` answers `EINVAL`, so `poll` fails.  One place is enough, as one socket is registered.
Without a `pollinterval`, `poll` blocks until there is an event, although the documentation of the field
says "as fast as possible". -/
def Config.allows (config : Config) : Label → Bool
  | .pollEvent => config.queuesize != 0
  | .pollSpurious => config.queuesize != 0
  | .pollTimeout => config.queuesize != 0 && config.pollinterval.isSome
  | _ => true

/-- The community callbacks that happened in a trace: those made by each called receiver. -/
def Listener.communityCalls (l : Listener) (t : List Ev) : List Call :=
  t.flatMap fun
    | .call r p a =>
      match l.receivers[r]? with
      | some x => x.calls p a
      | none => []
    | _ => []

end Ipv8
