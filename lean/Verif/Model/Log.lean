import Verif.Model.Network
/-!
# The log of a listening thread

The calls of the `log` macros on the way of a datagram: `networking/mod.rs:72, 96, 110, 124, 126` and
`community/mod.rs:75-78`.  The steps are those of `Listener.step`; this file adds the lines they write.
-/

namespace Ipv8

/-- One record handed to the `log` crate.  Each carries only what the format string carries.  Whether a logger is
installed and which levels it keeps is the application's choice and not modelled. -/
inductive LogLine
  /-- `debug!("Starting, receiving_address: {:?}", ..)` (`networking/mod.rs:72`) -/
  | receiving (address : Address)
  /-- `debug!("IPV8 is starting it's listener!")` (`networking/mod.rs:110`) -/
  | listener
  /-- `trace!("checking poll")` (`networking/mod.rs:124`) -/
  | checking
  /-- `trace!("handling event")` (`networking/mod.rs:126`) -/
  | handling
  /-- `error!(..)` (`networking/mod.rs:96`) -/
  | error (text : String)
  /-- `warn!("Received deprecated message {} from ({:?})", ..)` (`community/mod.rs:75-78`) -/
  | deprecated (warning : Warning)
  deriving DecidableEq, Repr

/-- A listening thread (`networking/mod.rs:59-64`, 104-109) and the warnings each of its receivers has written when
it is through with a packet.  Lines that application code writes of its own accord are not modelled. -/
structure Scribe where
  net : Listener
  says : Nat → Packet → Address → List Warning

/-- A listener all of whose receivers hand their packets to a registry (`registryReceiver`), with the warnings that
`forward_message` (`community/mod.rs:147-164`) then writes. -/
def Scribe.registries (rs : List CommunityRegistry) (buffersize : Nat) : Scribe where
  net := ⟨rs.map registryReceiver, buffersize⟩
  says r p a :=
    match rs[r]? with
    | some registry => (registry.forwardLogged p a).2.2
    | none => []

/-- The thread with its log.  `pending` are the warnings that running receivers have still to write: receivers run at
the same time (`networking/mod.rs:136-138`), so their lines come in any order. -/
structure LogState where
  net : NetState
  pending : List (Nat × Warning)
  /-- oldest first -/
  log : List LogLine
  deriving DecidableEq, Repr

/-- A step of the thread or its environment, or: receiver `r` writes its next warning. -/
inductive LogLabel
  | net (x : Label)
  | write (r : Nat)
  deriving DecidableEq, Repr

/-- `NetworkReceiver::new` (`networking/mod.rs:69-79`) and the start of `listen` (110) have logged. -/
def Scribe.init (l : Scribe) (address : Address) (queued : List Datagram) : LogState where
  net := l.net.init queued
  pending := []
  log := [.receiving address, .listener]

/-- The line the closure of `thread::spawn` writes when `listen` has ended (`networking/mod.rs:93-100`). -/
def closing (s : NetState) : List LogLine :=
  match s.joined with
  | some (_, lines) => lines.map .error
  | none => []

/-- What the listening thread itself writes during a step that leads to `s` (`networking/mod.rs:93-126`).
Simplification: "handling event" (126) is written in the same step as the `recv_from` (128) that follows it at once;
no receiver runs then, so the place of the line in the log is the same. -/
def ownLines (x : Label) (s : NetState) : List LogLine :=
  match x with
  | .pollEvent => [.checking]
  | .pollTimeout => [.checking]
  | .pollSpurious => [.checking]
  | .pollError => closing s
  | .recv => .handling :: closing s
  | .recvError => .handling :: closing s
  | .join => closing s
  | _ => []

/-- Take the first warning of receiver `r` (each receiver writes its lines in its own order). -/
def firstOf (r : Nat) : List (Nat × Warning) → Option (Warning × List (Nat × Warning))
  | [] => none
  | (k, w) :: rest =>
    if k = r then some (w, rest)
    else
      match firstOf r rest with
      | some (v, rest') => some (v, (k, w) :: rest')
      | none => none

/-- The warnings a receiver that is started now will write. -/
def Scribe.begun (l : Scribe) (s : NetState) (r : Nat) : List (Nat × Warning) :=
  match s.phase with
  | .dispatch _ p a _ _ _ => (l.says r p a).map fun w => (r, w)
  | _ => []

/-- One step (`networking/mod.rs:122-142`, `community/mod.rs:75-78`).  A call returns when it has written its lines;
one that panics leaves those it has not written unwritten. -/
def Scribe.step (l : Scribe) (s : LogState) : LogLabel → Option LogState
  | .write r =>
    match firstOf r s.pending with
    | some (w, rest) => some { s with pending := rest, log := s.log ++ [.deprecated w] }
    | none => none
  | .net x =>
    match l.net.step s.net x with
    | none => none
    | some n =>
      match x with
      | .start r => some { s with net := n, pending := s.pending ++ l.begun s.net r }
      | .finish r => if r ∈ s.pending.map (·.1) then none else some { s with net := n }
      | .crash r => some { s with net := n, pending := s.pending.filter (fun e => e.1 != r) }
      | x => some { s with net := n, log := s.log ++ ownLines x n }

/-- Run a list of labels; `none` when one of them is not enabled. -/
def Scribe.run (l : Scribe) (s : LogState) : List LogLabel → Option LogState
  | [] => some s
  | a :: as =>
    match l.step s a with
    | some s' => l.run s' as
    | none => none

end Ipv8
