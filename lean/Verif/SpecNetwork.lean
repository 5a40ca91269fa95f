import Verif.Model.Network
/-!
# Specification vocabulary for the listening thread
-/

namespace Ipv8.Spec

/-- What a receiver is handed for a datagram: its bytes cut to the buffer size, and its source. -/
def received (buffersize : Nat) (d : Datagram) : Packet × Address :=
  (⟨d.bytes.take buffersize⟩, ⟨d.source⟩)

/-- The datagrams that arrive in an execution, in order. -/
def arrivals : List Label → List Datagram
  | [] => []
  | .arrive d :: ls => d :: arrivals ls
  | _ :: ls => arrivals ls

/-- What was taken from the socket, in order. -/
def takenIn : List Ev → List (Packet × Address)
  | [] => []
  | .taken p a :: t => (p, a) :: takenIn t
  | _ :: t => takenIn t

/-- What receiver `r` was called with, in order. -/
def callsOf (r : Nat) : List Ev → List (Packet × Address)
  | [] => []
  | .call r' p a :: t => if r' = r then (p, a) :: callsOf r t else callsOf r t
  | _ :: t => callsOf r t

/-- How many calls of receiver `r` have ended. -/
def returnsOf (r : Nat) : List Ev → Nat
  | [] => 0
  | .ret r' :: t => (if r' = r then 1 else 0) + returnsOf r t
  | _ :: t => returnsOf r t

/-- The thread is between two datagrams: waiting for events or about to read the next datagram. -/
def idle : Phase → Bool
  | .polling => true
  | .handling _ => true
  | _ => false

/-- The thread is gone. -/
def dead : Phase → Bool
  | .stopped _ => true
  | _ => false

/-- Labels that are work of the listening thread and the pool on what is already there: no arrivals, no
failures, no notification without a new datagram, no idle timeouts. -/
def internal : Label → Bool
  | .pollEvent => true
  | .recv => true
  | .start _ => true
  | .finish _ => true
  | .join => true
  | _ => false

/-- No receiver ever panics. -/
def NoPanics (l : Listener) : Prop := ∀ x ∈ l.receivers, ∀ p a, x.mayPanic p a = false

end Ipv8.Spec
