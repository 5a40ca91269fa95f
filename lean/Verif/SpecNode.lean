import Verif.Model.Node
import Verif.SpecNetwork
/-!
# Specification vocabulary for the life of a socket
-/

namespace Ipv8.Spec

/-- What happened to socket `s`, oldest first. -/
def history (s : Nat) (log : List (Nat × NEv)) : List NEv :=
  (log.filter fun x => x.1 == s).map fun x => x.2

/-- The datagrams that arrived, in order. -/
def arrivedIn : List NEv → List Datagram
  | [] => []
  | .arrive d :: h => d :: arrivedIn h
  | _ :: h => arrivedIn h

/-- The receivers that were added, in order. -/
def registeredIn : List NEv → List Receiver
  | [] => []
  | .register r :: h => r :: registeredIn h
  | _ :: h => registeredIn h

/-- What happened in the listening thread. -/
def threadIn : List NEv → List Ev
  | [] => []
  | .net e :: h => e :: threadIn h
  | _ :: h => threadIn h

/-- The events of an execution of a listening thread: arrivals, and what each other step adds to the
trace. -/
def observed (l : Listener) (s : NetState) : List Label → List NEv
  | [] => []
  | x :: ls =>
    match l.step s x with
    | none => []
    | some s' =>
      match x with
      | .arrive d => .arrive d :: observed l s' ls
      | _ => (s'.trace.drop s.trace.length).map .net ++ observed l s' ls

/-- The life of the open socket of a `NetworkSender` bound to `a`: datagrams may arrive (nothing comes of
it), and datagrams are sent, with source `a`. -/
def SenderLife (a : SocketAddr) (h : List NEv) : Prop :=
  ∃ t, h = .bind .sender a :: t ∧
    ∀ e ∈ t, (∃ d, e = .arrive d) ∨ ∃ dest d, e = .send dest d ∧ d.source = a

/-- The life of the socket of a `NetworkReceiver` that is not started: datagrams arrive, receivers are
added; no receiver is called. -/
def ReceiverLife (a : SocketAddr) (h : List NEv) : Prop :=
  ∃ t, h = .bind .receiver a :: t ∧ ∀ e ∈ t, (∃ d, e = .arrive d) ∨ ∃ r, e = .register r

/-- The life of the socket of a started `NetworkReceiver`: as before, then `start`, then an execution of
the listening thread with exactly the receivers added before, in that order, which finds exactly the
datagrams that arrived before, in that order. -/
def ThreadLife (a : SocketAddr) (h : List NEv) : Prop :=
  ∃ t b ls s, ReceiverLife a (.bind .receiver a :: t) ∧
    Listener.run ⟨registeredIn t, b⟩ (Listener.init ⟨registeredIn t, b⟩ (arrivedIn t)) ls = some s ∧
    h = .bind .receiver a :: t ++
      .start b :: observed ⟨registeredIn t, b⟩ (Listener.init ⟨registeredIn t, b⟩ (arrivedIn t)) ls

/-- What one step of the process is for the listening thread on socket `s`: the arrivals that reach its
address, its own steps, and nothing else. -/
def stepFor (N : Net) (n : Node) (s : Nat) : NLabel → List Label
  | .arrive dest d =>
    if n.threads.any (fun t => t.socket == s && N.reaches t.address dest) then [.arrive d] else []
  | .thread k x => if (n.threads[k]?).any (fun t => t.socket == s) then [x] else []
  | _ => []

/-- What an execution of the process is for the listening thread on socket `s`. -/
def stepsFor (N : Net) (s : Nat) (n : Node) : List NLabel → List Label
  | [] => []
  | x :: xs => stepFor N n s x ++
    match n.step N x with
    | some n' => stepsFor N s n' xs
    | none => []

/-- Any of these. -/
def Life (a : SocketAddr) (h : List NEv) : Prop :=
  SenderLife a h ∨ ReceiverLife a h ∨ ThreadLife a h

end Ipv8.Spec
