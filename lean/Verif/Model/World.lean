import Verif.Model.Network
/-!
# Nodes and the network between them

`NetworkSender::send` (`networking/mod.rs:49-51`) on one side, listening threads (`networking/mod.rs:104-143`)
on the other, and UDP in between: datagrams are lost, duplicated, delayed and reordered, and anybody can
send anything with any source address.
-/

namespace Ipv8

/-- A node that listens.  `address` is the address under which others reach its receiving socket.
Simplification: a node is in the world from the moment its socket is bound (`networking/mod.rs:70`); that
its thread starts later only delays its steps, which the label list decides anyway. -/
structure Host where
  address : SocketAddr
  listener : Listener
  state : NetState

/-- All nodes, and the datagrams under way with their destinations. -/
structure World where
  hosts : List Host
  air : List (SocketAddr × Datagram)

/-- Nothing running, nothing under way. -/
def World.init : World := ⟨[], []⟩

/-- One atomic step. -/
inductive WLabel
  /-- a node comes up -/
  | boot (address : SocketAddr) (listener : Listener)
  /-- `NetworkSender::send(address, packet)` through the socket bound to `sender`, with its result -/
  | send (sender : SocketAddr) (address : Address) (packet : Packet) (result : Outcome Nat)
  /-- somebody else sends a datagram, possibly with a forged source -/
  | inject (dest : SocketAddr) (d : Datagram)
  /-- datagram number `i` under way is lost -/
  | lose (i : Nat)
  /-- it is duplicated -/
  | duplicate (i : Nat)
  /-- it arrives at node number `k` -/
  | deliver (i k : Nat)
  /-- any other step of node number `k` -/
  | at (k : Nat) (x : Label)

/-- Is this the arrival of a datagram? -/
def Label.isArrival : Label → Bool
  | .arrive _ => true
  | _ => false

/-- One step; `none` if it is not enabled. -/
def World.step (w : World) : WLabel → Option World
  -- no two sockets are reachable under the same address
  | .boot address listener =>
    if w.hosts.all (fun h => h.address != address) then
      some { w with hosts := w.hosts ++ [⟨address, listener, listener.init []⟩] }
    else none
  -- networking/mod.rs:49-51: UDP sends all of a datagram or fails, so the size returned is the length
  | .send sender address packet result =>
    match result with
    | .ok n =>
      if n = packet.raw.length then
        some { w with air := w.air ++ [(address.sock, NetworkSender.send sender address packet)] }
      else none
    | .err _ => some w
    | .panic => none
  | .inject dest d => some { w with air := w.air ++ [(dest, d)] }
  | .lose i => some { w with air := w.air.eraseIdx i }
  | .duplicate i =>
    match w.air[i]? with
    | some x => some { w with air := w.air ++ [x] }
    | none => none
  | .deliver i k =>
    match w.air[i]?, w.hosts[k]? with
    | some (dest, d), some h =>
      if dest = h.address then
        match h.listener.step h.state (.arrive d) with
        | some s' => some ⟨w.hosts.set k ⟨h.address, h.listener, s'⟩, w.air.eraseIdx i⟩
        | none => none
      else none
    | _, _ => none
  | .at k x =>
    match w.hosts[k]? with
    | none => none
    | some h =>
      if x.isArrival then none
      else
        match h.listener.step h.state x with
        | some s' => some { w with hosts := w.hosts.set k ⟨h.address, h.listener, s'⟩ }
        | none => none

/-- Run a list of labels. -/
def World.run (w : World) : List WLabel → Option World
  | [] => some w
  | a :: as =>
    match w.step a with
    | some w' => w'.run as
    | none => none

end Ipv8
