import Verif.Model.Node
/-!
# Many processes and the network between them

Whole processes (`Model/Node.lean`), each with any number of senders, receivers and instances, and the
internet in between: datagrams are lost, duplicated, delayed and reordered, NAT boxes rewrite their
addresses, and hosts that do not run this crate send whatever they like.
-/

namespace Ipv8

/-- Observable events of the whole system. -/
inductive CEv
  /-- something happens to socket number `socket` of process number `k` -/
  | at (k socket : Nat) (e : NEv)
  /-- a foreign host sends a datagram -/
  | foreign (dest : SocketAddr) (d : Datagram)

/-- State of the system. -/
structure Cluster where
  nodes : List Node
  /-- datagrams under way, with their destinations -/
  air : List (SocketAddr × Datagram)
  /-- history, oldest first -/
  log : List CEv

/-- Nothing running, nothing under way. -/
def Cluster.init : Cluster := ⟨[], [], []⟩

/-- One atomic step. -/
inductive CLabel
  /-- a process starts -/
  | boot
  /-- process number `k` takes a step that is not an arrival -/
  | proc (k : Nat) (x : NLabel)
  /-- a foreign host sends a datagram, with any source address -/
  | foreign (dest : SocketAddr) (d : Datagram)
  /-- datagram number `i` under way is lost -/
  | lose (i : Nat)
  /-- it is duplicated -/
  | duplicate (i : Nat)
  /-- a NAT box on its way rewrites its addresses -/
  | rewrite (i : Nat) (dest source : SocketAddr)
  /-- it arrives at the machine of process number `k` -/
  | deliver (i k : Nat)

/-- The datagrams among new log entries of a process that go out to the network (`networking/mod.rs:49-51`). -/
def outgoing : List (Nat × NEv) → List (SocketAddr × Datagram)
  | [] => []
  | (_, .send dest d) :: es => (dest, d) :: outgoing es
  | _ :: es => outgoing es

/-- One step; `none` if it is not enabled.  `net k` are the rules of the machine of process number `k`. -/
def Cluster.step (net : Nat → Net) (c : Cluster) : CLabel → Option Cluster
  | .boot => some { c with nodes := c.nodes ++ [Node.init] }
  | .proc k x =>
    match c.nodes[k]? with
    | none => none
    | some n =>
      match x with
      | .arrive _ _ => none
      | x =>
        match n.step (net k) x with
        | none => none
        | some n' => some
          { nodes := c.nodes.set k n'
            air := c.air ++ outgoing (n'.log.drop n.log.length)
            log := c.log ++ (n'.log.drop n.log.length).map (fun e => .at k e.1 e.2) }
  | .foreign dest d => some { c with air := c.air ++ [(dest, d)], log := c.log ++ [.foreign dest d] }
  | .lose i => some { c with air := c.air.eraseIdx i }
  | .duplicate i =>
    match c.air[i]? with
    | some x => some { c with air := c.air ++ [x] }
    | none => none
  | .rewrite i dest source =>
    match c.air[i]? with
    | some (_, d) => some { c with air := c.air.set i (dest, ⟨d.bytes, source⟩) }
    | none => none
  | .deliver i k =>
    match c.air[i]?, c.nodes[k]? with
    | some (dest, d), some n => some
        { nodes := c.nodes.set k (n.arrive (net k) dest d)
          air := c.air.eraseIdx i
          log := c.log ++ ((n.arrive (net k) dest d).log.drop n.log.length).map (fun e => .at k e.1 e.2) }
    | _, _ => none

/-- Run a list of labels. -/
def Cluster.run (net : Nat → Net) (c : Cluster) : List CLabel → Option Cluster
  | [] => some c
  | a :: as =>
    match c.step net a with
    | some c' => c'.run net as
    | none => none

end Ipv8
