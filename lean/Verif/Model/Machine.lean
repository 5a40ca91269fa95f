import Verif.Model.Cluster
import Verif.Model.Workers
/-!
# Everything together

The processes of `Model/Node.lean`, but with their listening threads and receivers as in `Model/Workers.lean`: executed
by the threads of rayon's pool, which take up jobs of other instances while they wait.  And the network of
`Model/Cluster.lean` between them.
-/

namespace Ipv8

/-- A listening thread (`networking/mod.rs:93-100`): its socket, and its number among all that were ever started in this
process, by which the pool knows it. -/
structure PThread where
  socket : Nat
  address : SocketAddr
  member : Nat

/-- State of a process: its objects as in `Node`, its listening threads, and the pool. -/
structure Machine where
  next : Nat
  senders : List OpenSender
  receivers : List OpenReceiver
  instances : List OpenInstance
  threads : List PThread
  pool : Workers
  /-- history: socket and event, oldest first -/
  log : List (Nat × NEv)

/-- A fresh process.  (Simplification: the size of the pool is fixed from the start.  In the crate it is by the first
`IPv8::new`, `lib.rs:56-63`, or by rayon when a receiver is started before that.) -/
def Machine.init (threads : Nat) : Machine := ⟨0, [], [], [], [], ⟨threads, [], []⟩, []⟩

/-- The process without what its listening threads are doing: all that creating, using and dropping objects depends on
(of listening threads, that their sockets are bound). -/
def Machine.objects (m : Machine) : Node where
  next := m.next
  senders := m.senders
  receivers := m.receivers
  instances := m.instances
  threads := m.threads.map fun t => ⟨t.socket, t.address, ⟨[], 0⟩, Listener.init ⟨[], 0⟩ []⟩
  log := m.log

/-- Steps that create, use or drop objects and do not concern listening threads. -/
def NLabel.ofObjects : NLabel → Bool
  | .startReceiver _ _ => false
  | .startInstance _ => false
  | .arrive _ _ => false
  | .thread _ _ => false
  | .reap _ => false
  | _ => true

/-- Steps of threads: of listening threads outside of `scope_fifo`, and of the pool. -/
def TLabel.ofThreads : TLabel → Bool
  | .launch _ _ => false
  | .io _ (.arrive _) => false
  | _ => true

/-- What listening thread number `k` has done so far. -/
def Workers.trace (s : Workers) (k : Nat) : List Ev :=
  match s.members[k]? with
  | some m => m.state.trace
  | none => []

/-- Where listening thread number `k` is. -/
def Workers.phase (s : Workers) (k : Nat) : Option RPhase :=
  match s.members[k]? with
  | some m => some m.state.phase
  | none => none

/-- One atomic step of a process, other than an arrival. -/
inductive MLabel
  /-- an object is created, used or dropped -/
  | object (x : NLabel)
  /-- `NetworkReceiver::start(config)` of receiver object number `k` -/
  | startReceiver (k : Nat) (config : Config)
  /-- `IPv8::start` of instance number `i` -/
  | startInstance (i : Nat)
  /-- a thread makes a step -/
  | work (x : TLabel)
  /-- listening thread number `t` has stopped; it drops its socket -/
  | reap (t : Nat)

/-- One step; `none` if it is not enabled. -/
def Machine.step (N : Net) (m : Machine) : MLabel → Option Machine
  -- as in `Node.step`
  | .object x =>
    if x.ofObjects then
      match m.objects.step N x with
      | some n => some { m with
          next := n.next
          senders := n.senders
          receivers := n.receivers
          instances := n.instances
          log := n.log }
      | none => none
    else none
  -- networking/mod.rs:87-101
  | .startReceiver k config =>
    match m.receivers[k]? with
    | some x =>
      match m.pool.step (.launch ⟨x.net.receivers, config.buffersize⟩ x.queue) with
      | some pool => some { m with
          receivers := m.receivers.eraseIdx k
          threads := m.threads ++ [⟨x.socket, x.address, m.pool.members.length⟩]
          pool := pool
          log := m.log ++ [(x.socket, .start config.buffersize)] }
      | none => none
    | none => none
  -- lib.rs:80-82: the receiver moves into the thread, the rest of `self` is dropped
  | .startInstance i =>
    match m.instances[i]? with
    | some x =>
      match m.pool.step (.launch x.ipv8.start x.queue) with
      | some pool => some { m with
          instances := m.instances.eraseIdx i
          threads := m.threads ++ [⟨x.receiverSocket, x.receiverAddress, m.pool.members.length⟩]
          pool := pool
          log := m.log ++ [(x.receiverSocket, .start x.ipv8.start.buffersize), (x.sender.socket, .close)] }
      | none => none
    | none => none
  -- networking/mod.rs:122-142, see `Workers.step`
  | .work x =>
    if x.ofThreads then
      match m.pool.step x with
      | some pool => some { m with
          pool := pool
          log := m.log ++ m.threads.flatMap fun t =>
            ((pool.trace t.member).drop (m.pool.trace t.member).length).map fun e => (t.socket, .net e) }
      | none => none
    else none
  -- networking/mod.rs:94-100: `listen` returned or unwound, and `self` with the socket is gone
  | .reap t =>
    match m.threads[t]? with
    | some h =>
      match m.pool.phase h.member with
      | some (.stopped _) => some { m with
          threads := m.threads.eraseIdx t
          log := m.log ++ [(h.socket, .close)] }
      | _ => none
    | none => none

/-- A datagram comes in: it is queued in the socket it reaches, if there is one. -/
def Machine.arrive (N : Net) (m : Machine) (dest : SocketAddr) (d : Datagram) : Machine where
  next := m.next
  senders := m.senders
  receivers := m.receivers.map fun x =>
    if N.reaches x.address dest then { x with queue := x.queue ++ [d] } else x
  instances := m.instances.map fun x =>
    if N.reaches x.receiverAddress dest then { x with queue := x.queue ++ [d] } else x
  threads := m.threads
  pool :=
    match m.threads.find? fun t => N.reaches t.address dest with
    | some t => (m.pool.step (.io t.member (.arrive d))).getD m.pool
    | none => m.pool
  log := m.log ++ (m.objects.sockets.filter (fun x => N.reaches x.2 dest)).map (fun x => (x.1, .arrive d))

/-- All processes and the network. -/
structure Fleet where
  machines : List Machine
  /-- datagrams under way, with their destinations -/
  air : List (SocketAddr × Datagram)
  /-- history, oldest first -/
  log : List CEv

/-- Nothing running, nothing under way. -/
def Fleet.init : Fleet := ⟨[], [], []⟩

/-- One atomic step. -/
inductive FLabel
  /-- a process starts, with this number of pool threads -/
  | boot (threads : Nat)
  /-- process number `k` takes a step -/
  | proc (k : Nat) (x : MLabel)
  /-- a foreign host sends a datagram, with any source address -/
  | foreign (dest : SocketAddr) (d : Datagram)
  /-- datagram number `i` under way is lost -/
  | lose (i : Nat)
  /-- it is duplicated -/
  | duplicate (i : Nat)
  /-- a NAT box on its way rewrites its addresses -/
  | rewrite (i : Nat) (dest source : SocketAddr)
  /-- it arrives at the machine of process number `k` -/
  | deliver (i k : Nat)

/-- One step; `none` if it is not enabled (cf. `Cluster.step`). -/
def Fleet.step (net : Nat → Net) (f : Fleet) : FLabel → Option Fleet
  | .boot threads => some { f with machines := f.machines ++ [Machine.init threads] }
  | .proc k x =>
    match f.machines[k]? with
    | none => none
    | some m =>
      match m.step (net k) x with
      | none => none
      | some m' => some
        { machines := f.machines.set k m'
          air := f.air ++ outgoing (m'.log.drop m.log.length)
          log := f.log ++ (m'.log.drop m.log.length).map (fun e => .at k e.1 e.2) }
  | .foreign dest d => some { f with air := f.air ++ [(dest, d)], log := f.log ++ [.foreign dest d] }
  | .lose i => some { f with air := f.air.eraseIdx i }
  | .duplicate i =>
    match f.air[i]? with
    | some x => some { f with air := f.air ++ [x] }
    | none => none
  | .rewrite i dest source =>
    match f.air[i]? with
    | some (_, d) => some { f with air := f.air.set i (dest, ⟨d.bytes, source⟩) }
    | none => none
  | .deliver i k =>
    match f.air[i]?, f.machines[k]? with
    | some (dest, d), some m => some
        { machines := f.machines.set k (m.arrive (net k) dest d)
          air := f.air.eraseIdx i
          log := f.log ++ ((m.arrive (net k) dest d).log.drop m.log.length).map (fun e => .at k e.1 e.2) }
    | _, _ => none

/-- Run a list of labels. -/
def Fleet.run (net : Nat → Net) (f : Fleet) : List FLabel → Option Fleet
  | [] => some f
  | x :: xs =>
    match f.step net x with
    | some f' => f'.run net xs
    | none => none

/-- What a step of the process is for its pool. -/
def Machine.poolLabel (m : Machine) : MLabel → Option TLabel
  | .startReceiver k config => (m.receivers[k]?).map fun x => .launch ⟨x.net.receivers, config.buffersize⟩ x.queue
  | .startInstance i => (m.instances[i]?).map fun x => .launch x.ipv8.start x.queue
  | .work x => some x
  | _ => none

/-- What a step of the system is for the pool of process number `k`. -/
def Fleet.poolLabel (net : Nat → Net) (f : Fleet) (k : Nat) : FLabel → Option TLabel
  | .proc j x => if j = k then (f.machines[k]?).bind fun m => m.poolLabel x else none
  | .deliver i j =>
    if j = k then
      match f.air[i]?, f.machines[k]? with
      | some (dest, d), some m =>
        (m.threads.find? fun t => (net k).reaches t.address dest).map fun t => .io t.member (.arrive d)
      | _, _ => none
    else none
  | _ => none

/-- The pool of process number `k`; before the process is started, one with `n` threads and nothing to do. -/
def Fleet.pool (f : Fleet) (k n : Nat) : Workers :=
  match f.machines[k]? with
  | some m => m.pool
  | none => ⟨n, [], []⟩

end Ipv8
