import Verif.Model.Process
/-!
# A process and its sockets

The public objects of `lib.rs` and `networking/mod.rs` over their whole life: `NetworkSender`,
`NetworkReceiver` and `IPv8` are created, used, started, taken apart and dropped, in any order and number,
while the network delivers datagrams to whatever is bound.  (`Model/Process.lean` has the details of
concurrent `IPv8::new` calls; here creating an object is one step.)
-/

namespace Ipv8

/-- The rules of the operating system: binds (see `Udp`), and which bound address a datagram sent to
`dest` reaches; two sockets that can be bound at the same time are never reached by the same datagram. -/
structure Net extends Udp where
  reaches : (bound dest : SocketAddr) → Bool
  excl : ∀ a b dest, reaches a dest = true → reaches b dest = true → conflict a b = true

/-- What kind of object a socket belongs to. -/
inductive Role
  | sender
  | receiver
  deriving DecidableEq, Repr

/-- `NetworkSender` (`networking/mod.rs:34-37`): its socket (a number, never used twice) and the address
the socket has.  Datagrams that arrive at it are queued by the operating system, and nothing in the crate
ever reads them, so the queue is left out. -/
structure OpenSender where
  socket : Nat
  address : SocketAddr

/-- `NetworkReceiver` before it is started (`networking/mod.rs:59-64`), with what is queued in its socket. -/
structure OpenReceiver where
  socket : Nat
  address : SocketAddr
  queue : List Datagram
  net : NetworkReceiver

/-- An `IPv8` instance before it is started (`lib.rs:33-43`). -/
structure OpenInstance where
  ipv8 : IPv8
  receiverSocket : Nat
  receiverAddress : SocketAddr
  queue : List Datagram
  sender : OpenSender

/-- A listening thread (`networking/mod.rs:93-100`). -/
structure Thread where
  socket : Nat
  address : SocketAddr
  listener : Listener
  state : NetState

/-- Observable events, each of one socket. -/
inductive NEv
  /-- the socket is bound -/
  | bind (role : Role) (address : SocketAddr)
  /-- `add_receiver` -/
  | register (r : Receiver)
  /-- `start` with this buffer size -/
  | start (buffersize : Nat)
  /-- a datagram arrives in the socket -/
  | arrive (d : Datagram)
  /-- a datagram is sent through the socket -/
  | send (dest : SocketAddr) (d : Datagram)
  /-- something happens in the listening thread -/
  | net (e : Ev)
  /-- the socket is closed -/
  | close

/-- State of the process. -/
structure Node where
  /-- number of the next socket -/
  next : Nat
  senders : List OpenSender
  receivers : List OpenReceiver
  instances : List OpenInstance
  threads : List Thread
  /-- history: socket and event, oldest first -/
  log : List (Nat × NEv)

/-- A fresh process. -/
def Node.init : Node := ⟨0, [], [], [], [], []⟩

/-- All open sockets with their addresses. -/
def Node.sockets (n : Node) : List (Nat × SocketAddr) :=
  n.senders.map (fun x => (x.socket, x.address)) ++
  n.receivers.map (fun x => (x.socket, x.address)) ++
  n.instances.flatMap (fun x =>
    [(x.receiverSocket, x.receiverAddress), (x.sender.socket, x.sender.address)]) ++
  n.threads.map (fun x => (x.socket, x.address))

/-- Can `got` be what binding `requested` yields? -/
def Node.canBind (N : Net) (n : Node) (requested got : SocketAddr) : Bool :=
  resolves requested got && n.sockets.all (fun b => !N.conflict got b.2)

/-- One atomic step.  Failed binds change nothing observable (a receiving socket bound by an `IPv8::new`
that fails afterwards is closed again, see `Model/Process.lean`), so only successes are labels. -/
inductive NLabel
  /-- `NetworkSender::new(requested)` succeeds -/
  | newSender (requested : Address) (got : SocketAddr)
  /-- `NetworkReceiver::new(requested)` succeeds -/
  | newReceiver (requested : Address) (got : SocketAddr)
  /-- `IPv8::new(config)` succeeds -/
  | newInstance (config : Config) (gotReceiver gotSender : SocketAddr)
  /-- `add_receiver` on receiver object number `k` -/
  | addReceiver (k : Nat) (r : Receiver)
  /-- `communities.add_community` or `network_receiver.add_receiver` on instance number `i` -/
  | setup (i : Nat) (x : Setup)
  /-- `send` on sender object number `k` succeeds -/
  | send (k : Nat) (address : Address) (packet : Packet)
  /-- `network_sender.send` of instance number `i` succeeds -/
  | sendInstance (i : Nat) (address : Address) (packet : Packet)
  /-- the public fields of instance number `i` are moved out of it -/
  | takeApart (i : Nat)
  /-- an instance is put together from receiver object number `k` and sender object number `j` -/
  | assemble (config : Config) (communities : CommunityRegistry) (k j : Nat)
  /-- `NetworkReceiver::start(config)` of receiver object number `k` -/
  | startReceiver (k : Nat) (config : Config)
  /-- `IPv8::start` of instance number `i` -/
  | startInstance (i : Nat)
  /-- an object is dropped -/
  | dropSender (k : Nat)
  | dropReceiver (k : Nat)
  | dropInstance (i : Nat)
  /-- a datagram addressed to `dest` comes in from the network -/
  | arrive (dest : SocketAddr) (d : Datagram)
  /-- a step of listening thread number `t`, not an arrival -/
  | thread (t : Nat) (x : Label)
  /-- listening thread number `t` has stopped; it drops its socket -/
  | reap (t : Nat)

/-- A datagram comes in: it is queued in the socket it reaches, if there is one. -/
def Node.arrive (N : Net) (n : Node) (dest : SocketAddr) (d : Datagram) : Node where
  next := n.next
  senders := n.senders
  receivers := n.receivers.map fun x =>
    if N.reaches x.address dest then { x with queue := x.queue ++ [d] } else x
  instances := n.instances.map fun x =>
    if N.reaches x.receiverAddress dest then { x with queue := x.queue ++ [d] } else x
  threads := n.threads.map fun x =>
    if N.reaches x.address dest then
      { x with state := (x.listener.step x.state (.arrive d)).getD x.state }
    else x
  log := n.log ++ (n.sockets.filter (fun x => N.reaches x.2 dest)).map (fun x => (x.1, .arrive d))

/-- One step; `none` if it is not enabled. -/
def Node.step (N : Net) (n : Node) : NLabel → Option Node
  -- networking/mod.rs:41-46
  | .newSender requested got =>
    if n.canBind N requested.sock got then
      some { n with
        next := n.next + 1
        senders := n.senders ++ [⟨n.next, got⟩]
        log := n.log ++ [(n.next, .bind .sender got)] }
    else none
  -- networking/mod.rs:69-79
  | .newReceiver requested got =>
    if n.canBind N requested.sock got then
      some { n with
        next := n.next + 1
        receivers := n.receivers ++ [⟨n.next, got, [], NetworkReceiver.new⟩]
        log := n.log ++ [(n.next, .bind .receiver got)] }
    else none
  -- lib.rs:69-76
  | .newInstance config gotReceiver gotSender =>
    if n.canBind N config.receivingAddress.sock gotReceiver &&
        n.canBind N config.sendingAddress.sock gotSender && !N.conflict gotSender gotReceiver then
      some { n with
        next := n.next + 2
        instances := n.instances ++ [⟨
          { config := config
            networkReceiver := NetworkReceiver.new
            networkSender := config.sendingAddress
            communities := CommunityRegistry.default },
          n.next, gotReceiver, [], ⟨n.next + 1, gotSender⟩⟩]
        log := n.log ++ [(n.next, .bind .receiver gotReceiver), (n.next + 1, .bind .sender gotSender)] }
    else none
  -- networking/mod.rs:146-148
  | .addReceiver k r =>
    match n.receivers[k]? with
    | some x => some { n with
        receivers := n.receivers.set k { x with net := x.net.addReceiver r }
        log := n.log ++ [(x.socket, .register r)] }
    | none => none
  | .setup i s =>
    match n.instances[i]? with
    | some x => some { n with
        instances := n.instances.set i { x with ipv8 := x.ipv8.setup s }
        log := n.log ++ (match s with
          | .addReceiver r => [(x.receiverSocket, .register r)]
          | .addCommunity _ => []) }
    | none => none
  -- networking/mod.rs:49-51
  | .send k address packet =>
    match n.senders[k]? with
    | some x => some { n with
        log := n.log ++
          [(x.socket, .send address.sock (NetworkSender.send x.address address packet))] }
    | none => none
  | .sendInstance i address packet =>
    match n.instances[i]? with
    | some x => some { n with
        log := n.log ++ [(x.sender.socket,
          .send address.sock (NetworkSender.send x.sender.address address packet))] }
    | none => none
  -- lib.rs:35-42: the fields are public and `IPv8` does not implement `Drop`
  | .takeApart i =>
    match n.instances[i]? with
    | some x => some { n with
        instances := n.instances.eraseIdx i
        senders := n.senders ++ [x.sender]
        receivers := n.receivers ++
          [⟨x.receiverSocket, x.receiverAddress, x.queue, x.ipv8.networkReceiver⟩] }
    | none => none
  -- lib.rs:33-43: all fields are public, so a struct expression builds one
  | .assemble config communities k j =>
    match n.receivers[k]?, n.senders[j]? with
    | some r, some x => some { n with
        receivers := n.receivers.eraseIdx k
        senders := n.senders.eraseIdx j
        instances := n.instances ++ [⟨
          { config := config
            networkReceiver := r.net
            networkSender := ⟨x.address⟩
            communities := communities },
          r.socket, r.address, r.queue, x⟩] }
    | _, _ => none
  -- networking/mod.rs:87-101
  | .startReceiver k config =>
    match n.receivers[k]? with
    | some x => some { n with
        receivers := n.receivers.eraseIdx k
        threads := n.threads ++ [⟨x.socket, x.address, ⟨x.net.receivers, config.buffersize⟩,
          Listener.init ⟨x.net.receivers, config.buffersize⟩ x.queue⟩]
        log := n.log ++ [(x.socket, .start config.buffersize)] }
    | none => none
  -- lib.rs:80-82: the receiver moves into the thread, the rest of `self` is dropped
  | .startInstance i =>
    match n.instances[i]? with
    | some x => some { n with
        instances := n.instances.eraseIdx i
        threads := n.threads ++ [⟨x.receiverSocket, x.receiverAddress, x.ipv8.start,
          x.ipv8.start.init x.queue⟩]
        log := n.log ++ [(x.receiverSocket, .start x.ipv8.start.buffersize),
          (x.sender.socket, .close)] }
    | none => none
  | .dropSender k =>
    match n.senders[k]? with
    | some x => some { n with
        senders := n.senders.eraseIdx k
        log := n.log ++ [(x.socket, .close)] }
    | none => none
  | .dropReceiver k =>
    match n.receivers[k]? with
    | some x => some { n with
        receivers := n.receivers.eraseIdx k
        log := n.log ++ [(x.socket, .close)] }
    | none => none
  | .dropInstance i =>
    match n.instances[i]? with
    | some x => some { n with
        instances := n.instances.eraseIdx i
        log := n.log ++ [(x.receiverSocket, .close), (x.sender.socket, .close)] }
    | none => none
  | .arrive dest d => some (n.arrive N dest d)
  | .thread t x =>
    match n.threads[t]? with
    | some h =>
      match x with
      | .arrive _ => none
      | x =>
        match h.listener.step h.state x with
        | some s' => some { n with
            threads := n.threads.set t { h with state := s' }
            log := n.log ++ (s'.trace.drop h.state.trace.length).map (fun e => (h.socket, .net e)) }
        | none => none
    | none => none
  -- networking/mod.rs:94-100: `listen` returned or unwound, and `self` with the socket is gone
  | .reap t =>
    match n.threads[t]? with
    | some h =>
      match h.state.phase with
      | .stopped _ => some { n with
          threads := n.threads.eraseIdx t
          log := n.log ++ [(h.socket, .close)] }
      | _ => none
    | none => none

/-- Run a list of labels. -/
def Node.run (N : Net) (n : Node) : List NLabel → Option Node
  | [] => some n
  | a :: as =>
    match n.step N a with
    | some n' => n'.run N as
    | none => none

end Ipv8
