import Verif.Model.Ipv8
/-!
# A process with many instances

`lib.rs` seen from a whole process: any number of threads call `IPv8::new` at the same time, instances are
started, dropped, and their listening threads end.  What `IPv8::new` shares between callers is the global
`Once` for the thread pool and the operating system's table of bound UDP sockets.
-/

namespace Ipv8

/-- `std::sync::Once` including the time somebody is inside `call_once`. -/
inductive OnceState
  | fresh
  | running
  | complete
  | poisoned
  deriving DecidableEq, Repr

/-- How a call of `IPv8::new` ended. -/
inductive NewResult
  /-- `Ok`; the instance is in `Process.instances` until it is started or dropped -/
  | ok
  /-- the error of the pool builder (`lib.rs:65`) -/
  | poolError
  /-- the error of a bind (`lib.rs:69-70`) -/
  | bindError
  | panicked
  deriving DecidableEq, Repr

/-- Where a call of `IPv8::new` is (`lib.rs:51-77`). -/
inductive NewPhase
  /-- at `call_once` (56), possibly blocked in it -/
  | atOnce (config : Config)
  /-- in the closure (57-61) -/
  | building (config : Config)
  /-- before `NetworkReceiver::new` (69) -/
  | bindReceiver (config : Config)
  /-- before `NetworkSender::new` (70), owning the bound receiving socket -/
  | bindSender (config : Config) (receiver : SocketAddr)
  | returned (result : NewResult)

/-- An instance that was created and neither started nor dropped, with the addresses its sockets really
have. -/
structure Instance where
  config : Config
  receiver : SocketAddr
  sender : SocketAddr

/-- State of the process. -/
structure Process where
  once : OnceState
  /-- history: runs of the pool builder, with thread count and outcome -/
  builds : List (Nat × Outcome Unit)
  /-- all calls of `IPv8::new`, oldest first -/
  calls : List NewPhase
  instances : List Instance
  /-- receiving sockets owned by listening threads -/
  listeners : List SocketAddr
  /-- the sockets of this process in the table of the operating system -/
  bound : List SocketAddr

/-- A fresh process. -/
def Process.init : Process := ⟨.fresh, [], [], [], [], []⟩

/-- The rules of the operating system for UDP binds without address reuse (mio's and std's `bind` set no
reuse option): which two addresses cannot be bound at the same time. -/
structure Udp where
  conflict : SocketAddr → SocketAddr → Bool
  self : ∀ a, conflict a a = true
  symm : ∀ a b, conflict a b = conflict b a

/-- Which address a socket gets when `requested` is bound: that address, or, for port 0, a non-zero port
chosen by the operating system. -/
def resolves (requested got : SocketAddr) : Bool :=
  match requested, got with
  | .v4 a b c d p, .v4 a' b' c' d' p' =>
    a == a' && b == b' && c == c' && d == d' && p' != 0 && (p == 0 || p == p')
  | .v6 ip p f s, .v6 ip' p' f' s' =>
    ip == ip' && f == f' && s == s' && p' != 0 && (p == 0 || p == p')
  | _, _ => false

/-- Can `got` be what binding `requested` yields? -/
def Process.canBind (U : Udp) (s : Process) (requested got : SocketAddr) : Bool :=
  resolves requested got && s.bound.all (fun b => !U.conflict got b)

/-- One atomic step. -/
inductive PLabel
  /-- some thread calls `IPv8::new(config)` -/
  | call (config : Config)
  /-- call number `t` gets to the front of `call_once` -/
  | enter (t : Nat)
  /-- the pool builder run by call `t` answers -/
  | build (t : Nat) (answer : Outcome Unit)
  /-- the operating system answers a bind of call `t`: the bound address, or a failure -/
  | bind (t : Nat) (answer : Option SocketAddr)
  /-- `start()` of a live instance -/
  | start (i : Nat)
  /-- a live instance is dropped -/
  | dropInstance (i : Nat)
  /-- a listening thread ends (see C46) -/
  | listenerEnds (i : Nat)

/-- One step; `none` if the label is not enabled. -/
def Process.step (U : Udp) (s : Process) : PLabel → Option Process
  | .call config => some { s with calls := s.calls ++ [.atOnce config] }
  -- lib.rs:56: the first caller runs the closure, callers meanwhile block, later ones pass
  | .enter t =>
    match s.calls[t]? with
    | some (.atOnce c) =>
      match s.once with
      | .fresh => some { s with once := .running, calls := s.calls.set t (.building c) }
      | .running => none
      | .complete => some { s with calls := s.calls.set t (.bindReceiver c) }
      | .poisoned => some { s with calls := s.calls.set t (.returned .panicked) }
    | _ => none
  -- lib.rs:57-66: only the caller that ran the closure sees the builder's answer
  | .build t answer =>
    match s.calls[t]? with
    | some (.building c) =>
      match answer with
      | .ok () => some { s with
          once := .complete
          builds := s.builds ++ [(c.threadcount, answer)]
          calls := s.calls.set t (.bindReceiver c) }
      | .err _ => some { s with
          once := .complete
          builds := s.builds ++ [(c.threadcount, answer)]
          calls := s.calls.set t (.returned .poolError) }
      | .panic => some { s with
          once := .poisoned
          builds := s.builds ++ [(c.threadcount, answer)]
          calls := s.calls.set t (.returned .panicked) }
    | _ => none
  | .bind t answer =>
    match s.calls[t]? with
    -- lib.rs:69
    | some (.bindReceiver c) =>
      match answer with
      | none => some { s with calls := s.calls.set t (.returned .bindError) }
      | some a =>
        if s.canBind U c.receivingAddress.sock a then
          some { s with bound := s.bound ++ [a], calls := s.calls.set t (.bindSender c a) }
        else none
    -- lib.rs:70-76; on an error the receiving socket is dropped, which closes it
    | some (.bindSender c r) =>
      match answer with
      | none => some { s with
          bound := s.bound.erase r
          calls := s.calls.set t (.returned .bindError) }
      | some a =>
        if s.canBind U c.sendingAddress.sock a then
          some { s with
            bound := s.bound ++ [a]
            instances := s.instances ++ [⟨c, r, a⟩]
            calls := s.calls.set t (.returned .ok) }
        else none
    | _ => none
  -- lib.rs:80-82: the receiver moves into the thread, the rest of `self` is dropped: the sending socket
  -- is closed
  | .start i =>
    match s.instances[i]? with
    | some x => some { s with
        instances := s.instances.eraseIdx i
        listeners := s.listeners ++ [x.receiver]
        bound := s.bound.erase x.sender }
    | none => none
  | .dropInstance i =>
    match s.instances[i]? with
    | some x => some { s with
        instances := s.instances.eraseIdx i
        bound := (s.bound.erase x.receiver).erase x.sender }
    | none => none
  | .listenerEnds i =>
    match s.listeners[i]? with
    | some a => some { s with
        listeners := s.listeners.eraseIdx i
        bound := s.bound.erase a }
    | none => none

/-- Run a list of labels. -/
def Process.run (U : Udp) (s : Process) : List PLabel → Option Process
  | [] => some s
  | a :: as =>
    match s.step U a with
    | some s' => s'.run U as
    | none => none

end Ipv8
