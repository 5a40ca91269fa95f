import Verif.Model.Process
/-!
# Where the thread pool comes from

`IPv8::new` asks rayon to set up its global pool (`lib.rs:53-67`), the first time it is called.  But rayon sets the pool
up by itself when it is used before: `scope_fifo` (`networking/mod.rs:133`) does, for the first datagram that any
`NetworkReceiver` of the process gets, and so does application code that uses rayon.  So there are two `Once`s: the
crate's `THREADPOOL_START`, and `THE_REGISTRY_SET` in rayon's `registry.rs` (not part of /repo; `global_registry` and
`init_global_registry` there are modelled from knowledge of rayon-core 1.5 and later).
-/

namespace Ipv8

/-- What depends on the machine and on the version of rayon. -/
structure RayonHost where
  /-- how many threads there are if nobody says (`RAYON_NUM_THREADS`, or the number of cores) -/
  standard : Nat
  /-- rayon's limit for the number of threads -/
  limit : Nat
  /-- if the pool nobody configured cannot be set up: does `global_registry` panic inside of the `Once` (rayon-core
  1.5) or outside of it (later)? -/
  poisons : Bool

/-- How many threads a pool has if `n` are asked for (`configuration.rs:20`: 0 is the number of cores). -/
def RayonHost.size (H : RayonHost) (n : Nat) : Nat := min (if n = 0 then H.standard else n) H.limit

/-- How the first part of `IPv8::new` (`lib.rs:53-67`) ended; sockets are bound after that (`Model/Process.lean`). -/
inductive SetUp
  /-- no error: on to the sockets -/
  | ok
  /-- `GlobalPoolAlreadyInitialized` -/
  | already
  /-- the threads could not be started -/
  | failed
  | panicked
  deriving DecidableEq, Repr

/-- Where a call of `IPv8::new` is. -/
inductive SetUpPhase
  /-- at the crate's `call_once` (56), possibly blocked in it -/
  | atOnce
  /-- in its closure, at rayon's `call_once` (60), possibly blocked in that -/
  | inside
  /-- starting the threads -/
  | building
  | ended (r : SetUp)
  deriving DecidableEq, Repr

/-- Where a listening thread is, or another thread that uses rayon from outside of its pool. -/
inductive UserPhase
  /-- waiting for a datagram -/
  | idle
  /-- has one, and is in `scope_fifo` (`networking/mod.rs:133`), possibly blocked in rayon's `call_once` -/
  | asks
  /-- starting the threads of a pool that nobody configured -/
  | building
  /-- ended by a panic of `scope_fifo` -/
  | dead
  deriving DecidableEq, Repr

/-- Everybody who has to do with the pool. -/
inductive PoolUser
  /-- a call of `IPv8::new` -/
  | call (config : Config) (phase : SetUpPhase)
  /-- a listening thread, with the number of datagrams that it has handed over to the pool.  (How the pool works off
  datagrams, and other ways for a thread to end, are in other models.) -/
  | thread (handed : Nat) (phase : UserPhase)

/-- State of the process. -/
structure Startup where
  /-- `THREADPOOL_START`, `lib.rs:47` -/
  crate : OnceState
  /-- rayon's own -/
  rayon : OnceState
  /-- the global pool, if there is one: its number of threads -/
  pool : Option Nat
  users : List PoolUser
  /-- history: the call that has run (or runs) the closure of the crate's `Once` -/
  first : Option Nat
  /-- history: the user that has started (or is starting) threads -/
  builder : Option Nat

/-- A fresh process. -/
def Startup.init : Startup := ⟨.fresh, .fresh, none, [], none, none⟩

/-- One atomic step. -/
inductive StartupLabel
  /-- some thread calls `IPv8::new(config)` -/
  | call (config : Config)
  /-- a listening thread is started -/
  | listen
  /-- listening thread `t` has read a datagram -/
  | datagram (t : Nat)
  /-- user `t` gets on in a `call_once` -/
  | go (t : Nat)
  /-- user `t` is done with starting threads; has it worked? -/
  | built (t : Nat) (works : Bool)

/-- User `t` is now this. -/
def Startup.put (s : Startup) (t : Nat) (u : PoolUser) : Startup := { s with users := s.users.set t u }

/-- One step; `none` if the label is not enabled. -/
def Startup.step (H : RayonHost) (s : Startup) : StartupLabel → Option Startup
  | .call config => some { s with users := s.users ++ [.call config .atOnce] }
  | .listen => some { s with users := s.users ++ [.thread 0 .idle] }
  | .datagram t =>
    match s.users[t]? with
    | some (.thread n .idle) => some (s.put t (.thread n .asks))
    | _ => none
  | .go t =>
    match s.users[t]? with
    -- lib.rs:56
    | some (.call c .atOnce) =>
      match s.crate with
      | .fresh => some { s.put t (.call c .inside) with crate := .running, first := some t }
      | .running => none
      | .complete => some (s.put t (.call c (.ended .ok)))
      | .poisoned => some (s.put t (.call c (.ended .panicked)))
    -- lib.rs:57-66; rayon: `init_global_registry`
    | some (.call c .inside) =>
      match s.rayon with
      | .fresh => some { s.put t (.call c .building) with rayon := .running, builder := some t }
      | .running => none
      | .complete => some { s.put t (.call c (.ended .already)) with crate := .complete }
      | .poisoned => some { s.put t (.call c (.ended .panicked)) with crate := .poisoned }
    -- networking/mod.rs:133; rayon: `global_registry`
    | some (.thread n .asks) =>
      match s.rayon with
      | .fresh => some { s.put t (.thread n .building) with rayon := .running, builder := some t }
      | .running => none
      | .complete =>
        match s.pool with
        | some _ => some (s.put t (.thread (n + 1) .idle))
        | none => some (s.put t (.thread n .dead))
      | .poisoned => some (s.put t (.thread n .dead))
    | _ => none
  | .built t works =>
    match s.users[t]? with
    | some (.call c .building) =>
      if works then
        some { s.put t (.call c (.ended .ok)) with
          crate := .complete, rayon := .complete, pool := some (H.size c.threadcount) }
      else some { s.put t (.call c (.ended .failed)) with crate := .complete, rayon := .complete }
    | some (.thread n .building) =>
      if works then
        some { s.put t (.thread (n + 1) .idle) with rayon := .complete, pool := some (H.size 0) }
      else some { s.put t (.thread n .dead) with rayon := if H.poisons then .poisoned else .complete }
    | _ => none

/-- Run a list of labels. -/
def Startup.run (H : RayonHost) (s : Startup) : List StartupLabel → Option Startup
  | [] => some s
  | x :: xs =>
    match s.step H x with
    | some s' => s'.run H xs
    | none => none

end Ipv8
