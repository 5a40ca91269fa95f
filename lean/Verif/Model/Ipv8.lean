import Verif.Model.Network
/-!
# The IPv8 instance

`lib.rs`.
-/

namespace Ipv8

/-- `std::sync::Once` when nobody is inside `call_once`: not run yet, run to the end, or poisoned by a
panic of the closure. -/
inductive Once
  | fresh
  | complete
  | poisoned
  deriving DecidableEq, Repr

/-- Process-global state: `THREADPOOL_START` (`lib.rs:47`), and (history) the thread counts the pool
builder was run with. -/
structure Global where
  once : Once
  builds : List Nat
  deriving DecidableEq, Repr

/-- State of a fresh process. -/
def Global.init : Global := ⟨.fresh, []⟩

/-- What the environment answers: `ThreadPoolBuilder::build_global` for a thread count, and binding a
UDP socket to an address. -/
structure Os where
  buildGlobal : Nat → Outcome Unit
  bind : Address → Outcome Unit

/-- `lib.rs:33-43`; the sockets are represented by the addresses they were bound to. -/
structure IPv8 where
  config : Config
  networkReceiver : NetworkReceiver
  networkSender : Address
  communities : CommunityRegistry

/-- `lib.rs:53-67`: run the pool builder the first time, and report its failure only then.  A panic of
the builder poisons the `Once`, and every later `call_once` panics.  (Calls one after the other; for
concurrent calls see `Model/Process.lean`.) -/
def setupThreadpool (os : Os) (g : Global) (threadcount : Nat) : Outcome Unit × Global :=
  match g.once with
  | .complete => (.ok (), g)
  | .poisoned => (.panic, g)
  | .fresh =>
    match os.buildGlobal threadcount with
    | .ok () => (.ok (), ⟨.complete, g.builds ++ [threadcount]⟩)
    | .err e => (.err e, ⟨.complete, g.builds ++ [threadcount]⟩)
    | .panic => (.panic, ⟨.poisoned, g.builds ++ [threadcount]⟩)

/-- `lib.rs:51-77`. -/
def IPv8.new (os : Os) (g : Global) (config : Config) : Outcome IPv8 × Global :=
  match setupThreadpool os g config.threadcount with
  | (.ok (), g') =>
    (do
      os.bind config.receivingAddress
      os.bind config.sendingAddress
      pure {
        config := config
        networkReceiver := NetworkReceiver.new
        networkSender := config.sendingAddress
        communities := CommunityRegistry.default }, g')
  | (.err e, g') => (.err e, g')
  | (.panic, g') => (.panic, g')

/-- What an application does with an instance before starting it: the public fields give access to
`communities.add_community` and `network_receiver.add_receiver`. -/
inductive Setup
  | addCommunity (c : Community)
  | addReceiver (r : Receiver)

/-- One such call. -/
def IPv8.setup (i : IPv8) : Setup → IPv8
  | .addCommunity c => { i with communities := (i.communities.addCommunity c).2 }
  | .addReceiver r => { i with networkReceiver := i.networkReceiver.addReceiver r }

/-- `lib.rs:80-82`: `start` moves the network receiver into the listening thread.  The registry is not
handed over; it is dropped together with the rest of `self`. -/
def IPv8.start (i : IPv8) : Listener where
  receivers := i.networkReceiver.receivers
  buffersize := i.config.buffersize

end Ipv8
