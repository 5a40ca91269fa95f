import Verif.Model.Community
/-!
# Communities with state

`on_receive` takes `&self` (`community/mod.rs:115-120`), so a community that remembers anything does it
behind interior mutability.  Here the state is explicit: `on_receive` may look at the state of its own object
and change it.  The registry is that of `Model/Community.lean`.
-/

namespace Ipv8

/-- A community object with a state of type `σ`: `get_mid` (`community/mod.rs:59`) as asked for at
registration, and `on_receive` (115-120). `id` names the object.
Simplification: application code that lets several communities share state (through `Arc`) is left out here; for that see
`Model/Shared.lean` (C103). -/
structure StatefulCommunity (σ : Type) where
  id : Nat
  mid : Bytes
  onReceive : σ → Header → PacketDeserializer → Address → Outcome Unit × σ

/-- What the object is at the moment, as a `Box<dyn Community>`. -/
def StatefulCommunity.now {σ : Type} (c : StatefulCommunity σ) (state : Nat → σ) : Community :=
  ⟨c.id, c.mid, fun h d a => (c.onReceive (state c.id) h d a).1⟩

/-- A registry in use: what was added to it, in order, and the state of each object. -/
structure App (σ : Type) where
  added : List (StatefulCommunity σ)
  state : Nat → σ

/-- The calls on a registry. -/
inductive AppEv (σ : Type)
  /-- `add_community(c)` -/
  | add (c : StatefulCommunity σ)
  /-- `forward_message(packet, address)` -/
  | forward (packet : Packet) (address : Address)

/-- The registry (`community/mod.rs:127-134`) after the `add_community` calls (138-144) so far. -/
def App.registry {σ : Type} (s : App σ) : CommunityRegistry :=
  s.added.foldl (fun r c => (r.addCommunity (c.now s.state)).2) CommunityRegistry.default

/-- What one `on_receive` call does to the states: the called object's state changes as it says. -/
def App.after {σ : Type} (s : App σ) (call : Call) : Nat → σ :=
  match s.added.find? (fun c => c.id == call.community) with
  | some c => fun i =>
    if i = c.id then (c.onReceive (s.state i) call.header call.deserializer call.address).2 else s.state i
  | none => s.state

/-- One call on the registry, with its effects. -/
def App.step {σ : Type} (s : App σ) : AppEv σ → Effects × App σ
  -- community/mod.rs:138-144
  | .add c => ((.ok (), [], []), { s with added := s.added ++ [c] })
  -- community/mod.rs:147-164
  | .forward packet address =>
    let effects := s.registry.forwardLogged packet address
    (effects, effects.2.1.foldl (fun s call => { s with state := s.after call }) s)

/-- A history of calls, with the effects of each. -/
def App.run {σ : Type} (s : App σ) : List (AppEv σ) → List (AppEv σ × Effects) × App σ
  | [] => ([], s)
  | e :: es =>
    let (x, s1) := s.step e
    let (xs, s2) := s1.run es
    ((e, x) :: xs, s2)

end Ipv8
