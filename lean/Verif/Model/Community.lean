import Verif.Model.Crypto
/-!
# Communities

`community/mod.rs` and `community/peer.rs`.
-/

namespace Ipv8

/-! ## `community/peer.rs` -/

/-- `community/peer.rs:8-17`. -/
structure Peer where
  key : Ed25519PublicKey
  address : Address
  intro : Bool
  deriving DecidableEq, Repr

/-- `community/peer.rs:21-27`. -/
def Peer.new (key : Ed25519PublicKey) (address : Address) (intro : Bool) : Peer :=
  ⟨key, address, intro⟩

/-- `community/peer.rs:31-33`. -/
def Peer.getSha1 (R : Ring) (p : Peer) : Bytes := R.sha1 p.key.1

/-! ## `community/mod.rs` -/

/-- A value of type `Box<dyn Community>` (`community/mod.rs:38-121`): what its `get_mid` returns (when
`add_community` calls it, which is the only place that does) and
what its `on_receive` does.  `id` names the object, so that the trace of callbacks can say which
community was called; Rust has object identity here, the model needs a name.
The constructor `new` (43-45) is application code and not modelled. -/
structure Community where
  id : Nat
  mid : Bytes
  onReceive : Header → PacketDeserializer → Address → Outcome Unit

/-- One call of `on_receive`: who was called with which arguments. -/
structure Call where
  community : Nat
  header : Header
  deserializer : PacketDeserializer
  address : Address
  deriving DecidableEq, Repr

/-- One `warn!` line (`community/mod.rs:75-78`): the name of the legacy message and the sender. -/
structure Warning where
  message : String
  address : Address
  deriving DecidableEq, Repr

/-- The 17 arms of the `match` in `community/mod.rs:89-106`. -/
def deprecatedMessages : List (UInt64 × String) :=
  [(255, "reserved-255"),
   (254, "on-missing-sequence"),
   (253, "missing-proof"),
   (252, "signature-request"),
   (251, "signature-response"),
   (248, "on-identity"),
   (247, "on-missing-identity"),
   (244, "destroy-community"),
   (243, "authorize"),
   (242, "revoke"),
   (241, "subjective-set"),
   (240, "missing-subjective-set"),
   (239, "on-missing-message"),
   (238, "undo-own"),
   (237, "undo-other"),
   (236, "dynamic-settings"),
   (235, "missing-last-message")]

/-- What a call does: its result, the `on_receive` calls and the log lines it makes. -/
abbrev Effects := Outcome Unit × List Call × List Warning

/-- `community/mod.rs:74-87`: log and return `Ok(())`.  (The counter at 80-83 exists in test builds
only.) -/
def warnDeprecated (message : String) (address : Address) : Effects :=
  (.ok (), [], [⟨message, address⟩])

/-- `community/mod.rs:63-109` (the provided method, documented as not to be overridden), with all its
effects. -/
def Community.receiveLogged (c : Community) (header : Header) (deserializer : PacketDeserializer)
    (address : Address) : Effects :=
  match header.messageType with
  | none => (.err .headerUnwrap, [], [])
  | some t =>
    match deprecatedMessages.lookup t with
    | some message => warnDeprecated message address
    | none =>
      (c.onReceive header deserializer address, [⟨c.id, header, deserializer, address⟩], [])

/-- `community/mod.rs:63-109`: result and `on_receive` calls. -/
def Community.receive (c : Community) (header : Header) (deserializer : PacketDeserializer)
    (address : Address) : Outcome Unit × List Call :=
  ((c.receiveLogged header deserializer address).1, (c.receiveLogged header deserializer address).2.1)

/-- `community/mod.rs:127-134`: `HashMap<Vec<u8>, Box<dyn Community>>` as an association list that
holds each key at most once (the hash order is not observable). -/
structure CommunityRegistry where
  communities : List (Bytes × Community)

namespace CommunityRegistry

/-- `community/mod.rs:167-175`. -/
def default : CommunityRegistry := ⟨[]⟩

/-- `HashMap::insert`: replaces the value of an existing key. -/
def insert (m : List (Bytes × Community)) (k : Bytes) (v : Community) : List (Bytes × Community) :=
  (k, v) :: m.filter (fun e => e.1 != k)

/-- `HashMap::get`. -/
def get (m : List (Bytes × Community)) (k : Bytes) : Option Community :=
  (m.find? (fun e => e.1 == k)).map (·.2)

/-- `community/mod.rs:138-144`. -/
def addCommunity (r : CommunityRegistry) (item : Community) : Outcome Unit × CommunityRegistry :=
  (.ok (), ⟨insert r.communities item.mid item⟩)

/-- `community/mod.rs:147-164`, with all its effects. -/
def forwardLogged (r : CommunityRegistry) (packet : Packet) (address : Address) : Effects :=
  let deserializer := packet.startDeserialize
  match deserializer.peekHeader with
  | .err e => (.err e, [], [])
  | .panic => (.panic, [], [])
  | .ok header =>
    match header.midHash with
    | none => (.err .mid, [], [])
    | some mid =>
      match get r.communities mid with
      | none => (.err .unknownCommunity, [], [])
      | some community => community.receiveLogged header deserializer address

/-- `community/mod.rs:147-164`: result and `on_receive` calls. -/
def forwardMessage (r : CommunityRegistry) (packet : Packet) (address : Address) :
    Outcome Unit × List Call :=
  ((r.forwardLogged packet address).1, (r.forwardLogged packet address).2.1)

end CommunityRegistry
end Ipv8
