import Verif.Model.Crypto
/-!
# Specification vocabulary

What the property theorems are stated with.  Nothing here refers to how the code reads or writes: the
wire formats are written down as byte lists.
-/

namespace Ipv8.Spec

/-! ## Numbers on the wire -/

/-- Two bytes, most significant first. -/
def be16 (n : Nat) : Bytes := [UInt8.ofNat (n / 2 ^ 8), UInt8.ofNat n]

/-- Four bytes, most significant first. -/
def be32 (n : Nat) : Bytes :=
  [UInt8.ofNat (n / 2 ^ 24), UInt8.ofNat (n / 2 ^ 16), UInt8.ofNat (n / 2 ^ 8), UInt8.ofNat n]

/-- Eight bytes, most significant first. -/
def be64 (n : Nat) : Bytes :=
  [UInt8.ofNat (n / 2 ^ 56), UInt8.ofNat (n / 2 ^ 48), UInt8.ofNat (n / 2 ^ 40),
   UInt8.ofNat (n / 2 ^ 32), UInt8.ofNat (n / 2 ^ 24), UInt8.ofNat (n / 2 ^ 16),
   UInt8.ofNat (n / 2 ^ 8), UInt8.ofNat n]

/-- The number a byte string denotes, most significant byte first. -/
def fromBE (l : Bytes) : Nat := l.foldl (fun n b => n * 256 + b.toNat) 0

/-- Bit `i` of a byte. -/
def bit (b : UInt8) (i : Nat) : Bool := b.toNat / 2 ^ i % 2 = 1

/-! ## What the API does with a payload and its wire form -/

/-- Adding `v` to any packet appends exactly `w`. -/
def Writes {α : Type} [Ipv8Payload α] [Serialize α] (v : α) (w : Bytes) : Prop :=
  ∀ p : Packet, p.add v = (.ok (), ⟨p.bytes ++ w⟩)

/-- Adding `v` to any packet is refused with an error and leaves the packet as it was. -/
def Refused {α : Type} [Ipv8Payload α] [Serialize α] (v : α) : Prop :=
  ∀ p : Packet, (p.add v).1.isErr = true ∧ (p.add v).2 = p

/-- Reading a payload where the packet holds `w`, whatever comes before and after, gives `v` and moves
the cursor just behind `w`.  (A packet is never larger than the address space.) -/
def ReadsAs {α : Type} [Ipv8Payload α] [Serialize α] [Deserialize α] (w : Bytes) (v : α) : Prop :=
  ∀ pre post : Bytes, (pre ++ w ++ post).length ≤ usizeMax →
    PacketDeserializer.nextPayload α ⟨⟨pre ++ w ++ post⟩, pre.length⟩ =
      (.ok v, ⟨⟨pre ++ w ++ post⟩, pre.length + w.length⟩)

/-- The same when `w` is the last thing in the packet. -/
def ReadsLastAs {α : Type} [Ipv8Payload α] [Serialize α] [Deserialize α] (w : Bytes) (v : α) : Prop :=
  ∀ pre : Bytes, (pre ++ w).length ≤ usizeMax →
    PacketDeserializer.nextPayload α ⟨⟨pre ++ w⟩, pre.length⟩ =
      (.ok v, ⟨⟨pre ++ w⟩, pre.length + w.length⟩)

/-! ## Wire formats -/

/-- An IPv4 socket address: four octets and the port.  IPv6 has no wire form. -/
def address (a : Address) : Option Bytes :=
  match a.sock with
  | .v4 a b c d port => some ([a, b, c, d] ++ be16 port.toNat)
  | .v6 .. => none

/-- Is this an IPv4 address? -/
def isV4 (a : Address) : Bool :=
  match a.sock with
  | .v4 .. => true
  | .v6 .. => false

/-- The wire form of an IPv4 address (`[]` for IPv6, used only under `isV4`). -/
def addressBytes (a : Address) : Bytes := (address a).getD []

/-- The packet header: version 2 as two bytes, the 20-byte mid, the message type. -/
def header (mid : Bytes) (messageType : UInt8) : Bytes := [0, 2] ++ mid ++ [messageType]

/-- Value of the two connection-type bits in the flag byte. -/
def connectionBits : ConnectionType → UInt8
  | .UNKNOWN => 0
  | .PUBLIC => 1
  | .SYMMETRICNAT => 3

/-- What the two connection-type bits of a received flag byte mean: nothing known without bit 0;
with it, bit 1 says whether the sender is behind a symmetric NAT. -/
def connectionOf (b0 b1 : Bool) : ConnectionType :=
  if b0 = false then .UNKNOWN else if b1 = true then .SYMMETRICNAT else .PUBLIC

/-- The flag byte of an introduction request: connection type in bits 0 and 1, advice in bit 7. -/
def requestFlags (t : ConnectionType) (advice : Bool) : UInt8 :=
  connectionBits t + (if advice then 128 else 0)

/-- Introduction request. -/
def introductionRequest (v : IntroductionRequestPayload) : Bytes :=
  addressBytes v.destinationAddress ++ addressBytes v.sourceLanAddress ++
    addressBytes v.sourceWanAddress ++ [requestFlags v.connectionType v.advice] ++
    be16 v.identifier.toNat ++ v.extraBytes.data

/-- Introduction response. -/
def introductionResponse (v : IntroductionResponsePayload) : Bytes :=
  addressBytes v.destinationAddress ++ addressBytes v.sourceLanAddress ++
    addressBytes v.sourceWanAddress ++ addressBytes v.lanIntroductionAddress ++
    addressBytes v.wanIntroductionAddress ++ [connectionBits v.connectionType] ++
    be16 v.identifier.toNat ++ v.extraBytes.data

/-- The ASCII text `LibNaCLPK:`. -/
def keyPrefix : Bytes := "LibNaCLPK:".toUTF8.toList

/-- Authentication payload: length 74, key prefix, encryption key, public key. -/
def authentication (v : BinMemberAuthenticationPayload) : Bytes :=
  [0, 74] ++ keyPrefix ++ v.encryptionKeyBin.1 ++ v.publicKeyBin.1

/-! ## Addresses inside payloads -/

/-- The addresses of a puncture payload. -/
def addressesP (v : PuncturePayload) : List Address := [v.lanWalkerAddress, v.wanWalkerAddress]

/-- The addresses of a puncture request. -/
def addressesPR (v : PunctureRequestPayload) : List Address :=
  [v.lanWalkerAddress, v.wanWalkerAddress]

/-- The addresses of an introduction request. -/
def addressesIReq (v : IntroductionRequestPayload) : List Address :=
  [v.destinationAddress, v.sourceLanAddress, v.sourceWanAddress]

/-- The addresses of an introduction response. -/
def addressesIResp (v : IntroductionResponsePayload) : List Address :=
  [v.destinationAddress, v.sourceLanAddress, v.sourceWanAddress, v.lanIntroductionAddress,
    v.wanIntroductionAddress]

end Ipv8.Spec

namespace Ipv8.Spec

/-! ## Nesting -/

/-- Wrap a packet in packets with the given headers, the first header being the outermost. -/
def nest : List (FixedBytes 20 × UInt8) → Packet → Outcome Packet
  | [], p => .ok p
  | (mid, t) :: hs, p =>
    match nest hs p, Packet.new (Header.pyIpv8Header mid t) with
    | .ok inner, .ok q =>
      match q.add (NestedPacket.mk inner) with
      | (.ok (), q') => .ok q'
      | (.err e, _) => .err e
      | (.panic, _) => .panic
    | .err e, _ => .err e
    | _, _ => .panic

/-- Unwrap `n` layers: pop the header, read a nested packet, continue with that. -/
def unnest : Nat → Packet → Outcome (List Header × Packet)
  | 0, p => .ok ([], p)
  | n + 1, p =>
    match p.startDeserialize.popHeader with
    | (.ok h, d) =>
      match d.nextPayload NestedPacket with
      | (.ok inner, _) =>
        match unnest n inner.packet with
        | .ok (hs, core) => .ok (h :: hs, core)
        | .err e => .err e
        | .panic => .panic
      | (.err e, _) => .err e
      | (.panic, _) => .panic
    | (.err e, _) => .err e
    | (.panic, _) => .panic

end Ipv8.Spec
