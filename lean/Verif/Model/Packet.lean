import Verif.Model.Basic
/-!
# Packets and payloads

`serialization/mod.rs` (type `Packet`), `serialization/nestedpayload.rs` and `payloads/`.
-/

namespace Ipv8

/-- `serialization/mod.rs:22`. -/
structure Packet where
  bytes : Bytes
  deriving DecidableEq, Repr

/-- `serialization/mod.rs:20` (derived `Serialize`; `Packet` is a newtype around `Vec<u8>` and is not
an `Ipv8Payload`). -/
instance : Serialize Packet where
  ser p := serVec p.bytes

/-- `serialization/mod.rs:20` (derived `Deserialize`). -/
instance : Deserialize Packet where
  de e := do
    let res ← deVec e deU8
    pure ⟨res⟩

/-! ## `serialization/nestedpayload.rs` -/

/-- `serialization/nestedpayload.rs:14`. -/
structure NestedPacket where
  packet : Packet
  deriving DecidableEq, Repr

instance : Ipv8Payload NestedPacket := ⟨⟩

/-- `serialization/nestedpayload.rs:20-31`. -/
instance : Serialize NestedPacket where
  ser p := Serialize.ser (VarLen16.mk p.packet.bytes)

/-- `serialization/nestedpayload.rs:33-50`; the pattern is a one-field tuple struct, which serde
treats as a newtype (no element budget). -/
instance : Deserialize NestedPacket where
  de e := do
    let payloadTemporary ← (Deserialize.de e : De VarLen16)
    pure ⟨⟨payloadTemporary.data⟩⟩

/-! ## `payloads/timedistributionpayload.rs` -/

/-- `payloads/timedistributionpayload.rs:14-17`. -/
structure TimeDistributionPayload where
  globalTime : UInt64
  deriving DecidableEq, Repr

instance : Ipv8Payload TimeDistributionPayload := ⟨⟩

/-- `payloads/timedistributionpayload.rs:5` (derived). -/
instance : Serialize TimeDistributionPayload where
  ser p := .ok [.u64 p.globalTime]

/-- `payloads/timedistributionpayload.rs:5` (derived: a struct of one field). -/
instance : Deserialize TimeDistributionPayload where
  de e := do
    let (t, _) ← field (deU64 e) (.invalidLength 0) 1
    pure ⟨t⟩

/-! ## `payloads/puncturepayload.rs`, `payloads/puncturerequestpayload.rs` -/

/-- `payloads/puncturepayload.rs:9-20`. -/
structure PuncturePayload where
  lanWalkerAddress : Address
  wanWalkerAddress : Address
  identifier : UInt16
  deriving DecidableEq, Repr

instance : Ipv8Payload PuncturePayload := ⟨⟩

/-- `payloads/puncturepayload.rs:7` (derived: fields in declaration order). -/
instance : Serialize PuncturePayload where
  ser p := do
    let a ← Serialize.ser p.lanWalkerAddress
    let b ← Serialize.ser p.wanWalkerAddress
    pure (a ++ b ++ [.u16 p.identifier])

/-- `payloads/puncturepayload.rs:7` (derived: `deserialize_struct` with three fields). -/
instance : Deserialize PuncturePayload where
  de e := do
    let (a, n) ← field (Deserialize.de e : De Address) (.invalidLength 0) 3
    let (b, n) ← field (Deserialize.de e : De Address) (.invalidLength 1) n
    let (i, _) ← field (deU16 e) (.invalidLength 2) n
    pure ⟨a, b, i⟩

/-- `payloads/puncturerequestpayload.rs:9-25`. -/
structure PunctureRequestPayload where
  lanWalkerAddress : Address
  wanWalkerAddress : Address
  identifier : UInt16
  deriving DecidableEq, Repr

instance : Ipv8Payload PunctureRequestPayload := ⟨⟩

/-- `payloads/puncturerequestpayload.rs:7` (derived). -/
instance : Serialize PunctureRequestPayload where
  ser p := do
    let a ← Serialize.ser p.lanWalkerAddress
    let b ← Serialize.ser p.wanWalkerAddress
    pure (a ++ b ++ [.u16 p.identifier])

/-- `payloads/puncturerequestpayload.rs:7` (derived). -/
instance : Deserialize PunctureRequestPayload where
  de e := do
    let (a, n) ← field (Deserialize.de e : De Address) (.invalidLength 0) 3
    let (b, n) ← field (Deserialize.de e : De Address) (.invalidLength 1) n
    let (i, _) ← field (deU16 e) (.invalidLength 2) n
    pure ⟨a, b, i⟩

/-! ## `payloads/introductionrequestpayload.rs` -/

/-- `payloads/introductionrequestpayload.rs:14-41`. -/
structure IntroductionRequestPayload where
  destinationAddress : Address
  sourceLanAddress : Address
  sourceWanAddress : Address
  advice : Bool
  connectionType : ConnectionType
  identifier : UInt16
  extraBytes : RawEnd
  deriving DecidableEq, Repr

instance : Ipv8Payload IntroductionRequestPayload := ⟨⟩

/-- `payloads/introductionrequestpayload.rs:50-80`. -/
instance : Serialize IntroductionRequestPayload where
  ser p := do
    let conntype := p.connectionType.encode
    let d ← Serialize.ser p.destinationAddress
    let l ← Serialize.ser p.sourceLanAddress
    let w ← Serialize.ser p.sourceWanAddress
    let f ← Serialize.ser
      (Bits.fromBools conntype.1 conntype.2 false false false false false p.advice)
    let x ← Serialize.ser p.extraBytes
    pure (d ++ l ++ w ++ f ++ [.u16 p.identifier] ++ x)

/-- `payloads/introductionrequestpayload.rs:82-111`: a tuple struct of six elements, then rebuilt. -/
instance : Deserialize IntroductionRequestPayload where
  de e := do
    let (t0, n) ← field (Deserialize.de e : De Address) (.invalidLength 0) 6
    let (t1, n) ← field (Deserialize.de e : De Address) (.invalidLength 1) n
    let (t2, n) ← field (Deserialize.de e : De Address) (.invalidLength 2) n
    let (t3, n) ← field (Deserialize.de e : De Bits) (.invalidLength 3) n
    let (t4, n) ← field (deU16 e) (.invalidLength 4) n
    let (t5, _) ← field (Deserialize.de e : De RawEnd) (.invalidLength 5) n
    pure {
      destinationAddress := t0
      sourceLanAddress := t1
      sourceWanAddress := t2
      advice := t3.bit7
      connectionType := ConnectionType.decode (t3.bit0, t3.bit1)
      identifier := t4
      extraBytes := t5 }

/-! ## `payloads/introductionresponsepayload.rs` -/

/-- `payloads/introductionresponsepayload.rs:13-46`. -/
structure IntroductionResponsePayload where
  destinationAddress : Address
  sourceLanAddress : Address
  sourceWanAddress : Address
  lanIntroductionAddress : Address
  wanIntroductionAddress : Address
  tunnel : Bool
  connectionType : ConnectionType
  identifier : UInt16
  extraBytes : RawEnd
  deriving DecidableEq, Repr

instance : Ipv8Payload IntroductionResponsePayload := ⟨⟩

/-- `payloads/introductionresponsepayload.rs:55-81`. -/
instance : Serialize IntroductionResponsePayload where
  ser p := do
    let conntype := p.connectionType.encode
    let d ← Serialize.ser p.destinationAddress
    let l ← Serialize.ser p.sourceLanAddress
    let w ← Serialize.ser p.sourceWanAddress
    let li ← Serialize.ser p.lanIntroductionAddress
    let wi ← Serialize.ser p.wanIntroductionAddress
    let f ← Serialize.ser
      (Bits.fromBools conntype.1 conntype.2 false false false false false false)
    let x ← Serialize.ser p.extraBytes
    pure (d ++ l ++ w ++ li ++ wi ++ f ++ [.u16 p.identifier] ++ x)

/-- `payloads/introductionresponsepayload.rs:83-123`: a tuple struct of eight elements, then rebuilt
with `tunnel: false`. -/
instance : Deserialize IntroductionResponsePayload where
  de e := do
    let (t0, n) ← field (Deserialize.de e : De Address) (.invalidLength 0) 8
    let (t1, n) ← field (Deserialize.de e : De Address) (.invalidLength 1) n
    let (t2, n) ← field (Deserialize.de e : De Address) (.invalidLength 2) n
    let (t3, n) ← field (Deserialize.de e : De Address) (.invalidLength 3) n
    let (t4, n) ← field (Deserialize.de e : De Address) (.invalidLength 4) n
    let (t5, n) ← field (Deserialize.de e : De Bits) (.invalidLength 5) n
    let (t6, n) ← field (deU16 e) (.invalidLength 6) n
    let (t7, _) ← field (Deserialize.de e : De RawEnd) (.invalidLength 7) n
    pure {
      destinationAddress := t0
      sourceLanAddress := t1
      sourceWanAddress := t2
      lanIntroductionAddress := t3
      wanIntroductionAddress := t4
      tunnel := false
      connectionType := ConnectionType.decode (t5.bit0, t5.bit1)
      identifier := t6
      extraBytes := t7 }

/-! ## `payloads/binmemberauthenticationpayload.rs` -/

/-- `payloads/binmemberauthenticationpayload.rs:15-20`. -/
structure BinMemberAuthenticationPayload where
  publicKeyBin : FixedBytes 32
  encryptionKeyBin : FixedBytes 32
  deriving DecidableEq, Repr

instance : Ipv8Payload BinMemberAuthenticationPayload := ⟨⟩

/-- `"LibNaCLPK:"` in bytes, `payloads/binmemberauthenticationpayload.rs:38,73`. -/
def libNaCLPK : Bytes := [76, 105, 98, 78, 97, 67, 76, 80, 75, 58]

/-- `payloads/binmemberauthenticationpayload.rs:25-52`. -/
instance : Serialize BinMemberAuthenticationPayload where
  ser p :=
    let length := p.publicKeyBin.1.length + p.encryptionKeyBin.1.length + 10
    .ok (.u16 (UInt16.ofNat length) ::
      (libNaCLPK.map .u8 ++ p.encryptionKeyBin.1.map .u8 ++ p.publicKeyBin.1.map .u8))

/-- `payloads/binmemberauthenticationpayload.rs:70-94`: take the key apart.  The slices
`contents[0..10]`, `contents[10..42]`, `contents[42..74]` panic when the content is too short. -/
def authOfContents (contents : Bytes) : Outcome BinMemberAuthenticationPayload := do
  let prefix10 ← slice contents 0 10
  if prefix10 ≠ libNaCLPK then
    .err (.custom "Received BinMemberAuthenticationPayload without LibNaclPK: prefix")
  else
    let enc ← slice contents 10 42
    let encryptionKeyBin ← Outcome.ofOption
      (.custom "Received BinMemberAuthenticationPayload had an invalid size") (toFixed 32 enc)
    let pub ← slice contents 42 74
    let publicKeyBin ← Outcome.ofOption
      (.custom "Received BinMemberAuthenticationPayload had an invalid size") (toFixed 32 pub)
    pure ⟨publicKeyBin, encryptionKeyBin⟩

/-- `payloads/binmemberauthenticationpayload.rs:54-96`; the pattern is a one-field tuple struct
(newtype) around a `VarLen16`. -/
instance : Deserialize BinMemberAuthenticationPayload where
  de e := do
    let payloadTemporary ← (Deserialize.de e : De VarLen16)
    De.lift (authOfContents payloadTemporary.data)

/-! ## `serialization/mod.rs`: writing packets -/

namespace Packet

/-- `serialization/mod.rs:129-137`: any serialization error becomes `HeaderError`. -/
def new (header : Header) : Outcome Packet :=
  match Bincode.serialize .big header with
  | .ok i => .ok ⟨[] ++ i⟩
  | .err _ => .err .header
  | .panic => .panic

/-- `serialization/mod.rs:140-142`. -/
def raw (p : Packet) : Bytes := p.bytes

/-- `serialization/mod.rs:182-184`. -/
def len (p : Packet) : Nat := p.bytes.length

/-- `serialization/mod.rs:172-179`: `&mut self`, so the packet afterwards is returned too; on an error
`?` returns before `extend`. -/
def add {α : Type} [Ipv8Payload α] [Serialize α] (p : Packet) (obj : α) : Outcome Unit × Packet :=
  match Bincode.serialize .big obj with
  | .ok i => (.ok (), ⟨p.bytes ++ i⟩)
  | .err e => (.err e, p)
  | .panic => (.panic, p)

end Packet
end Ipv8
