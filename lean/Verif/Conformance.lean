import Verif.Model.Ipv8
import Verif.Model.Derive
/-!
# The repository's own tests, run on the model

These are tests, not proofs of properties: every `example` here evaluates the model on the literals of a
test of the repository and compares with the value that test asserts.  Their purpose is to check the
*model* against the expectations the authors wrote down for the code.  No claim of MANIFEST.json rests
on this file.
-/

namespace Ipv8.Conformance
open Ipv8 PacketDeserializer

/-- `Result::map`. -/
def _root_.Ipv8.Outcome.map {α β : Type} (f : α → β) : Outcome α → Outcome β
  | .ok a => .ok (f a)
  | .err e => .err e
  | .panic => .panic

/-- The test header of `serialization/header.rs:211-222`. -/
def testHeader : Header :=
  ⟨23, .PyIPV8Header, some (List.replicate 20 0), some 42⟩

/-- `Packet::new(create_test_header!()).unwrap()` as bytes. -/
def testHeaderBytes : Bytes :=
  [0, 2, 0, 0, 0, 0, 0, 0, 0, 0, 0, 0, 0, 0, 0, 0, 0, 0, 0, 0, 0, 0, 42]

/-- `Packet::new(create_test_header!()).unwrap()`, then `packet.add(&v).unwrap()`. -/
def packetWith {α : Type} [Ipv8Payload α] [Serialize α] (v : α) : Outcome Packet :=
  match Packet.new testHeader with
  | .ok p =>
    match p.add v with
    | (.ok (), q) => .ok q
    | (.err e, _) => .err e
    | (.panic, _) => .panic
  | .err e => .err e
  | .panic => .panic

/-- `packet.start_deserialize().skip_header().unwrap().next_payload().unwrap()`. -/
def firstPayload (α : Type) [Ipv8Payload α] [Serialize α] [Deserialize α] (p : Packet) : Outcome α :=
  match p.startDeserialize.skipHeader with
  | .ok d => (d.nextPayload α).1
  | .err e => .err e
  | .panic => .panic

/-! ## `serialization/bits.rs:131-182` -/

def testBits : Bits := Bits.fromBools false true false true false true false false

example : Bincode.serialize .little testBits = .ok [42] := by decide +kernel
example : Bincode.deserialize .little [42] = .ok testBits := by decide +kernel
example : testBits.toU8 = 42 := by decide +kernel
example : Bits.fromU8 42 = testBits := by decide +kernel

/-! ## `serialization/header.rs:224-247` -/

def countingMid : FixedBytes 20 :=
  ⟨[0, 1, 2, 3, 4, 5, 6, 7, 8, 9, 10, 11, 12, 13, 14, 15, 16, 17, 18, 19], by decide⟩

example : ((Bincode.serialize .big (Header.pyIpv8Header countingMid 42)) >>=
    fun w => (Bincode.deserialize .big w : Outcome Header)) =
    .ok (Header.pyIpv8Header countingMid 42) := by decide +kernel

/-! ## `serialization/mod.rs:187-353` -/

/-- `TestPayload1 { test: u16 }`. -/
abbrev P1 := Derived (.cons .u16 .unit)
/-- `TestPayload2 { test: u32 }`. -/
abbrev P2 := Derived (.cons .u32 .unit)

example : Outcome.map Packet.raw (Packet.new testHeader) = .ok testHeaderBytes := by decide +kernel

example : Outcome.map (fun p => p.startDeserialize.peekHeader) (Packet.new testHeader) =
    .ok (.ok testHeader) := by decide +kernel

def multiple : Packet :=
  let p : Packet := ⟨testHeaderBytes⟩
  (((p.add (⟨42, ()⟩ : P1)).2.add (⟨43, ()⟩ : P2)).2.add (⟨44, ()⟩ : P1)).2

example : multiple.bytes = testHeaderBytes ++ [0, 42, 0, 0, 0, 43, 0, 44] := by decide +kernel

example : (do
    let d0 ← multiple.startDeserialize.skipHeader
    let (a, d1) := d0.nextPayload P1
    let (b, d2) := d1.nextPayload P2
    let (c, d3) := d2.nextPayload P1
    let a ← a
    let b ← b
    let c ← c
    let (last, _) := d3.nextPayload P1
    pure (a.val.1, b.val.1, c.val.1, last.isErr)) = Outcome.ok (42, 43, 44, true) := by
  decide +kernel

/-! ## `serialization/nestedpayload.rs:52-159` -/

/-- `TestPayload1 { test: NestedPacket }`. -/
abbrev N1 := Derived (.cons .nested .unit)
/-- `TestPayload3 {}`. -/
abbrev N3 := Derived .unit
/-- `TestPayload4 { test: Vec<u8> }`. -/
abbrev N4 := Derived (.cons (.vec .u8) .unit)

example : (do
    let inner ← packetWith (⟨10, ()⟩ : P1)
    let outer ← packetWith (⟨⟨inner⟩, ()⟩ : N1)
    let r ← firstPayload N1 outer
    pure (decide (r.val.1 = ⟨inner⟩))) = Outcome.ok true := by decide +kernel

example : (do
    let inner ← packetWith (⟨()⟩ : N3)
    let outer ← packetWith (⟨⟨inner⟩, ()⟩ : N1)
    let r ← firstPayload N1 outer
    pure (decide (r.val.1 = ⟨inner⟩))) = Outcome.ok true := by decide +kernel

/-! ## `serialization/rawend.rs:56-108` -/

abbrev R1 := Derived (.cons .rawEnd .unit)

example : packetWith (⟨⟨[42, 43]⟩, ()⟩ : R1) = .ok ⟨testHeaderBytes ++ [42, 43]⟩ := by
  decide +kernel

example : Outcome.map (·.val.1) (firstPayload R1 ⟨testHeaderBytes ++ [42, 43]⟩) = .ok ⟨[42, 43]⟩ := by
  decide +kernel

/-! ## `serialization/varlen.rs:151-275` -/

def ten : Bytes := [1, 2, 3, 4, 5, 6, 7, 8, 9, 10]

example : packetWith (VarLen16.mk ten) = .ok ⟨testHeaderBytes ++ [0, 10] ++ ten⟩ := by
  decide +kernel
example : packetWith (VarLen16.mk []) = .ok ⟨testHeaderBytes ++ [0, 0]⟩ := by decide +kernel
example : firstPayload VarLen16 ⟨testHeaderBytes ++ [0, 10] ++ ten⟩ = .ok ⟨ten⟩ := by decide +kernel
example : packetWith (VarLen32.mk ten) = .ok ⟨testHeaderBytes ++ [0, 0, 0, 10] ++ ten⟩ := by
  decide +kernel
example : firstPayload VarLen32 ⟨testHeaderBytes ++ [0, 0, 0, 10] ++ ten⟩ = .ok ⟨ten⟩ := by
  decide +kernel
example : packetWith (VarLen64.mk ten) =
    .ok ⟨testHeaderBytes ++ [0, 0, 0, 0, 0, 0, 0, 10] ++ ten⟩ := by decide +kernel
example : firstPayload VarLen64 ⟨testHeaderBytes ++ [0, 0, 0, 0, 0, 0, 0, 10] ++ ten⟩ =
    .ok ⟨ten⟩ := by decide +kernel

/-! ## `networking/address.rs:70-98` -/

example : Bincode.serialize .little (Address.mk (.v4 127 0 0 1 8000)) =
    .ok [127, 0, 0, 1, 64, 31] := by decide +kernel
example : ((Bincode.serialize .little (Address.mk (.v4 127 0 0 1 4242))) >>=
    fun w => (Bincode.deserialize .little w : Outcome Address)) =
    .ok ⟨.v4 127 0 0 1 4242⟩ := by decide +kernel

/-! ## `payloads/*.rs` -/

def testRequest : IntroductionRequestPayload where
  destinationAddress := ⟨.v4 127 0 0 1 8000⟩
  sourceLanAddress := ⟨.v4 42 42 42 42 8000⟩
  sourceWanAddress := ⟨.v4 255 255 255 0 8000⟩
  advice := true
  connectionType := ConnectionType.decode (true, true)
  identifier := 42
  extraBytes := ⟨[43, 44]⟩

def testRequestBytes : Bytes := testHeaderBytes ++
  [127, 0, 0, 1, 31, 64, 42, 42, 42, 42, 31, 64, 255, 255, 255, 0, 31, 64, 131, 0, 42, 43, 44]

/-- `payloads/introductionrequestpayload.rs:120-161`. -/
example : packetWith testRequest = .ok ⟨testRequestBytes⟩ := by decide +kernel
example : firstPayload IntroductionRequestPayload ⟨testRequestBytes⟩ = .ok testRequest := by
  decide +kernel

def testResponse : IntroductionResponsePayload where
  destinationAddress := ⟨.v4 127 0 0 1 8000⟩
  sourceLanAddress := ⟨.v4 42 42 42 42 8000⟩
  sourceWanAddress := ⟨.v4 255 255 255 0 8000⟩
  lanIntroductionAddress := ⟨.v4 43 43 43 43 8000⟩
  wanIntroductionAddress := ⟨.v4 4 44 44 44 8000⟩
  tunnel := true
  connectionType := ConnectionType.decode (true, true)
  identifier := 42
  extraBytes := ⟨[43, 44]⟩

def testResponseBytes : Bytes := testHeaderBytes ++
  [127, 0, 0, 1, 31, 64, 42, 42, 42, 42, 31, 64, 255, 255, 255, 0, 31, 64, 43, 43, 43, 43, 31, 64,
   4, 44, 44, 44, 31, 64, 3, 0, 42, 43, 44]

/-- `payloads/introductionresponsepayload.rs:131-206`. -/
example : packetWith testResponse = .ok ⟨testResponseBytes⟩ := by decide +kernel
example : firstPayload IntroductionResponsePayload ⟨testResponseBytes⟩ =
    .ok { testResponse with tunnel := false } := by decide +kernel

def testPunctureBytes : Bytes := testHeaderBytes ++
  [127, 0, 0, 1, 31, 64, 42, 42, 42, 42, 31, 64, 0, 42]

/-- `payloads/puncturepayload.rs:32-67`. -/
example : packetWith (PuncturePayload.mk ⟨.v4 127 0 0 1 8000⟩ ⟨.v4 42 42 42 42 8000⟩ 42) =
    .ok ⟨testPunctureBytes⟩ := by decide +kernel
example : firstPayload PuncturePayload ⟨testPunctureBytes⟩ =
    .ok ⟨⟨.v4 127 0 0 1 8000⟩, ⟨.v4 42 42 42 42 8000⟩, 42⟩ := by decide +kernel

/-- `payloads/puncturerequestpayload.rs:37-70`. -/
example : packetWith (PunctureRequestPayload.mk ⟨.v4 127 0 0 1 8000⟩ ⟨.v4 42 42 42 42 8000⟩ 42) =
    .ok ⟨testPunctureBytes⟩ := by decide +kernel
example : firstPayload PunctureRequestPayload ⟨testPunctureBytes⟩ =
    .ok ⟨⟨.v4 127 0 0 1 8000⟩, ⟨.v4 42 42 42 42 8000⟩, 42⟩ := by decide +kernel

/-- `payloads/timedistributionpayload.rs:28-51`. -/
example : packetWith (TimeDistributionPayload.mk 42) =
    .ok ⟨testHeaderBytes ++ [0, 0, 0, 0, 0, 0, 0, 42]⟩ := by decide +kernel
example : firstPayload TimeDistributionPayload ⟨testHeaderBytes ++ [0, 0, 0, 0, 0, 0, 0, 42]⟩ =
    .ok ⟨42⟩ := by decide +kernel

def testAuthKey : FixedBytes 32 :=
  ⟨[3, 161, 7, 191, 243, 206, 16, 190, 29, 112, 221, 24, 231, 75, 192, 153, 103, 228, 214, 48, 155, 165,
    13, 95, 29, 220, 134, 100, 18, 85, 49, 184], by decide⟩

/-- `payloads/binmemberauthenticationpayload.rs:108-131`. -/
example : (packetWith (BinMemberAuthenticationPayload.mk testAuthKey testAuthKey) >>=
    firstPayload BinMemberAuthenticationPayload) = .ok ⟨testAuthKey, testAuthKey⟩ := by decide +kernel

/-! ## `util.rs:20-52` -/

example : Outcome.map (·.1) (asFixedArray 3 [0, 1, 2]) = .ok [0, 1, 2] := by decide +kernel
example : (asFixedArray 4 [0, 1, 2]).isErr = true := by decide +kernel
example : (asFixedArray 2 [0, 1, 2]).isErr = true := by decide +kernel

/-! ## `community/mod.rs:177-321`, `tests/ipv8-community.rs` -/

/-- The community of the tests: its `on_receive` panics unless the assertions hold. -/
def testCommunity (mid : Bytes) : Community where
  id := 0
  mid := mid
  onReceive := fun header _ _ =>
    if header.midHash = some mid ∧ header.version = .PyIPV8Header ∧ header.messageType = some 42
    then .ok () else .panic

/-- `test_deprecated`: all 17 legacy messages are acknowledged, and 17 warnings are counted. -/
example :
    let types : List UInt64 :=
      [255, 254, 253, 252, 251, 248, 247, 244, 243, 242, 241, 240, 239, 238, 237, 236, 235]
    let mid : Bytes := countingMid.1
    let effects := types.map (fun t =>
      match Packet.new ⟨23, .PyIPV8Header, some mid, some t⟩ with
      | .ok p =>
        match p.startDeserialize.peekHeader with
        | .ok h => (testCommunity mid).receiveLogged h p.startDeserialize ⟨.v4 127 0 0 1 0⟩
        | _ => (.panic, [], [])
      | _ => (.panic, [], []))
    effects.all (fun e => e.1.isOk && e.2.1.isEmpty) = true ∧
    (effects.flatMap (·.2.2)).length = 17 := by decide +kernel

/-- `test_networking` and `community_integration_test`. -/
example :
    (match Packet.new ⟨23, .PyIPV8Header, some countingMid.1, some 42⟩ with
     | .ok p => (CommunityRegistry.default.addCommunity (testCommunity countingMid.1)).2.forwardMessage
        p ⟨.v4 42 42 42 42 42⟩ |>.1
     | _ => .panic) = .ok () := by decide +kernel

/-! ## `tests/testpyipv8packets.rs`: packets captured from py-ipv8

The tests assert that the signatures of these packets verify; that is a statement about ring, so the
model is run with a `Ring` that accepts exactly 32-byte keys and 64-byte signatures. -/

/-- Accepts every signature of the right size. -/
def acceptingRing : Ring where
  Key := Unit
  generatePkcs8 _ := none
  fromPkcs8 _ := none
  fromSeedAndPublicKey _ _ := none
  fromSeedUnchecked _ := none
  publicKey _ := []
  sign _ _ := []
  verify key _ sig := key.length == 32 && sig.length == 64
  sha1 _ := []

/-- What these tests do: header, verify, time, last payload. -/
def readPy (α : Type) [Ipv8Payload α] [Serialize α] [Deserialize α] (data : Bytes) :
    Outcome (Header × Bool × TimeDistributionPayload × α) := do
  let d : PacketDeserializer := Packet.startDeserialize ⟨data⟩
  let (h, d) := d.popHeader
  let h ← h
  let (v, d) := d.verify acceptingRing
  let v ← v
  let (t, d) := d.nextPayload TimeDistributionPayload
  let t ← t
  let (a, _) := d.nextPayload α
  let a ← a
  pure (h, v, t, a)

/-- The packet of `tests/testpyipv8packets.rs:13-81`. -/
def pyPacket1 : Bytes :=
  [0, 2, 186, 243, 14, 217, 25, 43, 163, 84, 205, 215, 177, 115, 224, 239, 44, 50, 128, 39, 241,
   211, 245, 0, 74, 76, 105, 98, 78, 97, 67, 76, 80, 75, 58, 81, 231, 18, 196, 235, 138, 194, 90,
   227, 165, 104, 36, 8, 178, 173, 189, 107, 120, 164, 37, 84, 127, 38, 133, 207, 223, 30, 233,
   39, 12, 190, 126, 195, 54, 196, 22, 15, 245, 114, 5, 76, 135, 120, 66, 190, 55, 115, 80, 69,
   169, 59, 196, 226, 4, 21, 49, 111, 219, 20, 113, 97, 162, 215, 70, 0, 0, 0, 0, 0, 0, 0, 1, 81,
   171, 27, 194, 43, 103, 192, 168, 1, 75, 31, 154, 192, 168, 1, 75, 31, 154, 0, 0, 0, 0, 0, 0,
   0, 0, 0, 0, 0, 0, 0, 210, 14, 0, 0, 0, 0, 206, 233, 50, 107, 157, 212, 187, 138, 175, 141,
   192, 57, 40, 142, 191, 194, 74, 16, 173, 195, 122, 241, 217, 200, 4, 23, 114, 93, 45, 62, 94,
   7, 82, 77, 171, 110, 167, 27, 23, 90, 119, 93, 181, 216, 145, 12, 43, 75, 200, 187, 3, 211,
   85, 237, 16, 38, 221, 187, 216, 178, 59, 253, 252, 1]

example : readPy IntroductionResponsePayload pyPacket1 = .ok (Header.pyIpv8Header ⟨[186, 243, 14, 217, 25, 43, 163, 84, 205, 215, 177, 115, 224, 239, 44, 50, 128, 39, 241, 211], by decide⟩ 245, true, ⟨1⟩,
    ⟨⟨.v4 81 171 27 194 11111⟩, ⟨.v4 192 168 1 75 8090⟩, ⟨.v4 192 168 1 75 8090⟩, ⟨.v4 0 0 0 0 0⟩, ⟨.v4 0 0 0 0 0⟩, false, .UNKNOWN, 53774, ⟨[0, 0, 0, 0]⟩⟩) := by decide +kernel

/-- The packet of `tests/testpyipv8packets.rs:84-136`. -/
def pyPacket2 : Bytes :=
  [0, 2, 185, 95, 161, 221, 207, 171, 191, 187, 161, 96, 240, 60, 68, 25, 173, 73, 171, 20, 227,
   143, 249, 0, 74, 76, 105, 98, 78, 97, 67, 76, 80, 75, 58, 81, 231, 18, 196, 235, 138, 194, 90,
   227, 165, 104, 36, 8, 178, 173, 189, 107, 120, 164, 37, 84, 127, 38, 133, 207, 223, 30, 233,
   39, 12, 190, 126, 195, 54, 196, 22, 15, 245, 114, 5, 76, 135, 120, 66, 190, 55, 115, 80, 69,
   169, 59, 196, 226, 4, 21, 49, 111, 219, 20, 113, 97, 162, 215, 70, 0, 0, 0, 0, 0, 0, 0, 3,
   192, 168, 1, 75, 31, 154, 81, 171, 27, 194, 61, 247, 209, 90, 210, 194, 207, 122, 121, 69, 68,
   115, 21, 144, 198, 224, 1, 102, 72, 229, 188, 161, 226, 178, 71, 169, 147, 157, 191, 199, 162,
   150, 211, 66, 218, 208, 212, 74, 37, 184, 168, 156, 195, 225, 45, 70, 125, 73, 149, 56, 234,
   202, 236, 6, 242, 3, 11, 255, 168, 248, 6, 101, 212, 116, 59, 50, 176, 0]

example : readPy PunctureRequestPayload pyPacket2 = .ok (Header.pyIpv8Header ⟨[185, 95, 161, 221, 207, 171, 191, 187, 161, 96, 240, 60, 68, 25, 173, 73, 171, 20, 227, 143], by decide⟩ 249, true, ⟨3⟩,
    ⟨⟨.v4 192 168 1 75 8090⟩, ⟨.v4 81 171 27 194 15863⟩, 53594⟩) := by decide +kernel

/-- The packet of `tests/testpyipv8packets.rs:139-190`. -/
def pyPacket3 : Bytes :=
  [0, 2, 185, 95, 161, 221, 207, 171, 191, 187, 161, 96, 240, 60, 68, 25, 173, 73, 171, 20, 227,
   143, 249, 0, 74, 76, 105, 98, 78, 97, 67, 76, 80, 75, 58, 81, 231, 18, 196, 235, 138, 194, 90,
   227, 165, 104, 36, 8, 178, 173, 189, 107, 120, 164, 37, 84, 127, 38, 133, 207, 223, 30, 233,
   39, 12, 190, 126, 195, 54, 196, 22, 15, 245, 114, 5, 76, 135, 120, 66, 190, 55, 115, 80, 69,
   169, 59, 196, 226, 4, 21, 49, 111, 219, 20, 113, 97, 162, 215, 70, 0, 0, 0, 0, 0, 0, 0, 4,
   192, 168, 1, 75, 31, 154, 81, 171, 27, 194, 61, 247, 76, 52, 135, 153, 29, 165, 107, 9, 165,
   88, 202, 171, 40, 38, 4, 157, 92, 227, 197, 182, 207, 221, 174, 12, 18, 114, 165, 31, 99, 32,
   61, 116, 17, 227, 146, 185, 78, 210, 131, 187, 13, 89, 111, 226, 222, 178, 6, 97, 136, 209,
   182, 163, 92, 146, 175, 20, 177, 55, 65, 198, 23, 63, 30, 124, 199, 2]

example : readPy PunctureRequestPayload pyPacket3 = .ok (Header.pyIpv8Header ⟨[185, 95, 161, 221, 207, 171, 191, 187, 161, 96, 240, 60, 68, 25, 173, 73, 171, 20, 227, 143], by decide⟩ 249, true, ⟨4⟩,
    ⟨⟨.v4 192 168 1 75 8090⟩, ⟨.v4 81 171 27 194 15863⟩, 19508⟩) := by decide +kernel

/-- The packet of `tests/testpyipv8packets.rs:193-245`. -/
def pyPacket4 : Bytes :=
  [0, 2, 185, 95, 161, 221, 207, 171, 191, 187, 161, 96, 240, 60, 68, 25, 173, 73, 171, 20, 227,
   143, 249, 0, 74, 76, 105, 98, 78, 97, 67, 76, 80, 75, 58, 81, 231, 18, 196, 235, 138, 194, 90,
   227, 165, 104, 36, 8, 178, 173, 189, 107, 120, 164, 37, 84, 127, 38, 133, 207, 223, 30, 233,
   39, 12, 190, 126, 195, 54, 196, 22, 15, 245, 114, 5, 76, 135, 120, 66, 190, 55, 115, 80, 69,
   169, 59, 196, 226, 4, 21, 49, 111, 219, 20, 113, 97, 162, 215, 70, 0, 0, 0, 0, 0, 0, 0, 7,
   192, 168, 1, 75, 31, 154, 81, 171, 27, 194, 61, 247, 165, 114, 156, 91, 237, 140, 96, 246, 43,
   63, 23, 231, 167, 150, 181, 194, 213, 43, 197, 176, 17, 134, 35, 207, 50, 227, 145, 0, 165,
   59, 195, 253, 64, 140, 20, 231, 54, 144, 35, 254, 202, 7, 181, 222, 255, 248, 0, 177, 32, 93,
   61, 249, 192, 45, 117, 207, 76, 49, 187, 65, 132, 47, 207, 106, 220, 5]

example : readPy PunctureRequestPayload pyPacket4 = .ok (Header.pyIpv8Header ⟨[185, 95, 161, 221, 207, 171, 191, 187, 161, 96, 240, 60, 68, 25, 173, 73, 171, 20, 227, 143], by decide⟩ 249, true, ⟨7⟩,
    ⟨⟨.v4 192 168 1 75 8090⟩, ⟨.v4 81 171 27 194 15863⟩, 42354⟩) := by decide +kernel

/-- The packet of `tests/testpyipv8packets.rs:248-300`. -/
def pyPacket5 : Bytes :=
  [0, 2, 185, 95, 161, 221, 207, 171, 191, 187, 161, 96, 240, 60, 68, 25, 173, 73, 171, 20, 227,
   143, 249, 0, 74, 76, 105, 98, 78, 97, 67, 76, 80, 75, 58, 81, 231, 18, 196, 235, 138, 194, 90,
   227, 165, 104, 36, 8, 178, 173, 189, 107, 120, 164, 37, 84, 127, 38, 133, 207, 223, 30, 233,
   39, 12, 190, 126, 195, 54, 196, 22, 15, 245, 114, 5, 76, 135, 120, 66, 190, 55, 115, 80, 69,
   169, 59, 196, 226, 4, 21, 49, 111, 219, 20, 113, 97, 162, 215, 70, 0, 0, 0, 0, 0, 0, 0, 8,
   192, 168, 1, 75, 31, 154, 81, 171, 27, 194, 194, 203, 240, 225, 194, 233, 1, 130, 62, 212,
   204, 12, 131, 230, 35, 194, 41, 134, 151, 128, 24, 173, 91, 169, 103, 158, 100, 96, 58, 232,
   2, 43, 45, 120, 37, 211, 115, 201, 239, 231, 162, 206, 23, 226, 40, 106, 56, 64, 42, 221, 165,
   247, 224, 140, 114, 163, 180, 152, 164, 130, 108, 138, 79, 195, 252, 145, 199, 3]

example : readPy PunctureRequestPayload pyPacket5 = .ok (Header.pyIpv8Header ⟨[185, 95, 161, 221, 207, 171, 191, 187, 161, 96, 240, 60, 68, 25, 173, 73, 171, 20, 227, 143], by decide⟩ 249, true, ⟨8⟩,
    ⟨⟨.v4 192 168 1 75 8090⟩, ⟨.v4 81 171 27 194 49867⟩, 61665⟩) := by decide +kernel

/-- The packet of `tests/testpyipv8packets.rs:303-355`. -/
def pyPacket6 : Bytes :=
  [0, 2, 180, 44, 147, 209, 103, 160, 252, 74, 8, 67, 249, 23, 212, 191, 30, 158, 187, 52, 14,
   196, 249, 0, 74, 76, 105, 98, 78, 97, 67, 76, 80, 75, 58, 81, 231, 18, 196, 235, 138, 194, 90,
   227, 165, 104, 36, 8, 178, 173, 189, 107, 120, 164, 37, 84, 127, 38, 133, 207, 223, 30, 233,
   39, 12, 190, 126, 195, 54, 196, 22, 15, 245, 114, 5, 76, 135, 120, 66, 190, 55, 115, 80, 69,
   169, 59, 196, 226, 4, 21, 49, 111, 219, 20, 113, 97, 162, 215, 70, 0, 0, 0, 0, 0, 0, 0, 14,
   192, 168, 1, 75, 31, 154, 81, 171, 27, 194, 43, 103, 210, 23, 184, 39, 246, 117, 131, 127, 78,
   206, 160, 42, 150, 7, 222, 152, 2, 148, 11, 14, 111, 149, 107, 165, 214, 225, 21, 50, 122,
   209, 32, 64, 131, 223, 167, 245, 201, 244, 153, 24, 129, 131, 11, 7, 192, 18, 32, 133, 109,
   61, 103, 127, 82, 147, 237, 225, 3, 141, 49, 52, 171, 224, 80, 170, 239, 7]

example : readPy PunctureRequestPayload pyPacket6 = .ok (Header.pyIpv8Header ⟨[180, 44, 147, 209, 103, 160, 252, 74, 8, 67, 249, 23, 212, 191, 30, 158, 187, 52, 14, 196], by decide⟩ 249, true, ⟨14⟩,
    ⟨⟨.v4 192 168 1 75 8090⟩, ⟨.v4 81 171 27 194 11111⟩, 53783⟩) := by decide +kernel

/-- The packet of `tests/testpyipv8packets.rs:358-410`. -/
def pyPacket7 : Bytes :=
  [0, 2, 185, 95, 161, 221, 207, 171, 191, 187, 161, 96, 240, 60, 68, 25, 173, 73, 171, 20, 227,
   143, 249, 0, 74, 76, 105, 98, 78, 97, 67, 76, 80, 75, 58, 81, 231, 18, 196, 235, 138, 194, 90,
   227, 165, 104, 36, 8, 178, 173, 189, 107, 120, 164, 37, 84, 127, 38, 133, 207, 223, 30, 233,
   39, 12, 190, 126, 195, 54, 196, 22, 15, 245, 114, 5, 76, 135, 120, 66, 190, 55, 115, 80, 69,
   169, 59, 196, 226, 4, 21, 49, 111, 219, 20, 113, 97, 162, 215, 70, 0, 0, 0, 0, 0, 0, 0, 15,
   192, 168, 1, 75, 31, 154, 73, 145, 138, 233, 30, 79, 255, 166, 104, 128, 231, 116, 207, 133,
   118, 230, 255, 89, 123, 240, 236, 129, 64, 67, 99, 52, 94, 255, 88, 83, 112, 101, 160, 221,
   62, 52, 223, 114, 132, 255, 130, 18, 45, 91, 134, 160, 251, 166, 249, 8, 101, 110, 114, 124,
   30, 174, 28, 31, 245, 87, 13, 4, 94, 252, 79, 227, 30, 169, 19, 152, 8, 11]

example : readPy PunctureRequestPayload pyPacket7 = .ok (Header.pyIpv8Header ⟨[185, 95, 161, 221, 207, 171, 191, 187, 161, 96, 240, 60, 68, 25, 173, 73, 171, 20, 227, 143], by decide⟩ 249, true, ⟨15⟩,
    ⟨⟨.v4 192 168 1 75 8090⟩, ⟨.v4 73 145 138 233 7759⟩, 65446⟩) := by decide +kernel

/-- The packet of `tests/testpyipv8packets.rs:413-482`. -/
def pyPacket8 : Bytes :=
  [0, 2, 185, 95, 161, 221, 207, 171, 191, 187, 161, 96, 240, 60, 68, 25, 173, 73, 171, 20, 227,
   143, 245, 0, 74, 76, 105, 98, 78, 97, 67, 76, 80, 75, 58, 81, 231, 18, 196, 235, 138, 194, 90,
   227, 165, 104, 36, 8, 178, 173, 189, 107, 120, 164, 37, 84, 127, 38, 133, 207, 223, 30, 233,
   39, 12, 190, 126, 195, 54, 196, 22, 15, 245, 114, 5, 76, 135, 120, 66, 190, 55, 115, 80, 69,
   169, 59, 196, 226, 4, 21, 49, 111, 219, 20, 113, 97, 162, 215, 70, 0, 0, 0, 0, 0, 0, 0, 11,
   192, 168, 1, 75, 30, 79, 192, 168, 1, 75, 31, 154, 192, 168, 1, 75, 31, 154, 0, 0, 0, 0, 0, 0,
   0, 0, 0, 0, 0, 0, 0, 21, 189, 79, 233, 85, 58, 43, 121, 152, 76, 192, 212, 238, 110, 142, 173,
   157, 254, 32, 213, 189, 238, 40, 7, 229, 47, 131, 155, 74, 187, 176, 30, 179, 165, 56, 24,
   206, 186, 40, 15, 166, 107, 163, 1, 89, 245, 150, 109, 75, 168, 215, 148, 134, 120, 74, 79,
   176, 193, 179, 83, 146, 31, 88, 182, 129, 13]

example : readPy IntroductionResponsePayload pyPacket8 = .ok (Header.pyIpv8Header ⟨[185, 95, 161, 221, 207, 171, 191, 187, 161, 96, 240, 60, 68, 25, 173, 73, 171, 20, 227, 143], by decide⟩ 245, true, ⟨11⟩,
    ⟨⟨.v4 192 168 1 75 7759⟩, ⟨.v4 192 168 1 75 8090⟩, ⟨.v4 192 168 1 75 8090⟩, ⟨.v4 0 0 0 0 0⟩, ⟨.v4 0 0 0 0 0⟩, false, .UNKNOWN, 5565, ⟨[]⟩⟩) := by decide +kernel

/-- The packet of `tests/testpyipv8packets.rs:485-554`. -/
def pyPacket9 : Bytes :=
  [0, 2, 185, 95, 161, 221, 207, 171, 191, 187, 161, 96, 240, 60, 68, 25, 173, 73, 171, 20, 227,
   143, 245, 0, 74, 76, 105, 98, 78, 97, 67, 76, 80, 75, 58, 81, 231, 18, 196, 235, 138, 194, 90,
   227, 165, 104, 36, 8, 178, 173, 189, 107, 120, 164, 37, 84, 127, 38, 133, 207, 223, 30, 233,
   39, 12, 190, 126, 195, 54, 196, 22, 15, 245, 114, 5, 76, 135, 120, 66, 190, 55, 115, 80, 69,
   169, 59, 196, 226, 4, 21, 49, 111, 219, 20, 113, 97, 162, 215, 70, 0, 0, 0, 0, 0, 0, 0, 12,
   81, 171, 27, 194, 61, 247, 192, 168, 1, 75, 31, 154, 192, 168, 1, 75, 31, 154, 192, 168, 1,
   75, 30, 79, 192, 168, 1, 75, 30, 79, 0, 196, 34, 38, 218, 97, 62, 194, 58, 230, 67, 209, 164,
   231, 10, 146, 116, 70, 93, 2, 154, 76, 181, 31, 50, 94, 64, 154, 59, 27, 89, 50, 200, 63, 66,
   70, 94, 145, 159, 86, 52, 90, 178, 156, 50, 161, 50, 206, 91, 149, 147, 22, 22, 218, 184, 3,
   13, 61, 231, 111, 234, 144, 67, 253, 95, 147, 4]

example : readPy IntroductionResponsePayload pyPacket9 = .ok (Header.pyIpv8Header ⟨[185, 95, 161, 221, 207, 171, 191, 187, 161, 96, 240, 60, 68, 25, 173, 73, 171, 20, 227, 143], by decide⟩ 245, true, ⟨12⟩,
    ⟨⟨.v4 81 171 27 194 15863⟩, ⟨.v4 192 168 1 75 8090⟩, ⟨.v4 192 168 1 75 8090⟩, ⟨.v4 192 168 1 75 7759⟩, ⟨.v4 192 168 1 75 7759⟩, false, .UNKNOWN, 50210, ⟨[]⟩⟩) := by decide +kernel

/-- The packet of `tests/testpyipv8packets.rs:557-619`. -/
def pyPacket10 : Bytes :=
  [0, 2, 186, 243, 14, 217, 25, 43, 163, 84, 205, 215, 177, 115, 224, 239, 44, 50, 128, 39, 241,
   211, 246, 0, 74, 76, 105, 98, 78, 97, 67, 76, 80, 75, 58, 81, 231, 18, 196, 235, 138, 194, 90,
   227, 165, 104, 36, 8, 178, 173, 189, 107, 120, 164, 37, 84, 127, 38, 133, 207, 223, 30, 233,
   39, 12, 190, 126, 195, 54, 196, 22, 15, 245, 114, 5, 76, 135, 120, 66, 190, 55, 115, 80, 69,
   169, 59, 196, 226, 4, 21, 49, 111, 219, 20, 113, 97, 162, 215, 70, 0, 0, 0, 0, 0, 0, 0, 151,
   81, 171, 27, 194, 43, 103, 192, 168, 1, 75, 31, 154, 192, 168, 1, 75, 31, 154, 1, 0, 151, 0,
   0, 0, 0, 3, 165, 219, 245, 204, 2, 26, 33, 233, 112, 45, 138, 242, 145, 180, 98, 73, 145, 178,
   65, 8, 137, 227, 69, 161, 156, 47, 249, 11, 96, 38, 201, 112, 104, 42, 188, 209, 3, 71, 45,
   253, 238, 25, 216, 249, 72, 110, 191, 43, 253, 231, 12, 134, 215, 188, 0, 166, 33, 254, 38,
   34, 137, 218, 11]

example : readPy IntroductionRequestPayload pyPacket10 = .ok (Header.pyIpv8Header ⟨[186, 243, 14, 217, 25, 43, 163, 84, 205, 215, 177, 115, 224, 239, 44, 50, 128, 39, 241, 211], by decide⟩ 246, true, ⟨151⟩,
    ⟨⟨.v4 81 171 27 194 11111⟩, ⟨.v4 192 168 1 75 8090⟩, ⟨.v4 192 168 1 75 8090⟩, false, .PUBLIC, 151, ⟨[0, 0, 0, 0]⟩⟩) := by decide +kernel

end Ipv8.Conformance
