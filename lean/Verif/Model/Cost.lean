import Verif.Model.Crypto
import Verif.Model.Derive
/-!
# What reading costs

The readers of `Model/Basic.lean`, `Model/Packet.lean` and `Model/Derive.lean` once more, with a count of
the steps they make, also when they fail: one for every primitive value asked of bincode (successfully or not)
and one for every `next_element` request, answered or not.  Everything else a reader does is a constant amount
of work per such step (`Vec::push` amortised).
-/

namespace Ipv8

/-- A reader with a step count. -/
def CDe (α : Type) := Bytes → Outcome (α × Bytes) × Nat

namespace CDe

/-- Succeed without reading. -/
def pure {α : Type} (a : α) : CDe α := fun r => (.ok (a, r), 0)

/-- Sequential composition with `?`: the steps add up. -/
def bind {α β : Type} (m : CDe α) (f : α → CDe β) : CDe β := fun r =>
  match m r with
  | (.ok (a, r'), n) => ((f a r').1, n + (f a r').2)
  | (.err e, n) => (.err e, n)
  | (.panic, n) => (.panic, n)

instance : Monad CDe where
  pure := CDe.pure
  bind := CDe.bind

/-- One step. -/
def step : CDe Unit := fun r => (.ok ((), r), 1)

/-- A primitive read of bincode: one step, whatever comes of it. -/
def prim {α : Type} (d : De α) : CDe α := fun r => (d r, 1)

/-- Something that is not a step. -/
def free {α : Type} (d : De α) : CDe α := fun r => (d r, 0)

end CDe

/-- `nextElement` with its step. -/
def cnextElement {α : Type} (d : CDe α) : Nat → CDe (Option α × Nat)
  | 0 => do
    CDe.step
    pure (none, 0)
  | n + 1 => do
    CDe.step
    let a ← d
    pure (some a, n)

/-- `field` with its steps. -/
def cfield {α : Type} (d : CDe α) (e : Error) (budget : Nat) : CDe (α × Nat) := do
  let (o, n) ← cnextElement d budget
  match o with
  | some a => pure (a, n)
  | none => CDe.free (De.fail e)

/-- `repeatField` with its steps. -/
def crepeatField {α : Type} (d : CDe α) (e : Error) : (k budget : Nat) → CDe (List α × Nat)
  | 0, n => pure ([], n)
  | k + 1, n => do
    let (a, n) ← cfield d e n
    let (as, n) ← crepeatField d e k n
    pure (a :: as, n)

/-- `vecLoop` with its steps; the last request is the one answered with `None`. -/
def cvecLoop {α : Type} (d : CDe α) : Nat → CDe (List α)
  | 0 => do
    CDe.step
    pure []
  | n + 1 => do
    CDe.step
    let a ← d
    let as ← cvecLoop d n
    pure (a :: as)

/-- `deVec` with its steps. -/
def cdeVec {α : Type} (e : Endian) (d : CDe α) : CDe (List α) := do
  let n ← CDe.prim (deU64 e)
  cvecLoop d n.toNat

/-- `rawLoop` (`serialization/rawend.rs:41-48`) with its steps: a request each time, and a read unless the
budget is exhausted. -/
def crawLoop : (budget : Nat) → Bytes → (Bytes × Bytes) × Nat
  | 0, r => (([], r), 1)
  | n + 1, r =>
    match deU8 r with
    | .ok (b, r') => ((b :: (crawLoop n r').1.1, (crawLoop n r').1.2), 2 + (crawLoop n r').2)
    | .err _ => (([], r), 2)
    | .panic => (([], r), 2)

/-- A type of the crate whose reader is counted. -/
class CDeserialize (α : Type) where
  cde : Endian → CDe α

open CDeserialize (cde)

/-- `serialization/bits.rs:106-129`. -/
instance : CDeserialize Bits where
  cde _ := do
    let value ← CDe.prim deU8
    pure (Bits.fromU8 value)

/-- `networking/address.rs:55`. -/
def cdeIpv4 : CDe (UInt8 × UInt8 × UInt8 × UInt8) := do
  let (a, n) ← cfield (CDe.prim deU8) (.invalidLength 0) 4
  let (b, n) ← cfield (CDe.prim deU8) (.invalidLength 1) n
  let (c, n) ← cfield (CDe.prim deU8) (.invalidLength 2) n
  let (d, _) ← cfield (CDe.prim deU8) (.invalidLength 3) n
  pure (a, b, c, d)

/-- `networking/address.rs:36-68`. -/
instance : CDeserialize Address where
  cde e := do
    let ((a, b, c, d), n) ← cfield cdeIpv4 (.custom "Could not deserialize the address") 2
    let (port, _) ← cfield (CDe.prim (deU16 e)) (.custom "Could not deserialize the port") n
    pure ⟨.v4 a b c d port⟩

/-- `serialization/varlen.rs:26-65`. -/
instance : CDeserialize VarLen16 where
  cde e := do
    let (length, n) ← cfield (CDe.prim (deU16 e)) (.invalidLength 1) (2 ^ 16)
    let (res, _) ← crepeatField (CDe.prim deU8) (.invalidLength 1) length.toNat n
    pure ⟨res⟩

/-- `serialization/varlen.rs:89-127`. -/
instance : CDeserialize VarLen32 where
  cde e := do
    let (length, n) ← cfield (CDe.prim (deU32 e)) (.invalidLength 1) (2 ^ 32)
    let (res, _) ← crepeatField (CDe.prim deU8) (.invalidLength 1) length.toNat n
    pure ⟨res⟩

/-- `serialization/varlen.rs:22`. -/
instance : CDeserialize VarLen64 where
  cde e := do
    let res ← cdeVec e (CDe.prim deU8)
    pure ⟨res⟩

/-- `serialization/rawend.rs:24-54`. -/
instance : CDeserialize RawEnd where
  cde _ := fun r => (.ok (⟨(crawLoop usizeMax r).1.1⟩, (crawLoop usizeMax r).1.2), (crawLoop usizeMax r).2)

/-- `serialization/header.rs:125-208`. -/
instance : CDeserialize Header where
  cde _ := do
    let (v0, n) ← cfield (CDe.prim deU8) noValidHeader usizeMax
    let (v1, n) ← cfield (CDe.prim deU8) noValidHeader n
    if [v0, v1] = [0, 2] then
      let (midHash, n) ← crepeatField (CDe.prim deU8) noValidHeader 20 n
      let (messageType, _) ← cfield (CDe.prim deU8) noValidHeader n
      pure (Header.ofMid midHash messageType)
    else CDe.free (De.fail noValidHeader)

/-- `serialization/nestedpayload.rs:33-50`. -/
instance : CDeserialize NestedPacket where
  cde e := do
    let payloadTemporary ← (cde e : CDe VarLen16)
    pure ⟨⟨payloadTemporary.data⟩⟩

/-- `payloads/timedistributionpayload.rs:5`. -/
instance : CDeserialize TimeDistributionPayload where
  cde e := do
    let (t, _) ← cfield (CDe.prim (deU64 e)) (.invalidLength 0) 1
    pure ⟨t⟩

/-- `payloads/puncturepayload.rs:7`. -/
instance : CDeserialize PuncturePayload where
  cde e := do
    let (a, n) ← cfield (cde e : CDe Address) (.invalidLength 0) 3
    let (b, n) ← cfield (cde e : CDe Address) (.invalidLength 1) n
    let (i, _) ← cfield (CDe.prim (deU16 e)) (.invalidLength 2) n
    pure ⟨a, b, i⟩

/-- `payloads/puncturerequestpayload.rs:7`. -/
instance : CDeserialize PunctureRequestPayload where
  cde e := do
    let (a, n) ← cfield (cde e : CDe Address) (.invalidLength 0) 3
    let (b, n) ← cfield (cde e : CDe Address) (.invalidLength 1) n
    let (i, _) ← cfield (CDe.prim (deU16 e)) (.invalidLength 2) n
    pure ⟨a, b, i⟩

/-- `payloads/introductionrequestpayload.rs:82-111`. -/
instance : CDeserialize IntroductionRequestPayload where
  cde e := do
    let (t0, n) ← cfield (cde e : CDe Address) (.invalidLength 0) 6
    let (t1, n) ← cfield (cde e : CDe Address) (.invalidLength 1) n
    let (t2, n) ← cfield (cde e : CDe Address) (.invalidLength 2) n
    let (t3, n) ← cfield (cde e : CDe Bits) (.invalidLength 3) n
    let (t4, n) ← cfield (CDe.prim (deU16 e)) (.invalidLength 4) n
    let (t5, _) ← cfield (cde e : CDe RawEnd) (.invalidLength 5) n
    pure {
      destinationAddress := t0
      sourceLanAddress := t1
      sourceWanAddress := t2
      advice := t3.bit7
      connectionType := ConnectionType.decode (t3.bit0, t3.bit1)
      identifier := t4
      extraBytes := t5 }

/-- `payloads/introductionresponsepayload.rs:83-123`. -/
instance : CDeserialize IntroductionResponsePayload where
  cde e := do
    let (t0, n) ← cfield (cde e : CDe Address) (.invalidLength 0) 8
    let (t1, n) ← cfield (cde e : CDe Address) (.invalidLength 1) n
    let (t2, n) ← cfield (cde e : CDe Address) (.invalidLength 2) n
    let (t3, n) ← cfield (cde e : CDe Address) (.invalidLength 3) n
    let (t4, n) ← cfield (cde e : CDe Address) (.invalidLength 4) n
    let (t5, n) ← cfield (cde e : CDe Bits) (.invalidLength 5) n
    let (t6, n) ← cfield (CDe.prim (deU16 e)) (.invalidLength 6) n
    let (t7, _) ← cfield (cde e : CDe RawEnd) (.invalidLength 7) n
    pure {
      destinationAddress := t0
      sourceLanAddress := t1
      sourceWanAddress := t2
      lanIntroductionAddress := t3
      wanIntroductionAddress := t4
      tunnel := false
      connectionType := ConnectionType.decode (t5.bit0, t5.bit1)
      identifier := t6
      extraBytes := t7 }

/-- `payloads/binmemberauthenticationpayload.rs:54-96`. -/
instance : CDeserialize BinMemberAuthenticationPayload where
  cde e := do
    let payloadTemporary ← (cde e : CDe VarLen16)
    CDe.free (De.lift (authOfContents payloadTemporary.data))

/-- Derived `Deserialize` (`Sch.de`) with its steps; for an array as for a vector, but without a length; a
request for every field of a struct; a character is at most two reads; a string is counted byte by byte, although
bincode takes the bytes at once. -/
def Sch.cde (e : Endian) : (s : Sch) → CDe s.Ty
  | .u8 => CDe.prim deU8
  | .u16 => CDe.prim (deU16 e)
  | .u32 => CDe.prim (deU32 e)
  | .u64 => CDe.prim (deU64 e)
  | .u128 => CDe.prim (deU128 e)
  | .i8 => do
    let x ← CDe.prim deU8
    pure x.toInt8
  | .i16 => do
    let x ← CDe.prim (deU16 e)
    pure x.toInt16
  | .i32 => do
    let x ← CDe.prim (deU32 e)
    pure x.toInt32
  | .i64 => do
    let x ← CDe.prim (deU64 e)
    pure x.toInt64
  | .bool => CDe.prim deBool
  | .char => do
    CDe.step
    CDe.prim deChar
  | .string => do
    let bs ← cdeVec e (CDe.prim deU8)
    if h : (ByteArray.mk bs.toArray).IsValidUTF8 then pure (String.ofByteArray ⟨bs.toArray⟩ h)
    else CDe.free (De.fail .invalidUtf8)
  | .bits => CDeserialize.cde e
  | .address => CDeserialize.cde e
  | .varlen16 => CDeserialize.cde e
  | .varlen32 => CDeserialize.cde e
  | .varlen64 => CDeserialize.cde e
  | .nested => CDeserialize.cde e
  | .rawEnd => CDeserialize.cde e
  | .option s => do
    let b ← CDe.prim deU8
    if b = 0 then pure none
    else if b = 1 then do
      let a ← s.cde e
      pure (some a)
    else CDe.free (De.fail .invalidTag)
  | .vec s => cdeVec e (s.cde e)
  | .array n s => do
    let xs ← cvecLoop (s.cde e) n
    if h : xs.length = n then pure ⟨xs, h⟩ else CDe.free (De.fail (.custom "invalid length"))
  | .unit => pure ()
  | .cons a b => do
    CDe.step
    let x ← a.cde e
    let y ← b.cde e
    pure (x, y)
  | .enum n f => do
    let i ← CDe.prim (deU32 e)
    if h : i.toNat < n then do
      let x ← (f ⟨i.toNat, h⟩).cde e
      pure ⟨⟨i.toNat, h⟩, x⟩
    else CDe.free (De.fail (.custom "invalid value: expected variant index"))

/-- A user-defined payload (`#[derive(Deserialize)]`). -/
instance (s : Sch) : CDeserialize (Derived s) where
  cde e := do
    let v ← s.cde e
    pure ⟨v⟩

/-- Steps of bincode's size pass (`serialized_size`): one for each primitive it is shown.  (A value whose
`Serialize` fails is counted with nothing; what was read never fails.) -/
def sizeSteps {α : Type} [Serialize α] (v : α) : Nat :=
  match Serialize.ser v with
  | .ok ts => ts.length
  | .err _ => 0
  | .panic => 0

/-- `serialization/mod.rs:45-69` (`nextPayload`) with its steps: those of the reader, then those of the size
pass. -/
def PacketDeserializer.cnextPayload (α : Type) [Ipv8Payload α] [Serialize α] [CDeserialize α]
    (d : PacketDeserializer) : (Outcome α × PacketDeserializer) × Nat :=
  match sliceFrom d.pntr.bytes d.index with
  | .ok s =>
    match (CDeserialize.cde .big : CDe α) s with
    | (.ok (res, _), n) =>
      match Bincode.serializedSize res with
      | .ok k => ((.ok res, { d with index := d.index + k }), n + sizeSteps res)
      | .err e => ((.err e, d), n + sizeSteps res)
      | .panic => ((.panic, d), n + sizeSteps res)
    | (.err e, n) => ((.err e, d), n)
    | (.panic, n) => ((.panic, d), n)
  | .err e => ((.err e, d), 0)
  | .panic => ((.panic, d), 0)

end Ipv8
