import Verif.Model.Cost
/-!
# What reading allocates

The readers of `Model/Basic.lean`, `Model/Packet.lean` and `Model/Derive.lean` once more, with a count of the bytes
of heap memory they request, also when they fail.  Every request counts with its full size and nothing is ever
subtracted when memory is given back, so the count is an upper bound on what is held at any moment.  Not counted:
the one error value a failing read returns (a box and, for some errors, a message).
-/

namespace Ipv8

/-- What the readers' memory depends on besides the code: the sizes of types, the smallest capacity `Vec::push`
gives a vector (by the size of the elements: 8, 4 or 1, or none at all, depending on the version of the standard
library), and how many elements serde reserves at most before it has seen any (by their size: 4096, in later
versions 1048576 bytes' worth). -/
structure Rt where
  size : Sch → Nat
  low : Nat → Nat
  spare : Nat → Nat

/-- Request `n` bytes of memory. -/
def CDe.take (n : Nat) : CDe Unit := fun r => (.ok ((), r), n)

/-- The capacity of a vector after a `push` (`RawVec::grow_amortized`): unchanged if there is room, else twice as
much, but at least what is needed and at least the smallest capacity. -/
def pushCap (low cap len : Nat) : Nat := if len < cap then cap else max (max (2 * cap) (len + 1)) low

/-- The memory a `push` requests: nothing if there is room, else the whole new buffer. -/
def pushMem (low size cap len : Nat) : Nat := if len < cap then 0 else size * pushCap low cap len

/-- `for _ in 0..k { res.push(next()?) }` on a vector with this capacity and length; `σ` is what the elements are
asked of (a number of elements left, or nothing). -/
def mloop {α σ : Type} (low size : Nat) (d : σ → CDe (α × σ)) : (k : Nat) → σ → (cap len : Nat) → CDe (List α × σ)
  | 0, s, _, _ => pure ([], s)
  | k + 1, s, cap, len => do
    let (a, s) ← d s
    CDe.take (pushMem low size cap len)
    let (as, s) ← mloop low size d k s (pushCap low cap len) (len + 1)
    pure (a :: as, s)

/-- `field` (`seq.next_element()?.ok_or_else(…)?`) of something that may request memory. -/
def mfield {α : Type} (d : CDe α) (e : Error) : (budget : Nat) → CDe (α × Nat)
  | 0 => CDe.free (De.fail e)
  | n + 1 => do
    let a ← d
    pure (a, n)

/-- `repeatField` of bytes into a `vec![]` (`serialization/varlen.rs:43-59`). -/
def mbytes (rt : Rt) (e : Error) (k budget : Nat) : CDe (Bytes × Nat) :=
  mloop (rt.low 1) 1 (fun n => CDe.free (field deU8 e n)) k budget 0 0

/-- `deVec` with its memory: serde's `Vec<T>` visitor reserves `min(n, spare)` elements
(`size_hint::cautious`), then pushes. -/
def mdeVec {α : Type} (rt : Rt) (size : Nat) (e : Endian) (d : CDe α) : CDe (List α) := do
  let n ← CDe.free (deU64 e)
  CDe.take (size * min n.toNat (rt.spare size))
  let res ← mloop (rt.low size) size (fun (_ : Unit) => do
    let a ← d
    pure (a, ())) n.toNat () (min n.toNat (rt.spare size)) 0
  pure res.1

/-- bincode's `get_byte_buffer`: if the announced bytes are there, a vector of exactly that length. -/
def mbuffer (e : Endian) : CDe Bytes := fun r =>
  match deVec e deU8 r with
  | .ok (bs, r') => (.ok (bs, r'), bs.length)
  | .err x => (.err x, 0)
  | .panic => (.panic, 0)

/-- Elements of an array: in place, no memory of their own. -/
def marrLoop {α : Type} (d : CDe α) : Nat → CDe (List α)
  | 0 => pure []
  | n + 1 => do
    let a ← d
    let as ← marrLoop d n
    pure (a :: as)

/-- `rawLoop` (`serialization/rawend.rs:41-48`) with its memory: bytes pushed on a `vec![]`. -/
def mrawLoop (rt : Rt) : (budget cap len : Nat) → Bytes → (Bytes × Bytes) × Nat
  | 0, _, _, r => (([], r), 0)
  | n + 1, cap, len, r =>
    match deU8 r with
    | .ok (b, r') =>
      let x := mrawLoop rt n (pushCap (rt.low 1) cap len) (len + 1) r'
      ((b :: x.1.1, x.1.2), pushMem (rt.low 1) 1 cap len + x.2)
    | .err _ => (([], r), 0)
    | .panic => (([], r), 0)

/-- A type of the crate whose reader's memory is counted. -/
class MDeserialize (α : Type) where
  mde : Rt → Endian → CDe α

open MDeserialize (mde)

/-- `serialization/bits.rs:106-129`: a byte, on the stack. -/
instance : MDeserialize Bits where
  mde _ e := CDe.free (Deserialize.de e)

/-- `networking/address.rs:36-68`: on the stack. -/
instance : MDeserialize Address where
  mde _ e := CDe.free (Deserialize.de e)

/-- `serialization/varlen.rs:26-65`. -/
instance : MDeserialize VarLen16 where
  mde rt e := do
    let (length, n) ← CDe.free (field (deU16 e) (.invalidLength 1) (2 ^ 16))
    let (res, _) ← mbytes rt (.invalidLength 1) length.toNat n
    pure ⟨res⟩

/-- `serialization/varlen.rs:89-127`. -/
instance : MDeserialize VarLen32 where
  mde rt e := do
    let (length, n) ← CDe.free (field (deU32 e) (.invalidLength 1) (2 ^ 32))
    let (res, _) ← mbytes rt (.invalidLength 1) length.toNat n
    pure ⟨res⟩

/-- `serialization/varlen.rs:22`. -/
instance : MDeserialize VarLen64 where
  mde rt e := do
    let res ← mdeVec rt 1 e (CDe.free deU8)
    pure ⟨res⟩

/-- `serialization/rawend.rs:24-54`. -/
instance : MDeserialize RawEnd where
  mde rt _ := fun r =>
    (.ok (⟨(mrawLoop rt usizeMax 0 0 r).1.1⟩, (mrawLoop rt usizeMax 0 0 r).1.2), (mrawLoop rt usizeMax 0 0 r).2)

/-- `serialization/header.rs:125-208`: two bytes pushed on `version_bytes`, and `mid_hash.to_vec()`
(`header.rs:38`). -/
instance : MDeserialize Header where
  mde rt _ := do
    let (v0, n) ← CDe.free (field deU8 noValidHeader usizeMax)
    CDe.take (pushMem (rt.low 1) 1 0 0)
    let (v1, n) ← CDe.free (field deU8 noValidHeader n)
    CDe.take (pushMem (rt.low 1) 1 (pushCap (rt.low 1) 0 0) 1)
    if [v0, v1] = [0, 2] then
      let (midHash, n) ← CDe.free (repeatField deU8 noValidHeader 20 n)
      let (messageType, _) ← CDe.free (field deU8 noValidHeader n)
      CDe.take 20
      pure (Header.ofMid midHash messageType)
    else CDe.free (De.fail noValidHeader)

/-- `serialization/nestedpayload.rs:33-50`: the vector of the `VarLen16` becomes the packet. -/
instance : MDeserialize NestedPacket where
  mde rt e := do
    let payloadTemporary ← (mde rt e : CDe VarLen16)
    pure ⟨⟨payloadTemporary.data⟩⟩

/-- `payloads/timedistributionpayload.rs:5`: on the stack. -/
instance : MDeserialize TimeDistributionPayload where
  mde _ e := CDe.free (Deserialize.de e)

/-- `payloads/puncturepayload.rs:7`: on the stack. -/
instance : MDeserialize PuncturePayload where
  mde _ e := CDe.free (Deserialize.de e)

/-- `payloads/puncturerequestpayload.rs:7`: on the stack. -/
instance : MDeserialize PunctureRequestPayload where
  mde _ e := CDe.free (Deserialize.de e)

/-- `payloads/introductionrequestpayload.rs:82-111`: only the extra bytes are on the heap; the pattern is moved
into the payload. -/
instance : MDeserialize IntroductionRequestPayload where
  mde rt e := do
    let (t0, n) ← CDe.free (field (Deserialize.de e : De Address) (.invalidLength 0) 6)
    let (t1, n) ← CDe.free (field (Deserialize.de e : De Address) (.invalidLength 1) n)
    let (t2, n) ← CDe.free (field (Deserialize.de e : De Address) (.invalidLength 2) n)
    let (t3, n) ← CDe.free (field (Deserialize.de e : De Bits) (.invalidLength 3) n)
    let (t4, n) ← CDe.free (field (deU16 e) (.invalidLength 4) n)
    let (t5, _) ← mfield (mde rt e : CDe RawEnd) (.invalidLength 5) n
    pure {
      destinationAddress := t0
      sourceLanAddress := t1
      sourceWanAddress := t2
      advice := t3.bit7
      connectionType := ConnectionType.decode (t3.bit0, t3.bit1)
      identifier := t4
      extraBytes := t5 }

/-- `payloads/introductionresponsepayload.rs:83-123`. -/
instance : MDeserialize IntroductionResponsePayload where
  mde rt e := do
    let (t0, n) ← CDe.free (field (Deserialize.de e : De Address) (.invalidLength 0) 8)
    let (t1, n) ← CDe.free (field (Deserialize.de e : De Address) (.invalidLength 1) n)
    let (t2, n) ← CDe.free (field (Deserialize.de e : De Address) (.invalidLength 2) n)
    let (t3, n) ← CDe.free (field (Deserialize.de e : De Address) (.invalidLength 3) n)
    let (t4, n) ← CDe.free (field (Deserialize.de e : De Address) (.invalidLength 4) n)
    let (t5, n) ← CDe.free (field (Deserialize.de e : De Bits) (.invalidLength 5) n)
    let (t6, n) ← CDe.free (field (deU16 e) (.invalidLength 6) n)
    let (t7, _) ← mfield (mde rt e : CDe RawEnd) (.invalidLength 7) n
    pure {
      destinationAddress := t0
      sourceLanAddress := t1
      sourceWanAddress := t2
      lanIntroductionAddress := t3
      wanIntroductionAddress := t4
      tunnel := false
      connectionType := ConnectionType.decode (t5.bit0, t5.bit1)
      identifier := t6
      extraBytes := t7 }

/-- `payloads/binmemberauthenticationpayload.rs:54-96`: the keys are copied out of the vector into arrays. -/
instance : MDeserialize BinMemberAuthenticationPayload where
  mde rt e := do
    let payloadTemporary ← (mde rt e : CDe VarLen16)
    CDe.free (De.lift (authOfContents payloadTemporary.data))

/-- Derived `Deserialize` (`Sch.de`) with its memory; arrays, options, structs and enums are in place; for a string
bincode makes a vector of exactly its length, once it knows that the bytes are there, and only then looks whether they
are UTF-8. -/
def Sch.mde (rt : Rt) (e : Endian) : (s : Sch) → CDe s.Ty
  | .u8 => CDe.free (Sch.u8.de e)
  | .u16 => CDe.free (Sch.u16.de e)
  | .u32 => CDe.free (Sch.u32.de e)
  | .u64 => CDe.free (Sch.u64.de e)
  | .u128 => CDe.free (Sch.u128.de e)
  | .i8 => CDe.free (Sch.i8.de e)
  | .i16 => CDe.free (Sch.i16.de e)
  | .i32 => CDe.free (Sch.i32.de e)
  | .i64 => CDe.free (Sch.i64.de e)
  | .bool => CDe.free (Sch.bool.de e)
  | .char => CDe.free (Sch.char.de e)
  | .string => do
    let bs ← mbuffer e
    if h : (ByteArray.mk bs.toArray).IsValidUTF8 then pure (String.ofByteArray ⟨bs.toArray⟩ h)
    else CDe.free (De.fail .invalidUtf8)
  | .bits => MDeserialize.mde rt e
  | .address => MDeserialize.mde rt e
  | .varlen16 => MDeserialize.mde rt e
  | .varlen32 => MDeserialize.mde rt e
  | .varlen64 => MDeserialize.mde rt e
  | .nested => MDeserialize.mde rt e
  | .rawEnd => MDeserialize.mde rt e
  | .option s => do
    let b ← CDe.free deU8
    if b = 0 then pure none
    else if b = 1 then do
      let a ← s.mde rt e
      pure (some a)
    else CDe.free (De.fail .invalidTag)
  | .vec s => mdeVec rt (rt.size s) e (s.mde rt e)
  | .array n s => do
    let xs ← marrLoop (s.mde rt e) n
    if h : xs.length = n then pure ⟨xs, h⟩ else CDe.free (De.fail (.custom "invalid length"))
  | .unit => pure ()
  | .cons a b => do
    let x ← a.mde rt e
    let y ← b.mde rt e
    pure (x, y)
  | .enum n f => do
    let i ← CDe.free (deU32 e)
    if h : i.toNat < n then do
      let x ← (f ⟨i.toNat, h⟩).mde rt e
      pure ⟨⟨i.toNat, h⟩, x⟩
    else CDe.free (De.fail (.custom "invalid value: expected variant index"))

/-- A user-defined payload (`#[derive(Deserialize)]`). -/
instance (s : Sch) : MDeserialize (Derived s) where
  mde rt e := do
    let v ← s.mde rt e
    pure ⟨v⟩

/-- A type whose `Serialize` may copy parts of the value to the heap. -/
class Copies (α : Type) where
  copied : α → Nat

/-- `serialization/nestedpayload.rs:25`: `to_owned` of the inner packet. -/
def NestedPacket.copied (x : NestedPacket) : Nat := x.packet.bytes.length

/-- What `Serialize` of a derived type copies: the nested packets in it. -/
def Sch.copied : (s : Sch) → s.Ty → Nat
  | .nested, x => x.copied
  | .option _, none => 0
  | .option s, some x => s.copied x
  | .vec s, xs => (List.map s.copied xs).sum
  | .array _ s, xs => (List.map s.copied xs.val).sum
  | .cons a b, x => a.copied x.1 + b.copied x.2
  | .enum _ f, x => (f x.1).copied x.2
  | _, _ => 0

/-- `serialization/mod.rs:45-69` (`nextPayload`) with its memory: that of the reader, then that of the size pass,
which runs `Serialize` on the value (and itself writes nothing). -/
def PacketDeserializer.mnextPayload (rt : Rt) (α : Type) [Ipv8Payload α] [Serialize α] [MDeserialize α] [Copies α]
    (d : PacketDeserializer) : (Outcome α × PacketDeserializer) × Nat :=
  match sliceFrom d.pntr.bytes d.index with
  | .ok s =>
    match (MDeserialize.mde rt .big : CDe α) s with
    | (.ok (res, _), n) =>
      match Bincode.serializedSize res with
      | .ok k => ((.ok res, { d with index := d.index + k }), n + Copies.copied res)
      | .err e => ((.err e, d), n + Copies.copied res)
      | .panic => ((.panic, d), n + Copies.copied res)
    | (.err e, n) => ((.err e, d), n)
    | (.panic, n) => ((.panic, d), n)
  | .err e => ((.err e, d), 0)
  | .panic => ((.panic, d), 0)

end Ipv8
