import Verif.Model.Packet
/-!
# Payload structs defined by users of the crate

Applications define their own payloads with `#[derive(Serialize, Deserialize)]` and
`impl Ipv8Payload` (documented in `serialization/mod.rs:24-33` and used in
`serialization/mod.rs:193-260`).  `Sch` is the type of all such definitions over the building blocks
the crate supports; the functions below are what serde's derive macro together with bincode 1.1 does
with them (assumed behaviour of dependencies, like `Model/Serde.lean`).
-/

namespace Ipv8

/-- The shape of a derived type.  A struct with fields `f1 … fn` is `cons f1 (… (cons fn unit))`. -/
inductive Sch
  | u8
  | u16
  | u32
  | u64
  | u128
  | i8
  | i16
  | i32
  | i64
  | bool
  | char
  | string
  | bits
  | address
  | varlen16
  | varlen32
  | varlen64
  | nested
  | rawEnd
  | option (s : Sch)
  | vec (s : Sch)
  | array (n : Nat) (s : Sch)
  | unit
  | cons (head tail : Sch)
  | enum (n : Nat) (variants : Fin n → Sch)

/-- The values of a derived type. -/
@[reducible] def Sch.Ty : Sch → Type
  | .u8 => UInt8
  | .u16 => UInt16
  | .u32 => UInt32
  | .u64 => UInt64
  | .u128 => BitVec 128
  | .i8 => Int8
  | .i16 => Int16
  | .i32 => Int32
  | .i64 => Int64
  | .bool => Bool
  | .char => Char
  | .string => String
  | .bits => Bits
  | .address => Address
  | .varlen16 => VarLen16
  | .varlen32 => VarLen32
  | .varlen64 => VarLen64
  | .nested => NestedPacket
  | .rawEnd => RawEnd
  | .option s => Option s.Ty
  | .vec s => List s.Ty
  | .array n s => { l : List s.Ty // l.length = n }
  | .unit => Unit
  | .cons a b => a.Ty × b.Ty
  | .enum n f => (i : Fin n) × (f i).Ty

/-- `serialize_seq`: the elements one after the other, stopping at the first error. -/
def serSeq {α : Type} (f : α → Outcome (List Tok)) : List α → Outcome (List Tok)
  | [] => .ok []
  | x :: xs => do
    let a ← f x
    let b ← serSeq f xs
    pure (a ++ b)

/-- Derived `Serialize` on bincode: fields in order without framing; `bool` as a byte; `Option` as a
tag byte and the value; `Vec` as a `u64` length and the elements; `[T; n]` as the elements alone; a signed integer
as the unsigned one with the same bits; a `char` as its UTF-8 bytes alone; a `String` as a `u64` length and its UTF-8 bytes; an enum as its `u32` variant index and
the variant's fields. -/
def Sch.ser : (s : Sch) → s.Ty → Outcome (List Tok)
  | .u8, x => .ok [.u8 x]
  | .u16, x => .ok [.u16 x]
  | .u32, x => .ok [.u32 x]
  | .u64, x => .ok [.u64 x]
  | .u128, x => .ok [.u128 x]
  | .i8, x => .ok [.u8 x.toUInt8]
  | .i16, x => .ok [.u16 x.toUInt16]
  | .i32, x => .ok [.u32 x.toUInt32]
  | .i64, x => .ok [.u64 x.toUInt64]
  | .bool, x => .ok [.u8 (if x then 1 else 0)]
  | .char, x => .ok ((String.utf8EncodeChar x).map Tok.u8)
  | .string, x =>
    .ok (.u64 (UInt64.ofNat x.toByteArray.data.size) :: x.toByteArray.data.toList.map Tok.u8)
  | .bits, x => Serialize.ser x
  | .address, x => Serialize.ser x
  | .varlen16, x => Serialize.ser x
  | .varlen32, x => Serialize.ser x
  | .varlen64, x => Serialize.ser x
  | .nested, x => Serialize.ser x
  | .rawEnd, x => Serialize.ser x
  | .option _, none => .ok [.u8 0]
  | .option s, some x => do
    let a ← s.ser x
    pure (.u8 1 :: a)
  | .vec s, xs => do
    let a ← serSeq s.ser xs
    pure (.u64 (UInt64.ofNat xs.length) :: a)
  | .array _ s, xs => serSeq s.ser xs.val
  | .unit, _ => .ok []
  | .cons a b, x => do
    let p ← a.ser x.1
    let q ← b.ser x.2
    pure (p ++ q)
  | .enum _ f, x => do
    let a ← (f x.1).ser x.2
    pure (.u32 (UInt32.ofNat x.1.val) :: a)

/-- bincode 1.1 `deserialize_bool`. -/
def deBool : De Bool := do
  let b ← deU8
  if b = 0 then pure false else if b = 1 then pure true else De.fail .invalidBool

/-- bincode 1.1 `deserialize_option`. -/
def deOption {α : Type} (d : De α) : De (Option α) := do
  let b ← deU8
  if b = 0 then pure none
  else if b = 1 then do
    let a ← d
    pure (some a)
  else De.fail .invalidTag

/-- bincode 1.1 `deserialize_string`: a `u64` length, that many bytes, and a check that they are UTF-8
(`ErrorKind::InvalidUtf8Encoding`). -/
def deString (e : Endian) : De String := do
  let bs ← deVec e deU8
  if h : (ByteArray.mk bs.toArray).IsValidUTF8 then pure (String.ofByteArray ⟨bs.toArray⟩ h)
  else De.fail .invalidUtf8

/-- bincode's table `UTF8_CHAR_WIDTH`: the length of a UTF-8 character by its first byte, 0 for bytes no
character starts with. -/
def utf8CharWidth (b : UInt8) : Nat :=
  if b < 0x80 then 1
  else if b < 0xC2 then 0
  else if b < 0xE0 then 2
  else if b < 0xF0 then 3
  else if b < 0xF5 then 4
  else 0

/-- `read_exact` of `k` bytes from the slice. -/
def deBytes (k : Nat) : De Bytes := fun r =>
  if r.length < k then .err .eof else .ok (r.take k, r.drop k)

/-- bincode 1.1 `deserialize_char` after the first byte `b`: read the other `k` bytes and take the first
character of the text (`str::from_utf8(&buf[..width]).ok().and_then(|s| s.chars().next())`); everything
that can go wrong, missing bytes included, is `ErrorKind::InvalidCharEncoding`. -/
def deCharRest (b : UInt8) (k : Nat) : De Char := fun r =>
  match deBytes k r with
  | .ok (bs, r') =>
    if h : (ByteArray.mk (b :: bs).toArray).IsValidUTF8 then
      match (String.ofByteArray ⟨(b :: bs).toArray⟩ h).toList.head? with
      | some c => .ok (c, r')
      | none => .err .invalidChar
    else .err .invalidChar
  | .err _ => .err .invalidChar
  | .panic => .panic

/-- bincode 1.1 `deserialize_char`: the first byte tells the width; a missing first byte is an I/O
error. -/
def deChar : De Char := do
  let b ← deU8
  if utf8CharWidth b = 1 then pure (Char.ofNat b.toNat)
  else if utf8CharWidth b = 0 then De.fail .invalidChar
  else deCharRest b (utf8CharWidth b - 1)

/-- serde's `Deserialize` for `[T; n]`: a tuple of `n` elements, without a length on the wire. -/
def deArray {α : Type} (d : De α) (n : Nat) : De { l : List α // l.length = n } := do
  let xs ← vecLoop d n
  if h : xs.length = n then pure ⟨xs, h⟩ else De.fail (.custom "invalid length")

/-- Derived `Deserialize` on bincode.  Struct fields: `deserialize_struct` gives exactly as many
elements as there are fields, so `next_element` never runs out. -/
def Sch.de (e : Endian) : (s : Sch) → De s.Ty
  | .u8 => deU8
  | .u16 => deU16 e
  | .u32 => deU32 e
  | .u64 => deU64 e
  | .u128 => deU128 e
  | .i8 => do
    let x ← deU8
    pure x.toInt8
  | .i16 => do
    let x ← deU16 e
    pure x.toInt16
  | .i32 => do
    let x ← deU32 e
    pure x.toInt32
  | .i64 => do
    let x ← deU64 e
    pure x.toInt64
  | .bool => deBool
  | .char => deChar
  | .string => deString e
  | .bits => (Deserialize.de e : De Bits)
  | .address => (Deserialize.de e : De Address)
  | .varlen16 => (Deserialize.de e : De VarLen16)
  | .varlen32 => (Deserialize.de e : De VarLen32)
  | .varlen64 => (Deserialize.de e : De VarLen64)
  | .nested => (Deserialize.de e : De NestedPacket)
  | .rawEnd => (Deserialize.de e : De RawEnd)
  | .option s => deOption (s.de e)
  | .vec s => deVec e (s.de e)
  | .array n s => deArray (s.de e) n
  | .unit => pure ()
  | .cons a b => do
    let x ← a.de e
    let y ← b.de e
    pure (x, y)
  | .enum n f => do
    let i ← deU32 e
    if h : i.toNat < n then do
      let x ← (f ⟨i.toNat, h⟩).de e
      pure ⟨⟨i.toNat, h⟩, x⟩
    else De.fail (.custom "invalid value: expected variant index")

/-- A user-defined payload type. -/
structure Derived (s : Sch) where
  val : s.Ty

instance (s : Sch) : Ipv8Payload (Derived s) := ⟨⟩
instance (s : Sch) : Serialize (Derived s) := ⟨fun v => s.ser v.val⟩
instance (s : Sch) : Deserialize (Derived s) where
  de e := do
    let v ← s.de e
    pure ⟨v⟩

/-! ## Maps -/

/-- `HashMap::insert` on the pairs of a map: the value of a known key is replaced, a new key is added.
The order of the pairs stands for the iteration order, which is unspecified for a `HashMap`; every
statement about it is about sizes or about looking keys up, which do not depend on the order. -/
def mapInsert {κ ν : Type} [DecidableEq κ] (m : List (κ × ν)) (p : κ × ν) : List (κ × ν) :=
  match m with
  | [] => [p]
  | q :: m => if q.1 = p.1 then (q.1, p.2) :: m else q :: mapInsert m p

/-- A user payload with a single field `HashMap<K, V>`. -/
structure MapPayload (k v : Sch) where
  entries : List (k.Ty × v.Ty)

instance (k v : Sch) : Ipv8Payload (MapPayload k v) := ⟨⟩

/-- serde's `Serialize` for maps on bincode: a `u64` count, then key, value, key, value, ... -/
instance (k v : Sch) : Serialize (MapPayload k v) := ⟨fun m => (Sch.vec (.cons k v)).ser m.entries⟩

/-- serde's `Deserialize` for maps (`MapVisitor`): insert every pair read, in order; later pairs
overwrite earlier ones with the same key, without an error. -/
instance (k v : Sch) [DecidableEq k.Ty] : Deserialize (MapPayload k v) where
  de e := do
    let es ← (Sch.vec (.cons k v)).de e
    pure ⟨es.foldl mapInsert []⟩

end Ipv8
