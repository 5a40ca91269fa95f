import Verif.Model.Outcome
/-!
# serde + bincode 1.1, as far as the crate uses them

The crate never writes bytes itself: every `Serialize` impl hands primitive values to a serde
`Serializer`, every `Deserialize` impl pulls primitive values out of a serde `Deserializer`; the
format is `bincode::config().big_endian()` (`serialization/mod.rs:49-51,67,73-75,132,177`), with
bincode's default little-endian format used by the unit tests of `bits.rs` and `address.rs`.
bincode itself is a dependency; this file states the behaviour assumed of it (see DESIGN.md).
-/

namespace Ipv8

/-- bincode's byte order setting. -/
inductive Endian
  | big
  | little
  deriving DecidableEq, Repr

/-- `k` bytes of `x`, least significant first (bincode little-endian integers). -/
def leBytes : Nat → Nat → Bytes
  | 0, _ => []
  | k + 1, x => UInt8.ofNat x :: leBytes k (x / 256)

/-- Value of a least-significant-first byte string. -/
def ofLE : Bytes → Nat
  | [] => 0
  | b :: r => b.toNat + 256 * ofLE r

/-- A `k`-byte unsigned integer as bincode writes it. -/
def intBytes (e : Endian) (k x : Nat) : Bytes :=
  match e with
  | .little => leBytes k x
  | .big => (leBytes k x).reverse

/-- The integer bincode reads from a byte string. -/
def ofInt (e : Endian) (l : Bytes) : Nat :=
  match e with
  | .little => ofLE l
  | .big => ofLE l.reverse

/-- The primitive values a `Serialize` impl hands to the serializer.  Tuples and structs have no
bytes of their own in bincode, so `serialize_tuple`/`serialize_struct`/`end` leave no token; a
sequence (`Vec`) leaves its length as a `u64`. -/
inductive Tok
  | u8 (x : UInt8)
  | u16 (x : UInt16)
  | u32 (x : UInt32)
  | u64 (x : UInt64)
  | u128 (x : BitVec 128)
  deriving DecidableEq, Repr

/-- What `bincode`'s writing serializer emits for one primitive. -/
def Tok.bytes (e : Endian) : Tok → Bytes
  | .u8 x => [x]
  | .u16 x => intBytes e 2 x.toNat
  | .u32 x => intBytes e 4 x.toNat
  | .u64 x => intBytes e 8 x.toNat
  | .u128 x => intBytes e 16 x.toNat

/-- What `bincode`'s `SizeChecker` counts for one primitive. -/
def Tok.size : Tok → Nat
  | .u8 _ => 1
  | .u16 _ => 2
  | .u32 _ => 4
  | .u64 _ => 8
  | .u128 _ => 16

/-- `serde::Serialize`: the primitives handed to the serializer, or the custom error raised. -/
class Serialize (α : Type) where
  ser : α → Outcome (List Tok)

/-- A bincode reader: the unread part of the slice goes in, a value and the new unread part come
out.  On `Err` the position of the reader is not observable by the crate (the only code that goes on
after an error, `rawend.rs:43`, does so at the end of the slice). -/
def De (α : Type) := Bytes → Outcome (α × Bytes)

namespace De

/-- Succeed without reading. -/
def pure {α : Type} (a : α) : De α := fun r => .ok (a, r)

/-- Sequential composition with `?`. -/
def bind {α β : Type} (m : De α) (f : α → De β) : De β := fun r =>
  match m r with
  | .ok (a, r') => f a r'
  | .err e => .err e
  | .panic => .panic

instance : Monad De where
  pure := De.pure
  bind := De.bind

/-- Return an error. -/
def fail {α : Type} (e : Error) : De α := fun _ => .err e

/-- Run a computation that does not read. -/
def lift {α : Type} (o : Outcome α) : De α := fun r =>
  match o with
  | .ok a => .ok (a, r)
  | .err e => .err e
  | .panic => .panic

end De

/-- `serde::Deserialize` over bincode with the given byte order. -/
class Deserialize (α : Type) where
  de : Endian → De α

/-- Marker trait, `payloads/mod.rs:14`: no members. -/
class Ipv8Payload (α : Type)

/-- bincode `deserialize_u8`. -/
def deU8 : De UInt8
  | [] => .err .eof
  | b :: r => .ok (b, r)

/-- bincode reading of a `k`-byte integer: `read_exact` of `k` bytes from the slice. -/
def deInt (e : Endian) (k : Nat) : De Nat := fun r =>
  if r.length < k then .err .eof else .ok (ofInt e (r.take k), r.drop k)

/-- bincode `deserialize_u16`. -/
def deU16 (e : Endian) : De UInt16 := do
  let x ← deInt e 2
  pure (UInt16.ofNat x)

/-- bincode `deserialize_u32`. -/
def deU32 (e : Endian) : De UInt32 := do
  let x ← deInt e 4
  pure (UInt32.ofNat x)

/-- bincode `deserialize_u64`. -/
def deU64 (e : Endian) : De UInt64 := do
  let x ← deInt e 8
  pure (UInt64.ofNat x)

/-- bincode `deserialize_u128`. -/
def deU128 (e : Endian) : De (BitVec 128) := do
  let x ← deInt e 16
  pure (BitVec.ofNat 128 x)

/-- `SeqAccess::next_element` of bincode's tuple access: an element while the element budget given to
`deserialize_tuple`/`deserialize_struct` lasts, `None` afterwards.  Returns the remaining budget. -/
def nextElement {α : Type} (d : De α) : Nat → De (Option α × Nat)
  | 0 => pure (none, 0)
  | n + 1 => do
    let a ← d
    pure (some a, n)

/-- `seq.next_element()?.ok_or_else(|| e)?`. -/
def field {α : Type} (d : De α) (e : Error) (budget : Nat) : De (α × Nat) := do
  let (o, n) ← nextElement d budget
  match o with
  | some a => pure (a, n)
  | none => De.fail e

/-- `for _ in 0..k { res.push(seq.next_element()?.ok_or_else(|| e)?) }`. -/
def repeatField {α : Type} (d : De α) (e : Error) : (k budget : Nat) → De (List α × Nat)
  | 0, n => pure ([], n)
  | k + 1, n => do
    let (a, n) ← field d e n
    let (as, n) ← repeatField d e k n
    pure (a :: as, n)

/-- serde's `Vec<T>` visitor on a bincode sequence of `n` elements:
`while let Some(v) = seq.next_element()? { values.push(v) }`.  (`nextElement` unfolded so that the
recursion is structural in the budget; the capacity hint is not observable.) -/
def vecLoop {α : Type} (d : De α) : Nat → De (List α)
  | 0 => pure []
  | n + 1 => do
    let a ← d
    let as ← vecLoop d n
    pure (a :: as)

/-- serde's `Vec<T>::deserialize` on bincode: a `u64` length, then the elements. -/
def deVec {α : Type} (e : Endian) (d : De α) : De (List α) := do
  let n ← deU64 e
  vecLoop d n.toNat

/-- serde's `Vec<u8>::serialize` on bincode: `serialize_seq(Some(len))` writes a `u64` length. -/
def serVec (l : Bytes) : Outcome (List Tok) :=
  .ok (.u64 (UInt64.ofNat l.length) :: l.map .u8)

namespace Bincode

/-- `bincode::config().serialize(v)`: all tokens in order, into a fresh vector. -/
def serialize {α : Type} [Serialize α] (e : Endian) (v : α) : Outcome Bytes :=
  match Serialize.ser v with
  | .ok ts => .ok (ts.flatMap (Tok.bytes e))
  | .err x => .err x
  | .panic => .panic

/-- `bincode::config().serialized_size(v)`: a separate pass with bincode's `SizeChecker`. -/
def serializedSize {α : Type} [Serialize α] (v : α) : Outcome Nat :=
  match Serialize.ser v with
  | .ok ts => .ok ((ts.map Tok.size).sum)
  | .err x => .err x
  | .panic => .panic

/-- `bincode::config().deserialize(bytes)`: reads a value from the front of the slice; bytes left
over are ignored (bincode 1.1). -/
def deserialize {α : Type} [Deserialize α] (e : Endian) (s : Bytes) : Outcome α :=
  match (Deserialize.de e : De α) s with
  | .ok (a, _) => .ok a
  | .err x => .err x
  | .panic => .panic

end Bincode
end Ipv8
