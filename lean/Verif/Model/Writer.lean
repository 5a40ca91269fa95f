import Verif.Model.Memory
import Verif.SpecPacket
/-!
# What writing does, call by call

The writers of `Model/Basic.lean`, `Model/Packet.lean`, `Model/Crypto.lean` and `Model/Derive.lean` once more, as the
sequence of calls they make on the serializer, also when they fail half way; and bincode's `serialize` as what it is:
a first run of the writer that only counts bytes, a vector of that capacity, and a second run that fills it
(bincode 1.1 `internal::serialize`).  In `Model/Serde.lean` a writer that fails has no effect at all; here it may have
handed over any number of values by then.
-/

namespace Ipv8

/-- What a `Serialize::serialize` did: how it ended, the primitive values it handed over before that, the number of
calls it made on the serializer (`serialize_struct`, `serialize_field`, `end`, one for every primitive value …), and
the bytes of heap memory it copied. -/
structure Wr where
  out : Outcome Unit
  toks : List Tok
  steps : Nat
  copied : Nat

namespace Wr

/-- Nothing. -/
def done : Wr := ⟨.ok (), [], 0, 0⟩

/-- `a?; b`. -/
def andThen (a b : Wr) : Wr :=
  match a.out with
  | .ok () => ⟨b.out, a.toks ++ b.toks, a.steps + b.steps, a.copied + b.copied⟩
  | .err e => ⟨.err e, a.toks, a.steps, a.copied⟩
  | .panic => ⟨.panic, a.toks, a.steps, a.copied⟩

@[inherit_doc] infixr:60 " ⨟ " => Wr.andThen

/-- One primitive value. -/
def put (t : Tok) : Wr := ⟨.ok (), [t], 1, 0⟩

/-- A call that hands over nothing: `serialize_struct`, `serialize_tuple`, `end`, and `serialize_field` or
`serialize_element` with something that is not a primitive value. -/
def call : Wr := ⟨.ok (), [], 1, 0⟩

/-- `return Err(Error::custom(…))`. -/
def fail (e : Error) : Wr := ⟨.err e, [], 0, 0⟩

/-- `to_owned()` of a byte vector. -/
def copy (n : Nat) : Wr := ⟨.ok (), [], 0, n⟩

/-- `for i in &data { state.serialize_field("val", &i)?; }`. -/
def puts : Bytes → Wr
  | [] => done
  | b :: bs => put (.u8 b) ⨟ puts bs

/-- `for x in xs { state.serialize_element(x)?; }`. -/
def each {α : Type} (f : α → Wr) : List α → Wr
  | [] => done
  | x :: xs => call ⨟ f x ⨟ each f xs

end Wr

open Wr

/-- A type of the crate whose writer is modelled call by call. -/
class WSerialize (α : Type) where
  wr : α → Wr

open WSerialize (wr)

/-- `serialization/bits.rs:89-98`. -/
instance : WSerialize Bits where
  wr b := call ⨟ put (.u8 b.toU8) ⨟ call

/-- `networking/address.rs:15-34`; `Ipv4Addr` is a tuple of four bytes in serde's binary form. -/
instance : WSerialize Address where
  wr a :=
    match a.sock with
    | .v4 a b c d port =>
      call ⨟ (call ⨟ puts [a, b, c, d] ⨟ call) ⨟ put (.u16 port) ⨟ call
    | .v6 _ _ _ _ => Wr.fail (.custom "ip-v8 does not (yet) support ipv6")

/-- `serialization/varlen.rs:67-87`: the check comes before anything is handed over. -/
instance : WSerialize VarLen16 where
  wr v :=
    if v.data.length > 0xffff then
      Wr.fail (.custom "Data too large to fit in a VarLen16. Must be less than 65536 bytes.")
    else call ⨟ put (.u16 (UInt16.ofNat v.data.length)) ⨟ puts v.data ⨟ call

/-- `serialization/varlen.rs:129-149`. -/
instance : WSerialize VarLen32 where
  wr v :=
    if v.data.length > 0xffffffff then
      Wr.fail (.custom "Data too large to fit in a VarLen32. Must be less than 4294967295 bytes.")
    else call ⨟ put (.u32 (UInt32.ofNat v.data.length)) ⨟ puts v.data ⨟ call

/-- serde's `Vec<u8>::serialize`: `serialize_seq` writes the length. -/
def wvec (l : Bytes) : Wr := put (.u64 (UInt64.ofNat l.length)) ⨟ puts l ⨟ call

/-- `serialization/varlen.rs:22` (derived: `serialize_newtype_struct`). -/
instance : WSerialize VarLen64 where
  wr v := call ⨟ wvec v.data

/-- `serialization/rawend.rs:11-22`. -/
instance : WSerialize RawEnd where
  wr v := call ⨟ puts v.data ⨟ call

/-- `serialization/header.rs:82-123`: the version is handed over before the hash is looked at, and the hash before
the message type is. -/
instance : WSerialize Header where
  wr h :=
    match h.version with
    | .PyIPV8Header =>
      call ⨟ put (.u16 2) ⨟
      match h.midHash with
      | none => Wr.fail (.custom "mid_hash was empty and this wasn't expected")
      | some hash =>
        puts hash ⨟
        match h.messageType with
        | none => Wr.fail (.custom "Message type was empty and this wasn't expected")
        | some t => put (.u8 t.toUInt8) ⨟ call

/-- `serialization/nestedpayload.rs:20-31`: the packet is copied before `VarLen16` looks at its length. -/
instance : WSerialize NestedPacket where
  wr p := copy p.packet.bytes.length ⨟ call ⨟ call ⨟ wr (VarLen16.mk p.packet.bytes) ⨟ call

/-- `payloads/timedistributionpayload.rs:5` (derived). -/
instance : WSerialize TimeDistributionPayload where
  wr p := call ⨟ put (.u64 p.globalTime) ⨟ call

/-- `payloads/puncturepayload.rs:7` (derived). -/
instance : WSerialize PuncturePayload where
  wr p := call ⨟ (call ⨟ wr p.lanWalkerAddress) ⨟ (call ⨟ wr p.wanWalkerAddress) ⨟ put (.u16 p.identifier) ⨟ call

/-- `payloads/puncturerequestpayload.rs:7` (derived). -/
instance : WSerialize PunctureRequestPayload where
  wr p := call ⨟ (call ⨟ wr p.lanWalkerAddress) ⨟ (call ⨟ wr p.wanWalkerAddress) ⨟ put (.u16 p.identifier) ⨟ call

/-- `payloads/introductionrequestpayload.rs:50-80`. -/
instance : WSerialize IntroductionRequestPayload where
  wr p :=
    let conntype := p.connectionType.encode
    call ⨟ (call ⨟ wr p.destinationAddress) ⨟ (call ⨟ wr p.sourceLanAddress) ⨟ (call ⨟ wr p.sourceWanAddress) ⨟
    (call ⨟ wr (Bits.fromBools conntype.1 conntype.2 false false false false false p.advice)) ⨟
    put (.u16 p.identifier) ⨟ (call ⨟ wr p.extraBytes) ⨟ call

/-- `payloads/introductionresponsepayload.rs:55-81`. -/
instance : WSerialize IntroductionResponsePayload where
  wr p :=
    let conntype := p.connectionType.encode
    call ⨟ (call ⨟ wr p.destinationAddress) ⨟ (call ⨟ wr p.sourceLanAddress) ⨟ (call ⨟ wr p.sourceWanAddress) ⨟
    (call ⨟ wr p.lanIntroductionAddress) ⨟ (call ⨟ wr p.wanIntroductionAddress) ⨟
    (call ⨟ wr (Bits.fromBools conntype.1 conntype.2 false false false false false false)) ⨟
    put (.u16 p.identifier) ⨟ (call ⨟ wr p.extraBytes) ⨟ call

/-- `payloads/binmemberauthenticationpayload.rs:25-52`. -/
instance : WSerialize BinMemberAuthenticationPayload where
  wr p :=
    let length := p.publicKeyBin.1.length + p.encryptionKeyBin.1.length + 10
    call ⨟ put (.u16 (UInt16.ofNat length)) ⨟ puts libNaCLPK ⨟ puts p.encryptionKeyBin.1 ⨟ puts p.publicKeyBin.1 ⨟ call

/-- `crypto/signature.rs:40-51`. -/
instance : WSerialize Signature where
  wr s := call ⨟ puts s.bytes.1 ⨟ call

/-- Derived `Serialize` (`Sch.ser`) call by call.  A string or character goes over in one call; a call per byte is
counted.  `serialize_struct` and the struct's `end` are counted as one call, at the end of the fields. -/
def Sch.wr : (s : Sch) → s.Ty → Wr
  | .u8, x => put (.u8 x)
  | .u16, x => put (.u16 x)
  | .u32, x => put (.u32 x)
  | .u64, x => put (.u64 x)
  | .u128, x => put (.u128 x)
  | .i8, x => put (.u8 x.toUInt8)
  | .i16, x => put (.u16 x.toUInt16)
  | .i32, x => put (.u32 x.toUInt32)
  | .i64, x => put (.u64 x.toUInt64)
  | .bool, x => put (.u8 (if x then 1 else 0))
  | .char, x => puts (String.utf8EncodeChar x)
  | .string, x => put (.u64 (UInt64.ofNat x.toByteArray.data.size)) ⨟ puts x.toByteArray.data.toList
  | .bits, x => WSerialize.wr x
  | .address, x => WSerialize.wr x
  | .varlen16, x => WSerialize.wr x
  | .varlen32, x => WSerialize.wr x
  | .varlen64, x => WSerialize.wr x
  | .nested, x => WSerialize.wr x
  | .rawEnd, x => WSerialize.wr x
  | .option _, none => put (.u8 0)
  | .option s, some x => put (.u8 1) ⨟ s.wr x
  | .vec s, xs => put (.u64 (UInt64.ofNat xs.length)) ⨟ each s.wr xs ⨟ call
  | .array _ s, xs => call ⨟ each s.wr xs.val ⨟ call
  | .unit, _ => call
  | .cons a b, x => call ⨟ a.wr x.1 ⨟ b.wr x.2
  | .enum _ f, x => put (.u32 (UInt32.ofNat x.1.val)) ⨟ (f x.1).wr x.2

instance (s : Sch) : WSerialize (Derived s) := ⟨fun v => s.wr v.val⟩

instance (k : Kind) : WSerialize k.Ty :=
  match k with
  | .varlen16 => inferInstanceAs (WSerialize VarLen16)
  | .varlen32 => inferInstanceAs (WSerialize VarLen32)
  | .varlen64 => inferInstanceAs (WSerialize VarLen64)
  | .nested => inferInstanceAs (WSerialize NestedPacket)
  | .time => inferInstanceAs (WSerialize TimeDistributionPayload)
  | .puncture => inferInstanceAs (WSerialize PuncturePayload)
  | .punctureRequest => inferInstanceAs (WSerialize PunctureRequestPayload)
  | .introRequest => inferInstanceAs (WSerialize IntroductionRequestPayload)
  | .introResponse => inferInstanceAs (WSerialize IntroductionResponsePayload)
  | .auth => inferInstanceAs (WSerialize BinMemberAuthenticationPayload)
  | .derived s => inferInstanceAs (WSerialize (Derived s))

/-! ## Buffers -/

/-- A `Vec<u8>`: its content, its capacity, and the bytes of heap memory requested for it so far (every buffer it ever
had, at full size). -/
structure Buf where
  bytes : Bytes
  cap : Nat
  asked : Nat
  deriving DecidableEq, Repr

namespace Buf

/-- `vec![]`. -/
def empty : Buf := ⟨[], 0, 0⟩

/-- `Vec::with_capacity(n)`. -/
def withCapacity (n : Nat) : Buf := ⟨[], n, n⟩

/-- `Vec::reserve(n)` (`RawVec::grow_amortized`): nothing if there is room, else twice the capacity, but at least what
is needed and at least the smallest capacity `low`. -/
def reserve (low : Nat) (b : Buf) (n : Nat) : Buf :=
  if b.bytes.length + n ≤ b.cap then b
  else
    let cap := max (max (2 * b.cap) (b.bytes.length + n)) low
    ⟨b.bytes, cap, b.asked + cap⟩

/-- `Vec::extend` from a vector, `Vec::extend_from_slice`, and so `Write::write_all` on a vector. -/
def extend (low : Nat) (b : Buf) (bs : Bytes) : Buf :=
  let b := b.reserve low bs.length
  ⟨b.bytes ++ bs, b.cap, b.asked⟩

end Buf

/-- What a call cost: calls on a serializer, and bytes of heap memory requested. -/
structure Spent where
  steps : Nat
  heap : Nat
  deriving DecidableEq, Repr

/-- bincode's `SizeChecker` without a limit: add up the sizes, one value after the other. -/
def sizePass (ts : List Tok) : Nat := ts.foldl (fun n t => n + t.size) 0

/-- bincode's `Serializer` on a vector: write the values, one after the other. -/
def writePass (low : Nat) (e : Endian) (b : Buf) (ts : List Tok) : Buf :=
  ts.foldl (fun b t => b.extend low (t.bytes e)) b

/-- `bincode::config().serialize(v)` (bincode 1.1 `internal::serialize`): a run of the writer on the size checker; if
it fails that is all; else a vector of the counted capacity, and a second run of the same writer on it, which makes
the same calls and succeeds as well (`serialize` takes `&self`, and no type here has interior mutability; writing to a
vector does not fail). -/
def wserialize {α : Type} [WSerialize α] (low : Nat) (e : Endian) (v : α) : Outcome Buf × Spent :=
  let w := wr v
  match w.out with
  | .err x => (.err x, ⟨w.steps, w.copied⟩)
  | .panic => (.panic, ⟨w.steps, w.copied⟩)
  | .ok () =>
    let b := writePass low e (Buf.withCapacity (sizePass w.toks)) w.toks
    (.ok b, ⟨w.steps + w.steps, w.copied + w.copied + b.asked⟩)

/-- `Packet::new` (`serialization/mod.rs:129-137`): the buffer bincode returns is appended to an empty vector. -/
def wnew (low : Nat) (header : Header) : Outcome Buf × Spent :=
  match wserialize low .big header with
  | (.ok i, c) => (.ok (Buf.empty.extend low i.bytes), c)
  | (.err _, c) => (.err .header, c)
  | (.panic, c) => (.panic, c)

/-- `Packet::add` (`serialization/mod.rs:172-179`); what the packet's own vector requests is in its `asked`. -/
def wadd {α : Type} [WSerialize α] (low : Nat) (p : Buf) (obj : α) : Outcome Unit × Buf × Spent :=
  match wserialize low .big obj with
  | (.ok i, c) => (.ok (), p.extend low i.bytes, c)
  | (.err e, c) => (.err e, p, c)
  | (.panic, c) => (.panic, p, c)

/-- A program that builds a packet: it adds one payload after the other and may carry on after a refusal. -/
def waddEach (low : Nat) : Buf → List AnyPayload → Buf × Spent
  | p, [] => (p, ⟨0, 0⟩)
  | p, ⟨_, v⟩ :: vs =>
    let r := wadd low p v
    let s := waddEach low r.2.1 vs
    (s.1, ⟨r.2.2.steps + s.2.steps, r.2.2.heap + s.2.heap⟩)

/-- `Packet::sign` (`serialization/mod.rs:154-161`) after the signature has been made. -/
def wsign {R : Ring} (low : Nat) (p : Buf) (keypair : KeyPair R) : Outcome Buf × Spent :=
  match signPacket keypair ⟨p.bytes⟩ with
  | .ok signature =>
    match wadd low p signature with
    | (.ok (), q, c) => (.ok q, c)
    | (.err e, _, c) => (.err e, c)
    | (.panic, _, c) => (.panic, c)
  | .err e => (.err e, ⟨0, 0⟩)
  | .panic => (.panic, ⟨0, 0⟩)

end Ipv8
