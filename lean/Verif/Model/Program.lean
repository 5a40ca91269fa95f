import Verif.Model.Writer
/-!
# Hand-written `Serialize` implementations

The counterpart of `Model/Visitor.lean`: `Packet::add` (`serialization/mod.rs:172-179`) takes any `Serialize`
implementation, the crate writes most of its own by hand (`serialization/bits.rs:89-98`,
`networking/address.rs:15-34`, `serialization/varlen.rs:67-87,129-149`, `serialization/rawend.rs:11-22`,
`serialization/header.rs:82-123`, `serialization/nestedpayload.rs:20-31`, `payloads/*.rs`,
`crypto/signature.rs:40-51`), and bincode runs it twice, once to count and once to write (bincode 1.1
`internal::serialize`).  `Model/Serde.lean` takes a writer for a function of the value; `Writing` is the type of all
programs it can be: it hands primitive values to the serializer, one after the other, runs the `serialize` of parts
and learns what came of that, passes their errors on or catches them, may fail or panic.  `serialize` takes `&self`,
but with interior mutability (`Cell`, `Mutex`, a clock, a random number generator) a program can look at and change
a state `σ` that outlives the call; so its second run need not do what the first did.  That serde's interface wants
the calls in a certain order (`serialize_struct` before `serialize_field`, `end` at last) is not modelled: such calls
have no effect in bincode except for the values they hand over, any order is allowed here.  Not covered: programs that
run for ever.
-/

namespace Ipv8

/-- A `serialize` function, from some point on. -/
inductive Writing (σ : Type)
  /-- It returns or panics. -/
  | done (o : Outcome Unit) : Writing σ
  /-- It looks at its state. -/
  | look (k : σ → Writing σ) : Writing σ
  /-- It changes its state. -/
  | change (f : σ → σ) (k : Writing σ) : Writing σ
  /-- It hands over a primitive value (also a length, the index of a variant, the tag of an option, a byte of a
  string), which neither counting nor writing into a vector refuses. -/
  | put (t : Tok) (k : Writing σ) : Writing σ
  /-- `serialize_seq(None)` or `serialize_map(None)`: bincode refuses (`SequenceMustHaveLength`), without effect. -/
  | unsized (k : Error → Writing σ) : Writing σ
  /-- `serialize_element`, `serialize_field`, `serialize_some` …: the `serialize` of a part, and how to go on after
  its `Ok` or `Err`. -/
  | part (w : Writing σ) (k : Option Error → Writing σ) : Writing σ

/-- bincode's error for sequences of unknown length (`ErrorKind::SequenceMustHaveLength`; kept as its text). -/
def sequenceMustHaveLength : Error := .custom "Bincode can only encode sequences and maps that have a knowable size ahead of time"

/-- Execute it on a serializer, which is given by what it does with a primitive value: how it ended, the serializer, and
the state it left.  (serde's `Serialize` and the two serializers of bincode 1.1.) -/
def Writing.run {σ S : Type} (sink : S → Tok → S) : Writing σ → S → σ → Outcome Unit × S × σ
  | .done o, x, s => (o, x, s)
  | .look k, x, s => (k s).run sink x s
  | .change f k, x, s => k.run sink x (f s)
  | .put t k, x, s => k.run sink (sink x t) s
  | .unsized k, x, s => (k sequenceMustHaveLength).run sink x s
  | .part w k, x, s =>
    match w.run sink x s with
    | (.ok (), x', s') => (k none).run sink x' s'
    | (.err e, x', s') => (k (some e)).run sink x' s'
    | (.panic, x', s') => (.panic, x', s')

/-- bincode's `SizeChecker` without a limit, given one more value. -/
def counting (n : Nat) (t : Tok) : Nat := n + t.size

/-- bincode's `Serializer` on a vector, given one more value. -/
def writing (low : Nat) (e : Endian) (b : Buf) (t : Tok) : Buf := b.extend low (t.bytes e)

/-- `bincode::config().serialize(v)` (bincode 1.1 `internal::serialize`): a run that counts, a vector of that
capacity, and a run that writes into it. -/
def pserialize {σ : Type} (low : Nat) (e : Endian) (w : Writing σ) (s : σ) : Outcome Buf × σ :=
  match w.run counting 0 s with
  | (.ok (), n, s') =>
    match w.run (writing low e) (Buf.withCapacity n) s' with
    | (.ok (), b, s'') => (.ok b, s'')
    | (.err x, _, s'') => (.err x, s'')
    | (.panic, _, s'') => (.panic, s'')
  | (.err x, _, s') => (.err x, s')
  | (.panic, _, s') => (.panic, s')

/-- `Packet::add` (`serialization/mod.rs:172-179`). -/
def padd {σ : Type} (low : Nat) (p : Buf) (w : Writing σ) (s : σ) : Outcome Unit × Buf × σ :=
  match pserialize low .big w s with
  | (.ok i, s') => (.ok (), p.extend low i.bytes, s')
  | (.err e, s') => (.err e, p, s')
  | (.panic, s') => (.panic, p, s')

/-- `PacketDeserializer::next_payload` (`serialization/mod.rs:45-69`) for a type that is read by `de` and written by
`w`; a value that was read has the state `init`. -/
def pnext {α σ : Type} (de : De α) (w : α → Writing σ) (init : α → σ) (d : PacketDeserializer) :
    Outcome (α × σ) × PacketDeserializer :=
  match sliceFrom d.pntr.bytes d.index with
  | .ok r =>
    match de r with
    | .ok (res, _) =>
      match (w res).run counting 0 (init res) with
      | (.ok (), n, s) => (.ok (res, s), { d with index := d.index + n })
      | (.err e, _, _) => (.err e, d)
      | (.panic, _, _) => (.panic, d)
    | .err e => (.err e, d)
    | .panic => (.panic, d)
  | .err e => (.err e, d)
  | .panic => (.panic, d)

/-! ## The writers of the crate as such programs -/

namespace Writing

variable {σ : Type}

/-- `a?; b`. -/
def andThen (a b : Writing σ) : Writing σ := .part a fun
  | none => b
  | some e => .done (.err e)

/-- `Ok(())`, and also a call that hands over nothing (`serialize_struct`, `serialize_tuple`, `end`). -/
def fine : Writing σ := .done (.ok ())

/-- One primitive value. -/
def one (t : Tok) : Writing σ := .put t fine

/-- `return Err(Error::custom(…))`. -/
def fail (e : Error) : Writing σ := .done (.err e)

/-- `for i in &data { state.serialize_field("val", &i)?; }`. -/
def bytes : Bytes → Writing σ
  | [] => fine
  | b :: bs => andThen (one (.u8 b)) (bytes bs)

/-- `for x in xs { state.serialize_element(x)?; }`. -/
def each {α : Type} (f : α → Writing σ) : List α → Writing σ
  | [] => fine
  | x :: xs => andThen (f x) (each f xs)

/-- `for x in xs { let _ = state.serialize_element(x); }`: a writer that leaves out what cannot be written. -/
def lenient {α : Type} (f : α → Writing σ) : List α → Writing σ
  | [] => fine
  | x :: xs => .part (f x) fun _ => lenient f xs

/-- `serialization/bits.rs:89-98`. -/
def bits (b : Bits) : Writing σ := one (.u8 b.toU8)

/-- `networking/address.rs:15-34`. -/
def address (a : Address) : Writing σ :=
  match a.sock with
  | .v4 a b c d port => andThen (bytes [a, b, c, d]) (one (.u16 port))
  | .v6 _ _ _ _ => fail (.custom "ip-v8 does not (yet) support ipv6")

/-- `serialization/varlen.rs:67-87`. -/
def varLen16 (v : VarLen16) : Writing σ :=
  if v.data.length > 0xffff then
    fail (.custom "Data too large to fit in a VarLen16. Must be less than 65536 bytes.")
  else andThen (one (.u16 (UInt16.ofNat v.data.length))) (bytes v.data)

/-- `serialization/varlen.rs:129-149`. -/
def varLen32 (v : VarLen32) : Writing σ :=
  if v.data.length > 0xffffffff then
    fail (.custom "Data too large to fit in a VarLen32. Must be less than 4294967295 bytes.")
  else andThen (one (.u32 (UInt32.ofNat v.data.length))) (bytes v.data)

/-- `serialization/varlen.rs:22` (derived). -/
def varLen64 (v : VarLen64) : Writing σ := andThen (one (.u64 (UInt64.ofNat v.data.length))) (bytes v.data)

/-- `serialization/rawend.rs:11-22`. -/
def rawEnd (v : RawEnd) : Writing σ := bytes v.data

/-- `serialization/header.rs:82-123`. -/
def header (h : Header) : Writing σ :=
  match h.version with
  | .PyIPV8Header =>
    andThen (one (.u16 2)) <|
    match h.midHash with
    | none => fail (.custom "mid_hash was empty and this wasn't expected")
    | some hash =>
      andThen (bytes hash) <|
      match h.messageType with
      | none => fail (.custom "Message type was empty and this wasn't expected")
      | some t => one (.u8 t.toUInt8)

/-- `serialization/nestedpayload.rs:20-31`. -/
def nested (p : NestedPacket) : Writing σ := andThen (varLen16 ⟨p.packet.bytes⟩) fine

/-- `payloads/timedistributionpayload.rs:5` (derived). -/
def time (p : TimeDistributionPayload) : Writing σ := one (.u64 p.globalTime)

/-- `payloads/puncturepayload.rs:7` (derived). -/
def puncture (p : PuncturePayload) : Writing σ :=
  andThen (address p.lanWalkerAddress) (andThen (address p.wanWalkerAddress) (one (.u16 p.identifier)))

/-- `payloads/puncturerequestpayload.rs:7` (derived). -/
def punctureRequest (p : PunctureRequestPayload) : Writing σ :=
  andThen (address p.lanWalkerAddress) (andThen (address p.wanWalkerAddress) (one (.u16 p.identifier)))

/-- `payloads/introductionrequestpayload.rs:50-80`. -/
def introRequest (p : IntroductionRequestPayload) : Writing σ :=
  let conntype := p.connectionType.encode
  andThen (address p.destinationAddress) <| andThen (address p.sourceLanAddress) <|
  andThen (address p.sourceWanAddress) <|
  andThen (bits (Bits.fromBools conntype.1 conntype.2 false false false false false p.advice)) <|
  andThen (one (.u16 p.identifier)) (rawEnd p.extraBytes)

/-- `payloads/introductionresponsepayload.rs:55-81`. -/
def introResponse (p : IntroductionResponsePayload) : Writing σ :=
  let conntype := p.connectionType.encode
  andThen (address p.destinationAddress) <| andThen (address p.sourceLanAddress) <|
  andThen (address p.sourceWanAddress) <| andThen (address p.lanIntroductionAddress) <|
  andThen (address p.wanIntroductionAddress) <|
  andThen (bits (Bits.fromBools conntype.1 conntype.2 false false false false false false)) <|
  andThen (one (.u16 p.identifier)) (rawEnd p.extraBytes)

/-- `payloads/binmemberauthenticationpayload.rs:25-52`. -/
def auth (p : BinMemberAuthenticationPayload) : Writing σ :=
  let length := p.publicKeyBin.1.length + p.encryptionKeyBin.1.length + 10
  andThen (one (.u16 (UInt16.ofNat length))) <| andThen (bytes libNaCLPK) <|
  andThen (bytes p.encryptionKeyBin.1) (bytes p.publicKeyBin.1)

/-- `crypto/signature.rs:40-51`. -/
def signature (x : Signature) : Writing σ := bytes x.bytes.1

/-- Derived `Serialize` (`Sch.ser`). -/
def derived : (s : Sch) → s.Ty → Writing σ
  | .u8, x => one (.u8 x)
  | .u16, x => one (.u16 x)
  | .u32, x => one (.u32 x)
  | .u64, x => one (.u64 x)
  | .u128, x => one (.u128 x)
  | .i8, x => one (.u8 x.toUInt8)
  | .i16, x => one (.u16 x.toUInt16)
  | .i32, x => one (.u32 x.toUInt32)
  | .i64, x => one (.u64 x.toUInt64)
  | .bool, x => one (.u8 (if x then 1 else 0))
  | .char, x => bytes (String.utf8EncodeChar x)
  | .string, x => andThen (one (.u64 (UInt64.ofNat x.toByteArray.data.size))) (bytes x.toByteArray.data.toList)
  | .bits, x => bits x
  | .address, x => address x
  | .varlen16, x => varLen16 x
  | .varlen32, x => varLen32 x
  | .varlen64, x => varLen64 x
  | .nested, x => nested x
  | .rawEnd, x => rawEnd x
  | .option _, none => one (.u8 0)
  | .option s, some x => andThen (one (.u8 1)) (derived s x)
  | .vec s, xs => andThen (one (.u64 (UInt64.ofNat xs.length))) (each (derived s) xs)
  | .array _ s, xs => each (derived s) xs.val
  | .unit, _ => fine
  | .cons a b, x => andThen (derived a x.1) (derived b x.2)
  | .enum _ f, x => andThen (one (.u32 (UInt32.ofNat x.1.val))) (derived (f x.1) x.2)

/-- The payloads of the crate and derived ones. -/
def ofKind : (κ : Kind) → κ.Ty → Writing σ
  | .varlen16, v => varLen16 v
  | .varlen32, v => varLen32 v
  | .varlen64, v => varLen64 v
  | .nested, v => nested v
  | .time, v => time v
  | .puncture, v => puncture v
  | .punctureRequest, v => punctureRequest v
  | .introRequest, v => introRequest v
  | .introResponse, v => introResponse v
  | .auth, v => auth v
  | .derived s, v => derived s v.val

end Writing

end Ipv8
