import Verif.Model.Derive
/-!
# Hand-written `Deserialize` implementations

A payload type need not be derived: `serialization/mod.rs:24-33` asks for any `Serialize` and `Deserialize`
implementation, and the crate writes most of its own by hand (`serialization/bits.rs:106-129`,
`networking/address.rs:36-68`, `serialization/varlen.rs:26-65,89-127`, `serialization/rawend.rs:24-54`,
`serialization/header.rs:125-208`, `serialization/nestedpayload.rs:33-50`, `payloads/*.rs`).  `next_payload`
(`serialization/mod.rs:45-69`) runs whatever `deserialize` it is given.  `Visitor` is the type of all programs
such a function can be: it asks bincode for one primitive, or for a tuple, a sequence, an option or an enum and
then answers through `visit_…`; inside a tuple or a sequence it asks for elements, each read by a `deserialize`
of its own, and goes on depending on what it got; errors are passed on with `?` or caught.  Computations that do
not read are arbitrary and may fail or panic.  What bincode does with each request is assumed, as in
`Model/Serde.lean`; here also the position of the reader after an error is kept, because a program that catches
the error goes on from there.  Not covered: programs that run forever, and the capacity hints of sequences as
anything other than the length.
-/

namespace Ipv8

mutual

/-- A `deserialize` function for `α`. -/
inductive Visitor : Type → Type 1
  /-- No request at all (`deserialize_unit`, `#[serde(skip)]`, `unit_variant`). -/
  | value {α : Type} (o : Outcome α) : Visitor α
  /-- `deserialize_u8` and `visit_u8` (also `i8`; `bool` is read this way by bincode). -/
  | u8 {α : Type} (visit : UInt8 → Outcome α) : Visitor α
  /-- `deserialize_u16` and `visit_u16`. -/
  | u16 {α : Type} (visit : UInt16 → Outcome α) : Visitor α
  /-- `deserialize_u32` and `visit_u32` (also `f32`). -/
  | u32 {α : Type} (visit : UInt32 → Outcome α) : Visitor α
  /-- `deserialize_u64` and `visit_u64` (also `f64`). -/
  | u64 {α : Type} (visit : UInt64 → Outcome α) : Visitor α
  /-- `deserialize_u128` and `visit_u128`. -/
  | u128 {α : Type} (visit : BitVec 128 → Outcome α) : Visitor α
  /-- `deserialize_char` and `visit_char`. -/
  | char {α : Type} (visit : Char → Outcome α) : Visitor α
  /-- `deserialize_bytes`, `deserialize_byte_buf`, `deserialize_str`, `deserialize_string`: a `u64` length and
  that many bytes at once; the check for UTF-8 is part of `visit`. -/
  | bytes {α : Type} (visit : Bytes → Outcome α) : Visitor α
  /-- `deserialize_option`: `visit_none` or `visit_some`. -/
  | option {α : Type} (visitNone : Outcome α) (visitSome : Visitor α) : Visitor α
  /-- `deserialize_enum`: the index of the variant, then what the program reads for it. -/
  | enum {α : Type} (variant : UInt32 → Visitor α) : Visitor α
  /-- `deserialize_tuple(n, …)`, `deserialize_struct` or `deserialize_tuple_struct` with `n` fields and
  `visit_seq`. -/
  | tuple {α : Type} (n : Nat) (visit : Elements α) : Visitor α
  /-- `deserialize_seq` and `visit_seq`, given the length as the hint. -/
  | seq {α : Type} (visit : Nat → Elements α) : Visitor α
  /-- `let x = T::deserialize(deserializer)?; …` -/
  | after {α β : Type} (d : Visitor β) (k : β → Outcome α) : Visitor α
  /-- `match T::deserialize(deserializer) { Ok(x) => …, Err(e) => … }` -/
  | rescue {α β : Type} (d : Visitor β) (k : β → Outcome α) (caught : Error → Outcome α) : Visitor α

/-- What `visit_seq` does with the elements. -/
inductive Elements : Type → Type 1
  /-- The result. -/
  | done {α : Type} (o : Outcome α) : Elements α
  /-- `let x = seq.next_element()?; …` -/
  | next {α β : Type} (d : Visitor β) (k : Option β → Elements α) : Elements α
  /-- `match seq.next_element() { Ok(x) => …, Err(e) => … }` -/
  | attempt {α β : Type} (d : Visitor β) (k : Option β → Elements α) (caught : Error → Elements α) : Elements α

end

/-- One primitive request of bincode: its answer goes to `visit`; a failed one leaves the reader where it is
(`SliceReader::read_exact` checks the length first). -/
def visitPrim {α β : Type} (d : De β) (visit : β → Outcome α) (r : Bytes) : Outcome α × Bytes :=
  match d r with
  | .ok (b, r') => (visit b, r')
  | .err x => (.err x, r)
  | .panic => (.panic, r)

mutual

/-- Run a `deserialize` function on the unread bytes: what it returns, and what is unread afterwards. -/
def Visitor.run (e : Endian) : {α : Type} → Visitor α → Bytes → Outcome α × Bytes
  | _, .value o, r => (o, r)
  | _, .u8 visit, r => visitPrim deU8 visit r
  | _, .u16 visit, r => visitPrim (deU16 e) visit r
  | _, .u32 visit, r => visitPrim (deU32 e) visit r
  | _, .u64 visit, r => visitPrim (deU64 e) visit r
  | _, .u128 visit, r => visitPrim (deU128 e) visit r
  | _, .char visit, r =>
    match deU8 r with
    | .ok (b, r') =>
      if utf8CharWidth b = 1 then (visit (Char.ofNat b.toNat), r')
      else if utf8CharWidth b = 0 then (.err .invalidChar, r')
      else
        match deCharRest b (utf8CharWidth b - 1) r' with
        | .ok (c, r'') => (visit c, r'')
        | .err x => (.err x, if r'.length < utf8CharWidth b - 1 then r' else r'.drop (utf8CharWidth b - 1))
        | .panic => (.panic, r')
    | .err x => (.err x, r)
    | .panic => (.panic, r)
  | _, .bytes visit, r =>
    match deU64 e r with
    | .ok (n, r') =>
      if r'.length < n.toNat then (.err .eof, r') else (visit (r'.take n.toNat), r'.drop n.toNat)
    | .err x => (.err x, r)
    | .panic => (.panic, r)
  | _, .option visitNone visitSome, r =>
    match deU8 r with
    | .ok (b, r') => if b = 0 then (visitNone, r') else if b = 1 then visitSome.run e r' else (.err .invalidTag, r')
    | .err x => (.err x, r)
    | .panic => (.panic, r)
  | _, .enum variant, r =>
    match deU32 e r with
    | .ok (i, r') => (variant i).run e r'
    | .err x => (.err x, r)
    | .panic => (.panic, r)
  | _, .tuple n visit, r => visit.run e n r
  | _, .seq visit, r =>
    match deU64 e r with
    | .ok (n, r') => (visit n.toNat).run e n.toNat r'
    | .err x => (.err x, r)
    | .panic => (.panic, r)
  | _, .after d k, r =>
    match d.run e r with
    | (.ok b, r') => (k b, r')
    | (.err x, r') => (.err x, r')
    | (.panic, r') => (.panic, r')
  | _, .rescue d k caught, r =>
    match d.run e r with
    | (.ok b, r') => (k b, r')
    | (.err x, r') => (caught x, r')
    | (.panic, r') => (.panic, r')

/-- Run `visit_seq` with a budget of elements (`Access { len }` of bincode: decremented before the element is
read, so a failed element counts too). -/
def Elements.run (e : Endian) : {α : Type} → Elements α → (budget : Nat) → Bytes → Outcome α × Bytes
  | _, .done o, _, r => (o, r)
  | _, .next _ k, 0, r => (k none).run e 0 r
  | _, .next d k, n + 1, r =>
    match d.run e r with
    | (.ok b, r') => (k (some b)).run e n r'
    | (.err x, r') => (.err x, r')
    | (.panic, r') => (.panic, r')
  | _, .attempt _ k _, 0, r => (k none).run e 0 r
  | _, .attempt d k caught, n + 1, r =>
    match d.run e r with
    | (.ok b, r') => (k (some b)).run e n r'
    | (.err x, r') => (caught x).run e n r'
    | (.panic, r') => (.panic, r')

end

/-- The `deserialize` function as `bincode::deserialize` uses it (`serialization/mod.rs:49-51`): the position
after an error is gone. -/
def Visitor.de (e : Endian) {α : Type} (v : Visitor α) : De α := fun r =>
  match v.run e r with
  | (.ok a, r') => .ok (a, r')
  | (.err x, _) => .err x
  | (.panic, _) => .panic

/-- A payload type with its hand-written `impl Serialize` and `impl Deserialize`. -/
structure Handmade {α : Type} (ser : α → Outcome (List Tok)) (v : Visitor α) where
  val : α

instance {α : Type} (ser : α → Outcome (List Tok)) (v : Visitor α) : Ipv8Payload (Handmade ser v) := ⟨⟩
instance {α : Type} (ser : α → Outcome (List Tok)) (v : Visitor α) : Serialize (Handmade ser v) :=
  ⟨fun x => ser x.val⟩
instance {α : Type} (ser : α → Outcome (List Tok)) (v : Visitor α) : Deserialize (Handmade ser v) where
  de e := do
    let x ← v.de e
    pure ⟨x⟩

/-! ## The implementations of the crate, written as such programs -/

/-- `let x = seq.next_element()?.ok_or_else(|| x)?; …` -/
def Elements.field {α β : Type} (d : Visitor β) (x : Error) (k : β → Elements α) : Elements α :=
  .next d fun
    | some b => k b
    | none => .done (.err x)

/-- `for _ in 0..n { res.push(seq.next_element()?.ok_or_else(|| x)?) }; …` -/
def Elements.fields {α β : Type} (d : Visitor β) (x : Error) : (n : Nat) → (List β → Elements α) → Elements α
  | 0, k => k []
  | n + 1, k => .field d x fun b => .fields d x n fun bs => k (b :: bs)

/-- `serialization/bits.rs:106-129`. -/
def vBits : Visitor Bits := .u8 fun b => .ok (Bits.fromU8 b)

/-- serde's `Ipv4Addr` (`networking/address.rs:55`). -/
def vIpv4 : Visitor (UInt8 × UInt8 × UInt8 × UInt8) :=
  .tuple 4 (
    .field (.u8 .ok) (.invalidLength 0) fun a =>
    .field (.u8 .ok) (.invalidLength 1) fun b =>
    .field (.u8 .ok) (.invalidLength 2) fun c =>
    .field (.u8 .ok) (.invalidLength 3) fun d =>
    .done (.ok (a, b, c, d)))

/-- `networking/address.rs:36-68`. -/
def vAddress : Visitor Address :=
  .tuple 2 (
    .field vIpv4 (.custom "Could not deserialize the address") fun i =>
    .field (.u16 .ok) (.custom "Could not deserialize the port") fun port =>
    .done (.ok ⟨.v4 i.1 i.2.1 i.2.2.1 i.2.2.2 port⟩))

/-- `serialization/varlen.rs:26-65`. -/
def vVarLen16 : Visitor VarLen16 :=
  .tuple (2 ^ 16) (
    .field (.u16 .ok) (.invalidLength 1) fun length =>
    .fields (.u8 .ok) (.invalidLength 1) length.toNat fun res =>
    .done (.ok ⟨res⟩))

/-- `serialization/varlen.rs:89-127`. -/
def vVarLen32 : Visitor VarLen32 :=
  .tuple (2 ^ 32) (
    .field (.u32 .ok) (.invalidLength 1) fun length =>
    .fields (.u8 .ok) (.invalidLength 1) length.toNat fun res =>
    .done (.ok ⟨res⟩))

/-- `serialization/rawend.rs:41-48`: `while let Ok(item) = seq.next_element() { res.push(match item { Some(i) =>
i, None => break }) }`, at most `n` rounds; `res` is what has been pushed so far. -/
def rawRounds : (n : Nat) → (res : Bytes) → Elements RawEnd
  | 0, res => .done (.ok ⟨res⟩)
  | n + 1, res =>
    .attempt (.u8 .ok)
      (fun
        | some b => rawRounds n (res ++ [b])
        | none => .done (.ok ⟨res⟩))
      (fun _ => .done (.ok ⟨res⟩))

/-- `serialization/rawend.rs:24-54`.  After `usize::MAX` elements the budget is exhausted, so one more round
ends the loop. -/
def vRawEnd : Visitor RawEnd := .tuple usizeMax (rawRounds (usizeMax + 1) [])

/-- `serialization/header.rs:125-208`. -/
def vHeader : Visitor Header :=
  .tuple usizeMax (
    .field (.u8 .ok) noValidHeader fun v0 =>
    .field (.u8 .ok) noValidHeader fun v1 =>
    if [v0, v1] = [0, 2] then
      .fields (.u8 .ok) noValidHeader 20 fun midHash =>
      .field (.u8 .ok) noValidHeader fun messageType =>
      .done (.ok (Header.ofMid midHash messageType))
    else .done (.err noValidHeader))

/-- `serialization/nestedpayload.rs:33-50`. -/
def vNested : Visitor NestedPacket := .after vVarLen16 fun p => .ok ⟨⟨p.data⟩⟩

/-- `payloads/binmemberauthenticationpayload.rs:54-96`. -/
def vAuth : Visitor BinMemberAuthenticationPayload := .after vVarLen16 fun p => authOfContents p.data

/-- `payloads/introductionrequestpayload.rs:82-111`. -/
def vIntroRequest : Visitor IntroductionRequestPayload :=
  .tuple 6 (
    .field vAddress (.invalidLength 0) fun t0 =>
    .field vAddress (.invalidLength 1) fun t1 =>
    .field vAddress (.invalidLength 2) fun t2 =>
    .field vBits (.invalidLength 3) fun t3 =>
    .field (.u16 .ok) (.invalidLength 4) fun t4 =>
    .field vRawEnd (.invalidLength 5) fun t5 =>
    .done (.ok {
      destinationAddress := t0
      sourceLanAddress := t1
      sourceWanAddress := t2
      advice := t3.bit7
      connectionType := ConnectionType.decode (t3.bit0, t3.bit1)
      identifier := t4
      extraBytes := t5 }))

/-- `payloads/introductionresponsepayload.rs:83-123`. -/
def vIntroResponse : Visitor IntroductionResponsePayload :=
  .tuple 8 (
    .field vAddress (.invalidLength 0) fun t0 =>
    .field vAddress (.invalidLength 1) fun t1 =>
    .field vAddress (.invalidLength 2) fun t2 =>
    .field vAddress (.invalidLength 3) fun t3 =>
    .field vAddress (.invalidLength 4) fun t4 =>
    .field vBits (.invalidLength 5) fun t5 =>
    .field (.u16 .ok) (.invalidLength 6) fun t6 =>
    .field vRawEnd (.invalidLength 7) fun t7 =>
    .done (.ok {
      destinationAddress := t0
      sourceLanAddress := t1
      sourceWanAddress := t2
      lanIntroductionAddress := t3
      wanIntroductionAddress := t4
      tunnel := false
      connectionType := ConnectionType.decode (t5.bit0, t5.bit1)
      identifier := t6
      extraBytes := t7 }))

/-- `payloads/puncturepayload.rs:7` (derived, as a program). -/
def vPuncture : Visitor PuncturePayload :=
  .tuple 3 (
    .field vAddress (.invalidLength 0) fun a =>
    .field vAddress (.invalidLength 1) fun b =>
    .field (.u16 .ok) (.invalidLength 2) fun i =>
    .done (.ok ⟨a, b, i⟩))

/-- `payloads/puncturerequestpayload.rs:7` (derived, as a program). -/
def vPunctureRequest : Visitor PunctureRequestPayload :=
  .tuple 3 (
    .field vAddress (.invalidLength 0) fun a =>
    .field vAddress (.invalidLength 1) fun b =>
    .field (.u16 .ok) (.invalidLength 2) fun i =>
    .done (.ok ⟨a, b, i⟩))

/-- `payloads/timedistributionpayload.rs:5` (derived, as a program). -/
def vTime : Visitor TimeDistributionPayload :=
  .tuple 1 (.field (.u64 .ok) (.invalidLength 0) fun t => .done (.ok ⟨t⟩))

/-- serde's loop for `Vec<T>`, `while let Some(v) = seq.next_element()? { values.push(v) }`: with a budget of `n`
elements it takes `n` rounds; the last request, answered with `None` without reading, is left out. -/
def Elements.all {α β : Type} (d : Visitor β) : (n : Nat) → (List β → Elements α) → Elements α
  | 0, k => k []
  | n + 1, k => .next d fun
    | some b => .all d n fun bs => k (b :: bs)
    | none => k []

/-- serde's `Vec<T>`. -/
def vVec {β : Type} (d : Visitor β) : Visitor (List β) := .seq fun n => .all d n fun bs => .done (.ok bs)

/-- `serialization/varlen.rs:22` (derived, as a program). -/
def vVarLen64 : Visitor VarLen64 := .after (vVec (.u8 .ok)) fun bs => .ok ⟨bs⟩

/-- Derived `Deserialize` (`Sch.de`, Model/Derive.lean) as a program.  A `String` is read like a `Vec<u8>`, as in
`deString`. -/
def Sch.visitor : (s : Sch) → Visitor s.Ty
  | .u8 => .u8 .ok
  | .u16 => .u16 .ok
  | .u32 => .u32 .ok
  | .u64 => .u64 .ok
  | .u128 => .u128 .ok
  | .i8 => .u8 fun x => .ok x.toInt8
  | .i16 => .u16 fun x => .ok x.toInt16
  | .i32 => .u32 fun x => .ok x.toInt32
  | .i64 => .u64 fun x => .ok x.toInt64
  | .bool => .u8 fun b => if b = 0 then .ok false else if b = 1 then .ok true else .err .invalidBool
  | .char => .char .ok
  | .string => .after (vVec (.u8 .ok)) fun bs =>
    if h : (ByteArray.mk bs.toArray).IsValidUTF8 then .ok (String.ofByteArray ⟨bs.toArray⟩ h)
    else .err .invalidUtf8
  | .bits => vBits
  | .address => vAddress
  | .varlen16 => vVarLen16
  | .varlen32 => vVarLen32
  | .varlen64 => vVarLen64
  | .nested => vNested
  | .rawEnd => vRawEnd
  | .option s => .option (.ok none) (.after s.visitor fun x => .ok (some x))
  | .vec s => vVec s.visitor
  | .array n s => .tuple n (.fields s.visitor (.custom "invalid length") n fun xs =>
    if h : xs.length = n then .done (.ok ⟨xs, h⟩) else .done (.err (.custom "invalid length")))
  | .unit => .value (.ok ())
  | .cons a b =>
    .tuple 2 (
      .field a.visitor (.invalidLength 0) fun x =>
      .field b.visitor (.invalidLength 1) fun y =>
      .done (.ok (x, y)))
  | .enum n f => .enum fun i =>
    if h : i.toNat < n then .after (f ⟨i.toNat, h⟩).visitor fun x => .ok ⟨⟨i.toNat, h⟩, x⟩
    else .value (.err (.custom "invalid value: expected variant index"))

end Ipv8
