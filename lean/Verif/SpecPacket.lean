import Verif.Spec
import Verif.Model.Derive
/-!
# Specification vocabulary for whole packets

The closed list of payload types, messages made of several payloads, and histories of API calls.
-/

namespace Ipv8

/-- The payload types: those of the crate that can be read, and every user-defined one. -/
inductive Kind
  | varlen16
  | varlen32
  | varlen64
  | nested
  | time
  | puncture
  | punctureRequest
  | introRequest
  | introResponse
  | auth
  | derived (s : Sch)

/-- The Rust type of a kind. -/
def Kind.Ty : Kind → Type
  | .varlen16 => VarLen16
  | .varlen32 => VarLen32
  | .varlen64 => VarLen64
  | .nested => NestedPacket
  | .time => TimeDistributionPayload
  | .puncture => PuncturePayload
  | .punctureRequest => PunctureRequestPayload
  | .introRequest => IntroductionRequestPayload
  | .introResponse => IntroductionResponsePayload
  | .auth => BinMemberAuthenticationPayload
  | .derived s => Derived s

instance (k : Kind) : Ipv8Payload k.Ty := ⟨⟩

instance (k : Kind) : Serialize k.Ty :=
  match k with
  | .varlen16 => inferInstanceAs (Serialize VarLen16)
  | .varlen32 => inferInstanceAs (Serialize VarLen32)
  | .varlen64 => inferInstanceAs (Serialize VarLen64)
  | .nested => inferInstanceAs (Serialize NestedPacket)
  | .time => inferInstanceAs (Serialize TimeDistributionPayload)
  | .puncture => inferInstanceAs (Serialize PuncturePayload)
  | .punctureRequest => inferInstanceAs (Serialize PunctureRequestPayload)
  | .introRequest => inferInstanceAs (Serialize IntroductionRequestPayload)
  | .introResponse => inferInstanceAs (Serialize IntroductionResponsePayload)
  | .auth => inferInstanceAs (Serialize BinMemberAuthenticationPayload)
  | .derived s => inferInstanceAs (Serialize (Derived s))

instance (k : Kind) : Deserialize k.Ty :=
  match k with
  | .varlen16 => inferInstanceAs (Deserialize VarLen16)
  | .varlen32 => inferInstanceAs (Deserialize VarLen32)
  | .varlen64 => inferInstanceAs (Deserialize VarLen64)
  | .nested => inferInstanceAs (Deserialize NestedPacket)
  | .time => inferInstanceAs (Deserialize TimeDistributionPayload)
  | .puncture => inferInstanceAs (Deserialize PuncturePayload)
  | .punctureRequest => inferInstanceAs (Deserialize PunctureRequestPayload)
  | .introRequest => inferInstanceAs (Deserialize IntroductionRequestPayload)
  | .introResponse => inferInstanceAs (Deserialize IntroductionResponsePayload)
  | .auth => inferInstanceAs (Deserialize BinMemberAuthenticationPayload)
  | .derived s => inferInstanceAs (Deserialize (Derived s))

/-! ## Which types know where they end -/

/-- Every vector in the value has a length that fits a `usize`; true of every Rust value. -/
def Sch.Fits : (s : Sch) → s.Ty → Prop
  | .varlen64, x => x.data.length ≤ usizeMax
  | .option s, some x => s.Fits x
  | .vec s, xs => xs.length ≤ usizeMax ∧ ∀ x ∈ xs, s.Fits x
  | .string, x => x.toByteArray.data.size ≤ usizeMax
  | .array _ s, xs => ∀ x ∈ xs.val, s.Fits x
  | .cons a b, x => a.Fits x.1 ∧ b.Fits x.2
  | .enum _ f, x => (f x.1).Fits x.2
  | _, _ => True

/-- No `RawEnd` anywhere, and enums have at most `2^32` variants. -/
def Sch.SelfDelimiting : Sch → Prop
  | .rawEnd => False
  | .option s => s.SelfDelimiting
  | .vec s => s.SelfDelimiting
  | .array _ s => s.SelfDelimiting
  | .cons a b => a.SelfDelimiting ∧ b.SelfDelimiting
  | .enum n f => n ≤ 2 ^ 32 ∧ ∀ i, (f i).SelfDelimiting
  | _ => True

/-- `RawEnd` at most in last position (of a struct: all fields but the last are self-delimiting). -/
def Sch.LastOnly : Sch → Prop
  | .rawEnd => True
  | .option s => s.LastOnly
  | .vec s => s.SelfDelimiting
  | .array _ s => s.SelfDelimiting
  | .cons a b => (a.SelfDelimiting ∧ b.LastOnly) ∨ (a.LastOnly ∧ b = .unit)
  | .enum n f => n ≤ 2 ^ 32 ∧ ∀ i, (f i).LastOnly
  | _ => True

/-- Every vector in the payload has a length that fits a `usize`; true of every Rust value. -/
def Kind.Fits : (k : Kind) → k.Ty → Prop
  | .derived s, v => s.Fits (Derived.val v)
  | _, _ => True

/-- The type has no trailing `RawEnd`: something can follow it in a packet. -/
def Kind.SelfDelimiting : Kind → Prop
  | .introRequest => False
  | .introResponse => False
  | .derived s => s.SelfDelimiting
  | _ => True

/-- A payload that may be the last one of a packet: `RawEnd` at most at its very end.  An introduction
response carries no `tunnel` flag on the wire, so the flag must be off. -/
def Kind.CanBeLast : (k : Kind) → k.Ty → Prop
  | .introResponse, v => IntroductionResponsePayload.tunnel v = false
  | .derived s, _ => s.LastOnly
  | _, _ => True

/-! ## Messages -/

/-- A payload of any type. -/
abbrev AnyPayload := (k : Kind) × k.Ty

/-- `add` payload after payload; the first failure ends it. -/
def addAll : Packet → List AnyPayload → Outcome Packet
  | p, [] => .ok p
  | p, ⟨_, v⟩ :: vs =>
    match p.add v with
    | (.ok (), q) => addAll q vs
    | (.err e, _) => .err e
    | (.panic, _) => .panic

/-- `next_payload` with one type after the other; the first failure ends it. -/
def readAll : PacketDeserializer → List Kind → Outcome (List AnyPayload × PacketDeserializer)
  | d, [] => .ok ([], d)
  | d, k :: ks =>
    match d.nextPayload k.Ty with
    | (.ok v, d') =>
      match readAll d' ks with
      | .ok (vs, d'') => .ok (⟨k, v⟩ :: vs, d'')
      | .err e => .err e
      | .panic => .panic
    | (.err e, _) => .err e
    | (.panic, _) => .panic

/-! ## Histories of calls on a deserializer -/

/-- The calls a user can make on a `PacketDeserializer`. -/
inductive ReadCall
  | peekHeader
  | popHeader
  | skipHeader
  | next (k : Kind)
  | verify
  | verifyWith (pkey : Ed25519PublicKey)

/-- Make one call and ignore the value it returns.  `none`: the deserializer is gone, because
`skip_header` takes it by value and failed.  Other errors leave it usable. -/
def ReadCall.run (R : Ring) (d : PacketDeserializer) : ReadCall → Outcome (Option PacketDeserializer)
  | .peekHeader => keep d.peekHeader d
  | .popHeader => keep d.popHeader.1 d.popHeader.2
  | .skipHeader =>
    match d.skipHeader with
    | .ok d' => .ok (some d')
    | .err _ => .ok none
    | .panic => .panic
  | .next k => keep (d.nextPayload k.Ty).1 (d.nextPayload k.Ty).2
  | .verify => keep (d.verify R).1 (d.verify R).2
  | .verifyWith pkey => keep (d.verifyWith R pkey).1 (d.verifyWith R pkey).2
where
  /-- Continue with `d'` unless the call panicked. -/
  keep {α : Type} (o : Outcome α) (d' : PacketDeserializer) : Outcome (Option PacketDeserializer) :=
    match o with
    | .panic => .panic
    | _ => .ok (some d')

/-- Make the calls one after the other. -/
def runCalls (R : Ring) : List ReadCall → PacketDeserializer → Outcome (Option PacketDeserializer)
  | [], d => .ok (some d)
  | c :: cs, d =>
    match c.run R d with
    | .ok (some d') => runCalls R cs d'
    | .ok none => .ok none
    | .err e => .err e
    | .panic => .panic

/-- A call that only reads, and not an authentication payload. -/
def ReadCall.PlainRead : ReadCall → Prop
  | .next .auth => False
  | .verify => False
  | .verifyWith _ => False
  | _ => True

end Ipv8
