import Verif.Props.Relay
/-!
# C57: byte orders

The crate uses bincode in big-endian order; all its types are public and `bincode::serialize` without
further configuration is little-endian (the unit tests of `bits.rs` and `address.rs` use it).
-/

namespace Ipv8
open PacketDeserializer Spec

theorem Derived.serialize_eq' {s : Sch} {e : Endian} {v : Derived s} {w : Bytes}
    (h : Bincode.serialize e v = .ok w) : ∃ ts, s.ser v.val = .ok ts ∧ w = flat e ts := by
  rw [Bincode.serialize_eq_ok] at h
  exact h

theorem Kind.readBackE (e : Endian) : (k : Kind) → k.SelfDelimiting → ∀ (v : k.Ty) (w : Bytes),
    k.Fits v → Bincode.serialize e v = .ok w → w.length ≤ usizeMax →
    ∀ rest, (Deserialize.de e : De k.Ty) (w ++ rest) = .ok (v, rest)
  | .varlen16, _, v, w, _, h, hl => VarLen16.canonical.roundTrip e v w h hl
  | .varlen32, _, v, w, _, h, hl => VarLen32.canonical.roundTrip e v w h hl
  | .varlen64, _, v, w, _, h, hl => VarLen64.roundTrip e v w h hl
  | .nested, _, v, w, _, h, hl => NestedPacket.canonical.roundTrip e v w h hl
  | .time, _, v, w, _, h, hl => TimeDistributionPayload.canonical.roundTrip e v w h hl
  | .puncture, _, v, w, _, h, hl => PuncturePayload.canonical.roundTrip e v w h hl
  | .punctureRequest, _, v, w, _, h, hl => PunctureRequestPayload.canonical.roundTrip e v w h hl
  | .auth, _, v, w, _, h, hl => BinMemberAuthenticationPayload.roundTrip e v w h hl
  | .introRequest, hs, _, _, _, _, _ => absurd hs id
  | .introResponse, hs, _, _, _, _, _ => absurd hs id
  | .derived s, hs, v, w, hf, h, _ => by
    intro rest
    obtain ⟨ts, h1, rfl⟩ := Derived.serialize_eq' (v := v) h
    exact Derived.de_eq_ok.mpr (Sch.roundtrip e s hs v.val ts rest hf h1)

theorem IntroductionRequestPayload.readBack_lastE (e : Endian) (v : IntroductionRequestPayload)
    (w : Bytes) (h : Bincode.serialize e v = .ok w) (hl : w.length ≤ usizeMax) :
    (Deserialize.de e : De IntroductionRequestPayload) w = .ok (v, []) := by
  simp only [IntroductionRequestPayload.ser_eq, Outcome.bind_eq_ok, Outcome.pure_eq,
    Outcome.ok.injEq] at h
  obtain ⟨a, ha, b, hb, c, hc, rfl⟩ := h
  rw [IntroductionRequestPayload.de_eq_ok]
  have hf : reqFlags v = Spec.requestFlags v.connectionType v.advice := reqFlags_eq v
  refine ⟨_, _, _, v.extraBytes.data, reqFlags v, ha, hb, hc, ?_, ?_, ?_, rfl⟩
  · rw [hf]; exact (flags_decode _ _).2.symm
  · rw [hf]; exact (flags_decode _ _).1.symm
  · apply RawEnd.de_eq
    simp at hl
    omega

theorem IntroductionResponsePayload.readBack_lastE (e : Endian) (v : IntroductionResponsePayload)
    (w : Bytes) (ht : v.tunnel = false)
    (h : Bincode.serialize e v = .ok w) (hl : w.length ≤ usizeMax) :
    (Deserialize.de e : De IntroductionResponsePayload) w = .ok (v, []) := by
  simp only [IntroductionResponsePayload.ser_eq, Outcome.bind_eq_ok, Outcome.pure_eq,
    Outcome.ok.injEq] at h
  obtain ⟨a, ha, b, hb, c, hc, d, hd, f, hf, rfl⟩ := h
  rw [IntroductionResponsePayload.de_eq_ok]
  have hq := flags_decode v.connectionType false
  have : Spec.requestFlags v.connectionType false = respFlags v := by
    rw [respFlags_eq]; cases v.connectionType <;> rfl
  rw [this] at hq
  refine ⟨_, _, _, _, _, v.extraBytes.data, respFlags v, ha, hb, hc, hd, hf, ht, hq.1.symm, ?_, rfl⟩
  apply RawEnd.de_eq
  simp at hl
  omega

theorem Bincode.deserialize_of_de {α : Type} [Deserialize α] {e : Endian} {s r : Bytes} {v : α}
    (h : (Deserialize.de e : De α) s = .ok (v, r)) : Bincode.deserialize e s = .ok v := by
  simp [Bincode.deserialize, h]

/-- C57. Every self-delimiting payload written with bincode in either byte order reads back in that byte
order, whatever follows it. -/
theorem C57 (e : Endian) (k : Kind) (hk : k.SelfDelimiting) (v : k.Ty) (hf : k.Fits v) (w : Bytes)
    (h : Bincode.serialize e v = .ok w) (hl : w.length ≤ usizeMax) (rest : Bytes) :
    Bincode.deserialize e (w ++ rest) = .ok v :=
  Bincode.deserialize_of_de (Kind.readBackE e k hk v w hf h hl rest)

/-- C57. The others read back when nothing follows. -/
theorem C57_last (e : Endian) (k : Kind) (v : k.Ty) (hk : k.CanBeLast v) (hf : k.Fits v) (w : Bytes)
    (h : Bincode.serialize e v = .ok w) (hl : w.length ≤ usizeMax) :
    Bincode.deserialize e w = .ok v := by
  cases k with
  | introRequest =>
    exact Bincode.deserialize_of_de (IntroductionRequestPayload.readBack_lastE e v w h hl)
  | introResponse =>
    exact Bincode.deserialize_of_de (IntroductionResponsePayload.readBack_lastE e v w hk h hl)
  | derived s =>
    obtain ⟨ts, h1, rfl⟩ := Derived.serialize_eq' (v := v) h
    exact Bincode.deserialize_of_de
      (Derived.de_eq_ok.mpr (Sch.roundtrip_last e s hk v.val ts hf h1 hl))
  | varlen16 => simpa using C57 e .varlen16 trivial v hf w h hl []
  | varlen32 => simpa using C57 e .varlen32 trivial v hf w h hl []
  | varlen64 => simpa using C57 e .varlen64 trivial v hf w h hl []
  | nested => simpa using C57 e .nested trivial v hf w h hl []
  | time => simpa using C57 e .time trivial v hf w h hl []
  | puncture => simpa using C57 e .puncture trivial v hf w h hl []
  | punctureRequest => simpa using C57 e .punctureRequest trivial v hf w h hl []
  | auth => simpa using C57 e .auth trivial v hf w h hl []

/-- C57. Whether a value can be written, and how long it gets, does not depend on the byte order. -/
theorem C57_same_length {α : Type} [Serialize α] (v : α) (n : Nat) :
    (∃ w, Bincode.serialize .big v = .ok w ∧ w.length = n) ↔
      (∃ w, Bincode.serialize .little v = .ok w ∧ w.length = n) := by
  simp only [Bincode.serialize_eq_ok]
  constructor
  · rintro ⟨_, ⟨ts, h, rfl⟩, rfl⟩
    exact ⟨_, ⟨ts, h, rfl⟩, by rw [flatMap_bytes_length, flatMap_bytes_length]⟩
  · rintro ⟨_, ⟨ts, h, rfl⟩, rfl⟩
    exact ⟨_, ⟨ts, h, rfl⟩, by rw [flatMap_bytes_length, flatMap_bytes_length]⟩

/-- C57. The little-endian form of an address: the octets in order, then the port low byte first
(the byte string the unit test in `address.rs` expects). -/
theorem C57_address (a b c d : UInt8) (port : UInt16) :
    Bincode.serialize .little (Address.mk (.v4 a b c d port)) =
      .ok [a, b, c, d, UInt8.ofNat port.toNat, UInt8.ofNat (port.toNat / 256)] := by
  simp [Bincode.serialize, Serialize.ser, Tok.bytes, intBytes, leBytes]

/-- C57, the exception: a header written in little-endian order is not readable in any byte order. -/
theorem C57_header (h : Header) (w : Bytes) (hw : Bincode.serialize .little h = .ok w) (e : Endian)
    (rest : Bytes) : (Bincode.deserialize e (w ++ rest) : Outcome Header).isErr = true := by
  have hshape : ∃ t, w = 2 :: 0 :: t := by
    rw [Bincode.serialize_eq_ok] at hw
    obtain ⟨ts, h1, rfl⟩ := hw
    obtain ⟨size, version, mid, ty⟩ := h
    cases version
    cases mid with
    | none => simp [Serialize.ser, Outcome.ofOption] at h1
    | some mid =>
      cases ty with
      | none => simp [Serialize.ser, Outcome.ofOption] at h1
      | some ty =>
        simp only [Serialize.ser, Outcome.ofOption, Outcome.bind_eq_ok, Outcome.pure_eq,
          Outcome.ok.injEq] at h1
        obtain ⟨_, rfl, _, rfl, rfl⟩ := h1
        exact ⟨_, rfl⟩
  obtain ⟨t, rfl⟩ := hshape
  have : (Deserialize.de e : De Header) (2 :: 0 :: t ++ rest) = .err noValidHeader := rfl
  simp only [Bincode.deserialize, this, Outcome.isErr]

/-- Headers can be written in little-endian order. -/
example : Bincode.serialize .little (Header.pyIpv8Header (FixedBytes.replicate 20 7) 9) =
    .ok ([2, 0] ++ List.replicate 20 7 ++ [9]) := by decide

example : ∃ w, Bincode.serialize .little
    (show Kind.Ty .introRequest from ⟨⟨.v4 1 2 3 4 5⟩, ⟨.v4 6 7 8 9 10⟩, ⟨.v4 11 12 13 14 15⟩,
      true, .PUBLIC, 0x1234, ⟨[42]⟩⟩) = .ok w ∧ w.length = 22 := ⟨_, rfl, rfl⟩

/-! ## Cases for the theorems above -/

/-- `C57_last`: a user-defined payload that ends in raw bytes, in either order. -/
example : Bincode.deserialize .little [2, 1, 7, 8, 9] =
    .ok (show Kind.Ty (.derived (.cons .u16 (.cons .rawEnd .unit))) from ⟨(258, ⟨[7, 8, 9]⟩, ())⟩) :=
  C57_last .little (.derived (.cons .u16 (.cons .rawEnd .unit))) ⟨(258, ⟨[7, 8, 9]⟩, ())⟩
    (by simp [Kind.CanBeLast, Sch.LastOnly, Sch.SelfDelimiting]) (by simp [Kind.Fits, Sch.Fits, usizeMax]) [2, 1, 7, 8, 9] (by decide +kernel)
    (by decide)

/-- `C57`, `C57_header`: a struct of two numbers and a header, little-endian. -/
example := C57 .little (.derived (.cons .u16 (.cons .u32 .unit))) (by simp [Kind.SelfDelimiting, Sch.SelfDelimiting])
  ⟨(258, 3, ())⟩ (by simp [Kind.Fits, Sch.Fits]) [2, 1, 3, 0, 0, 0] (by decide +kernel) (by decide) [7]
example := C57_header (Header.pyIpv8Header (FixedBytes.replicate 20 7) 9) _ rfl .little [1]

end Ipv8
