import Verif.Lemmas.Reader
/-!
# Properties C01 – C09: building blocks
-/

namespace Ipv8
open Spec PacketDeserializer

/-! ## C01: bits -/

/-- C01. Every byte survives `from_u8` and `to_u8`. -/
theorem C01_byte_roundtrip (b : UInt8) : (Bits.fromU8 b).toU8 = b := Bits.fromU8_toU8 b

/-- C01. Every `Bits` value survives `to_u8` and `from_u8`. -/
theorem C01_bits_roundtrip (x : Bits) : Bits.fromU8 x.toU8 = x := Bits.toU8_fromU8 x

/-- C01. Field `bit<i>` of `from_u8(b)` is the `2^i` bit of `b`. -/
theorem C01_bit_positions (b : UInt8) :
    (Bits.fromU8 b).bit0 = bit b 0 ∧ (Bits.fromU8 b).bit1 = bit b 1 ∧
    (Bits.fromU8 b).bit2 = bit b 2 ∧ (Bits.fromU8 b).bit3 = bit b 3 ∧
    (Bits.fromU8 b).bit4 = bit b 4 ∧ (Bits.fromU8 b).bit5 = bit b 5 ∧
    (Bits.fromU8 b).bit6 = bit b 6 ∧ (Bits.fromU8 b).bit7 = bit b 7 := by
  have h : ∀ n : Fin 256,
    (Bits.fromU8 ⟨⟨n⟩⟩).bit0 = bit ⟨⟨n⟩⟩ 0 ∧ (Bits.fromU8 ⟨⟨n⟩⟩).bit1 = bit ⟨⟨n⟩⟩ 1 ∧
    (Bits.fromU8 ⟨⟨n⟩⟩).bit2 = bit ⟨⟨n⟩⟩ 2 ∧ (Bits.fromU8 ⟨⟨n⟩⟩).bit3 = bit ⟨⟨n⟩⟩ 3 ∧
    (Bits.fromU8 ⟨⟨n⟩⟩).bit4 = bit ⟨⟨n⟩⟩ 4 ∧ (Bits.fromU8 ⟨⟨n⟩⟩).bit5 = bit ⟨⟨n⟩⟩ 5 ∧
    (Bits.fromU8 ⟨⟨n⟩⟩).bit6 = bit ⟨⟨n⟩⟩ 6 ∧ (Bits.fromU8 ⟨⟨n⟩⟩).bit7 = bit ⟨⟨n⟩⟩ 7 := by
    decide +kernel
  exact h b.toBitVec.toFin

/-- C01. `to_u8` is the binary number written by the eight fields, `bit7` being the highest digit;
`from_bools` puts its arguments in that order and `new` is zero. -/
theorem C01_value (b0 b1 b2 b3 b4 b5 b6 b7 : Bool) :
    (Bits.fromBools b0 b1 b2 b3 b4 b5 b6 b7).toU8.toNat =
      b0.toNat + 2 * b1.toNat + 4 * b2.toNat + 8 * b3.toNat + 16 * b4.toNat + 32 * b5.toNat +
        64 * b6.toNat + 128 * b7.toNat ∧ Bits.new.toU8 = 0 := by
  cases b0 <;> cases b1 <;> cases b2 <;> cases b3 <;> cases b4 <;> cases b5 <;> cases b6 <;>
    cases b7 <;> exact ⟨rfl, rfl⟩

/-- C01. On the wire a `Bits` value is that one byte, in either byte order, and reads back. -/
theorem C01_wire (e : Endian) (x : Bits) (rest : Bytes) :
    Bincode.serialize e x = .ok [x.toU8] ∧
      (Bincode.deserialize e (x.toU8 :: rest) : Outcome Bits) = .ok x := by
  constructor
  · simp [Bincode.serialize, Serialize.ser, Tok.bytes]
  · simp [Bincode.deserialize, Bits.de_eq_ok.mpr (rfl : x.toU8 :: rest = x.toU8 :: rest)]

example : (Bits.fromU8 0b10100110).toU8 = 0b10100110 ∧ (Bits.fromU8 0b10100110).bit1 = true ∧
    (Bits.fromU8 0b10100110).bit0 = false := by decide

/-! ## C02: connection type -/

/-- C02. Decoding inverts encoding. -/
theorem C02_roundtrip (t : ConnectionType) : ConnectionType.decode t.encode = t :=
  ConnectionType.decode_encode t

/-- C02. What every pair of flag bits means; in particular `(false, true)` is `UNKNOWN`. -/
theorem C02_decode (b0 b1 : Bool) :
    ConnectionType.decode (b0, b1) = connectionOf b0 b1 := by
  cases b0 <;> cases b1 <;> rfl

/-- C02. Different connection types have different encodings, which are the documented ones. -/
theorem C02_encode_injective (t u : ConnectionType) (h : t.encode = u.encode) : t = u := by
  rw [← C02_roundtrip t, h, C02_roundtrip]

theorem C02_encode_bits (t : ConnectionType) :
    t.encode = (bit (connectionBits t) 0, bit (connectionBits t) 1) := by
  cases t <;> rfl

example : ConnectionType.decode ConnectionType.SYMMETRICNAT.encode = .SYMMETRICNAT := by decide

/-! ## C03: VarLen16 -/

/-- C03. A `VarLen16` of at most 65535 bytes is written as a big-endian `u16` length and the bytes. -/
theorem C03_wire (v : VarLen16) (h : v.data.length ≤ 65535) :
    Writes v (be16 v.data.length ++ v.data) := by
  apply writes_of_serialize
  rw [VarLen16.ser_eq_ok, be16_eq]
  exact ⟨by omega, rfl⟩

/-- C03. … and reads back, leaving the cursor just behind it. -/
theorem C03_read (v : VarLen16) (h : v.data.length ≤ 65535) :
    ReadsAs (be16 v.data.length ++ v.data) v :=
  readsAs_of_roundTrip VarLen16.canonical.roundTrip (serialize_of_writes (C03_wire v h))

example : (VarLen16.mk (List.replicate 65535 7)).data.length ≤ 65535 :=
  Nat.le_of_eq List.length_replicate
example : (⟨[9]⟩ : Packet).add (VarLen16.mk [1, 2, 3]) = (.ok (), ⟨[9, 0, 3, 1, 2, 3]⟩) := by decide

/-! ## C04: limits -/

/-- C04. Adding a `VarLen16` fails exactly above 65535 bytes, without touching the packet. -/
theorem C04_varlen16 (p : Packet) (v : VarLen16) :
    ((p.add v).1.isErr = true ↔ v.data.length > 65535) ∧
    ((p.add v).1.isOk = true ↔ v.data.length ≤ 65535) ∧
    (v.data.length > 65535 → (p.add v).2 = p) := by
  by_cases h : v.data.length ≤ 65535
  · have h1 := C03_wire v h p
    rw [h1]
    simp [Outcome.isErr, Outcome.isOk]; omega
  · have h1 : v.data.length > 65535 := by omega
    have h2 : (Bincode.serialize .big v).isErr = true := by
      simp [Bincode.serialize, Serialize.ser, h1, Outcome.isErr]
    have h3 := refused_of_err h2 p
    refine ⟨by simp [h3.1, h1], ?_, fun _ => h3.2⟩
    have : (p.add v).1.isOk = false := by
      revert h3; cases (p.add v).1 <;> simp [Outcome.isErr, Outcome.isOk]
    simp [this, h1]

/-- C04. Adding a `VarLen32` fails exactly above 4294967295 bytes, without touching the packet. -/
theorem C04_varlen32 (p : Packet) (v : VarLen32) :
    ((p.add v).1.isErr = true ↔ v.data.length > 4294967295) ∧
    ((p.add v).1.isOk = true ↔ v.data.length ≤ 4294967295) ∧
    (v.data.length > 4294967295 → (p.add v).2 = p) := by
  by_cases h : v.data.length ≤ 4294967295
  · have hs : Bincode.serialize .big v = .ok (intBytes .big 4 v.data.length ++ v.data) :=
      VarLen32.ser_eq_ok.mpr ⟨by omega, rfl⟩
    have h1 := writes_of_serialize hs p
    rw [h1]
    simp [Outcome.isErr, Outcome.isOk]; omega
  · have h1 : v.data.length > 4294967295 := by omega
    have h2 : (Bincode.serialize .big v).isErr = true := by
      simp [Bincode.serialize, Serialize.ser, h1, Outcome.isErr]
    have h3 := refused_of_err h2 p
    refine ⟨by simp [h3.1, h1], ?_, fun _ => h3.2⟩
    have : (p.add v).1.isOk = false := by
      revert h3; cases (p.add v).1 <;> simp [Outcome.isErr, Outcome.isOk]
    simp [this, h1]

/-- C04. A `VarLen64` is never refused. -/
theorem C04_varlen64 (p : Packet) (v : VarLen64) : (p.add v).1 = .ok () := by
  simp [Packet.add, Bincode.serialize, Serialize.ser, serVec]

example : (VarLen16.mk (List.replicate 65536 0)).data.length > 65535 :=
  Nat.lt_of_lt_of_eq (Nat.lt_succ_self 65535) List.length_replicate.symm

/-! ## C05: VarLen32 and VarLen64 -/

/-- C05. A `VarLen32` is written as a big-endian `u32` length and the bytes … -/
theorem C05_wire32 (v : VarLen32) (h : v.data.length ≤ 4294967295) :
    Writes v (be32 v.data.length ++ v.data) := by
  apply writes_of_serialize
  rw [VarLen32.ser_eq_ok, be32_eq]
  exact ⟨by omega, rfl⟩

/-- C05. … and reads back. -/
theorem C05_read32 (v : VarLen32) (h : v.data.length ≤ 4294967295) :
    ReadsAs (be32 v.data.length ++ v.data) v :=
  readsAs_of_roundTrip VarLen32.canonical.roundTrip (serialize_of_writes (C05_wire32 v h))

/-- C05. A `VarLen64` is written as a big-endian `u64` length and the bytes … (a Rust vector is never
longer than the address space) -/
theorem C05_wire64 (v : VarLen64) (h : v.data.length ≤ usizeMax) :
    Writes v (be64 v.data.length ++ v.data) := by
  apply writes_of_serialize
  rw [VarLen64.ser_eq (by simp [usizeMax] at h; omega), be64_eq]

/-- C05. … and reads back. -/
theorem C05_read64 (v : VarLen64) (h : v.data.length ≤ usizeMax) :
    ReadsAs (be64 v.data.length ++ v.data) v :=
  readsAs_of_roundTrip VarLen64.roundTrip (serialize_of_writes (C05_wire64 v h))

example : (⟨[]⟩ : Packet).add (VarLen64.mk [5, 6]) =
    (.ok (), ⟨[0, 0, 0, 0, 0, 0, 0, 2, 5, 6]⟩) := by decide

/-! ## C06: decoding arbitrary bytes -/

/-- C06. Outcome of reading a length-prefixed byte string with a `k`-byte prefix at the cursor: an
error when prefix or content is cut short, otherwise exactly the announced bytes. -/
def LengthPrefixed {α : Type} [Ipv8Payload α] [Serialize α] [Deserialize α] (k : Nat)
    (mk : Bytes → α) : Prop :=
  ∀ (s : Bytes) (i : Nat), i ≤ s.length →
    let rest := s.drop i
    let n := fromBE (rest.take k)
    (rest.length < k ∨ rest.length < k + n →
      (nextPayload α ⟨⟨s⟩, i⟩).1.isErr = true ∧ (nextPayload α ⟨⟨s⟩, i⟩).2 = ⟨⟨s⟩, i⟩) ∧
    (k + n ≤ rest.length →
      nextPayload α ⟨⟨s⟩, i⟩ = (.ok (mk ((rest.drop k).take n)), ⟨⟨s⟩, i + k + n⟩))

/-- Shared proof of C06. -/
theorem lengthPrefixed {α : Type} [Ipv8Payload α] [Serialize α] [Deserialize α] (k : Nat)
    (mk : Bytes → α) (data : α → Bytes) (hd : ∀ l, data (mk l) = l)
    (hok : ∀ r r' (v : α), (Deserialize.de .big : De α) r = .ok (v, r') ↔
      (data v).length < 256 ^ k ∧ r = intBytes .big k (data v).length ++ (data v ++ r'))
    (hnp : ∀ r, (Deserialize.de .big : De α) r ≠ .panic)
    (hs : ∀ v, (data v).length < 256 ^ k → Bincode.serializedSize v = .ok (k + (data v).length)) :
    LengthPrefixed (α := α) k mk := by
  intro s i hi rest n
  constructor
  · intro h
    have herr : ∀ x, (Deserialize.de .big : De α) rest ≠ .ok x := by
      rintro ⟨v, r'⟩ hx
      rw [hok] at hx
      obtain ⟨hl, hr⟩ := hx
      have h1 : rest.take k = intBytes .big k (data v).length := by
        rw [hr, List.take_append_of_le_length (by simp), List.take_of_length_le (by simp)]
      have h2 : n = (data v).length := by
        simp only [n, fromBE_eq]
        rw [h1, ofInt_intBytes, Nat.mod_eq_of_lt hl]
      have h3 : rest.length = k + ((data v).length + r'.length) := by rw [hr]; simp
      omega
    cases hx : (Deserialize.de .big : De α) rest with
    | ok x => exact absurd hx (herr x)
    | panic => exact absurd hx (hnp _)
    | err e =>
      rw [nextPayload_of_err (d := ⟨⟨s⟩, i⟩) hi hx]
      exact ⟨rfl, rfl⟩
  · intro h
    have h1 : rest = rest.take k ++ ((rest.drop k).take n ++ (rest.drop k).drop n) := by
      rw [List.take_append_drop, List.take_append_drop]
    have hk : (rest.take k).length = k := by simp; omega
    have h2 : ((rest.drop k).take n).length = n := by simp; omega
    have h3 : n < 256 ^ k := by
      have := ofInt_lt .big (rest.take k)
      rw [hk] at this
      simpa only [n, fromBE_eq] using this
    have h4 : intBytes .big k n = rest.take k := by
      have := intBytes_ofInt .big (rest.take k)
      rw [hk] at this
      simpa only [n, fromBE_eq] using this
    have h5 : (Deserialize.de .big : De α) rest =
        .ok (mk ((rest.drop k).take n), (rest.drop k).drop n) := by
      rw [hok, hd, h2, h4]
      exact ⟨h3, h1⟩
    have h6 := hs (mk ((rest.drop k).take n)) (by rw [hd, h2]; exact h3)
    rw [hd, h2] at h6
    rw [nextPayload_of_de (d := ⟨⟨s⟩, i⟩) hi h5 h6]
    simp only [Nat.add_assoc]

/-- C06 for `VarLen16`. -/
theorem C06_varlen16 : LengthPrefixed 2 VarLen16.mk :=
  lengthPrefixed 2 VarLen16.mk VarLen16.data (fun _ => rfl)
    (fun _ _ _ => VarLen16.de_eq_ok) (VarLen16.canonical.noPanic .big)
    (fun v h => by
      have := Bincode.size_of_serialize (e := .big) (VarLen16.ser_eq_ok.mpr ⟨h, rfl⟩ :
        Bincode.serialize .big v = _)
      simpa using this)

/-- C06 for `VarLen32`. -/
theorem C06_varlen32 : LengthPrefixed 4 VarLen32.mk :=
  lengthPrefixed 4 VarLen32.mk VarLen32.data (fun _ => rfl)
    (fun _ _ _ => VarLen32.de_eq_ok) (VarLen32.canonical.noPanic .big)
    (fun v h => by
      have := Bincode.size_of_serialize (e := .big) (VarLen32.ser_eq_ok.mpr ⟨h, rfl⟩ :
        Bincode.serialize .big v = _)
      simpa using this)

/-- C06 for `VarLen64`. -/
theorem C06_varlen64 : LengthPrefixed 8 VarLen64.mk :=
  lengthPrefixed 8 VarLen64.mk VarLen64.data (fun _ => rfl)
    (fun _ _ _ => VarLen64.de_eq_ok) (VarLen64.sizeExact.noPanic .big)
    (fun v h => by
      have := Bincode.size_of_serialize (e := .big) (VarLen64.ser_eq (e := .big) (v := v) h)
      simpa using this)

-- a hostile prefix (255) in front of three bytes is an error, a correct one is not
example : (nextPayload VarLen16 ⟨⟨[0, 255, 1, 2, 3]⟩, 0⟩).1 = .err .eof := by decide
example : (nextPayload VarLen16 ⟨⟨[9, 0, 2, 1, 2, 3]⟩, 1⟩) =
    (.ok ⟨[1, 2]⟩, ⟨⟨[9, 0, 2, 1, 2, 3]⟩, 5⟩) := by decide

/-! ## C07: RawEnd -/

/-- C07. Reading `RawEnd` succeeds on any bytes and captures all of them. -/
theorem C07_read (e : Endian) (s : Bytes) (h : s.length ≤ usizeMax) :
    (Bincode.deserialize e s : Outcome RawEnd) = .ok ⟨s⟩ := by
  simp [Bincode.deserialize, RawEnd.de_eq e h]

/-- C07. Writing `RawEnd` writes its bytes and nothing else. -/
theorem C07_write (e : Endian) (v : RawEnd) : Bincode.serialize e v = .ok v.data :=
  RawEnd.ser_eq e v

example : ([1, 2, 3] : Bytes).length ≤ usizeMax := by decide

/-! ## C08: IPv4 addresses -/

/-- C08. An IPv4 address is four octets and the big-endian port, and reads back from any buffer that
starts with them. -/
theorem C08_roundtrip (a b c d : UInt8) (port : UInt16) (rest : Bytes) :
    Bincode.serialize .big (Address.mk (.v4 a b c d port)) =
      .ok ([a, b, c, d] ++ be16 port.toNat) ∧
    (Bincode.deserialize .big ([a, b, c, d] ++ be16 port.toNat ++ rest) : Outcome Address) =
      .ok ⟨.v4 a b c d port⟩ := by
  constructor
  · rw [Address.ser_eq_ok]
    exact ⟨a, b, c, d, port, rfl, by simp [Tok.bytes, be16_eq]⟩
  · have h : (Deserialize.de .big : De Address) ([a, b, c, d] ++ be16 port.toNat ++ rest) =
        .ok (⟨.v4 a b c d port⟩, rest) := by
      rw [Address.de_eq_ok]
      exact ⟨a, b, c, d, port, rfl, by simp [Tok.bytes, be16_eq]⟩
    simp only [Bincode.deserialize, h]

/-- C08. Any six bytes are an address: reading succeeds exactly on six bytes or more, the result is an
IPv4 address, and its encoding is the six bytes read. -/
theorem C08_any_six_bytes (s : Bytes) :
    (s.length < 6 → (Bincode.deserialize .big s : Outcome Address).isErr = true) ∧
    (6 ≤ s.length → ∃ x : Address, Bincode.deserialize .big s = .ok x ∧ isV4 x = true ∧
      Bincode.serialize .big x = .ok (s.take 6)) := by
  constructor
  · intro h
    apply Outcome.isErr_of_ne
    · have := Address.canonical.noPanic .big s
      unfold Bincode.deserialize
      cases hx : (Deserialize.de .big : De Address) s <;> simp_all
    · intro x
      unfold Bincode.deserialize
      cases hx : (Deserialize.de .big : De Address) s with
      | ok y =>
        obtain ⟨v, r'⟩ := y
        rw [Address.de_eq_ok] at hx
        obtain ⟨_, _, _, _, _, _, rfl⟩ := hx
        simp [Tok.size] at h
        omega
      | err => simp
      | panic => simp
  · intro h
    match s, h with
    | a :: b :: c :: d :: x :: y :: r, _ =>
      have h0 : intBytes .big 2 (ofInt .big [x, y]) = [x, y] := intBytes_ofInt .big [x, y]
      have hlt := ofInt_lt .big [x, y]
      simp only [List.length_cons, List.length_nil, Nat.reduceAdd, Nat.reducePow] at hlt
      have hn : (UInt16.ofNat (ofInt .big [x, y])).toNat = ofInt .big [x, y] := by
        rw [UInt16.toNat_ofNat']; omega
      have hd : (Deserialize.de .big : De Address) (a :: b :: c :: d :: x :: y :: r) =
          .ok (⟨.v4 a b c d (UInt16.ofNat (ofInt .big [x, y]))⟩, r) := by
        rw [Address.de_eq_ok]
        refine ⟨a, b, c, d, _, rfl, ?_⟩
        simp [Tok.bytes, hn, h0]
      refine ⟨_, by simp only [Bincode.deserialize, hd]; rfl, rfl, ?_⟩
      rw [Address.ser_eq_ok]
      exact ⟨a, b, c, d, _, rfl, by simp [Tok.bytes, hn, h0]⟩

/-- C08. IPv6 addresses have no encoding. -/
theorem C08_ipv6 (e : Endian) (ip : FixedBytes 16) (port : UInt16) (fl sc : UInt32) :
    (Bincode.serialize e (Address.mk (.v6 ip port fl sc))).isErr = true := rfl

example : Bincode.serialize .big (Address.mk (.v4 127 0 0 1 8000)) = .ok [127, 0, 0, 1, 31, 64] := by
  decide

/-! ## C09: IPv6 is refused, IPv4 is not -/

theorem serialize_address (a : Address) (h : isV4 a = true) :
    Bincode.serialize .big a = .ok (addressBytes a) := by
  rcases a with ⟨⟨a, b, c, d, port⟩ | ⟨ip, port, fl, sc⟩⟩
  · exact (C08_roundtrip a b c d port []).1
  · simp [isV4] at h

theorem serialize_address_v6 (a : Address) (h : isV4 a = false) :
    Bincode.serialize .big a = .err (.custom "ip-v8 does not (yet) support ipv6") := by
  rcases a with ⟨⟨a, b, c, d, port⟩ | ⟨ip, port, fl, sc⟩⟩
  · simp [isV4] at h
  · rfl

/-- C09. Puncture: refused (packet unchanged) exactly when one of the addresses is IPv6, else added. -/
theorem C09_puncture (v : PuncturePayload) :
    ((∃ a ∈ addressesP v, isV4 a = false) → Refused v) ∧
    ((∀ a ∈ addressesP v, isV4 a = true) → ∃ w, Writes v w) := by
  constructor
  · intro h
    apply refused_of_err
    rw [PuncturePayload.ser_eq]
    cases h1 : isV4 v.lanWalkerAddress <;> cases h2 : isV4 v.wanWalkerAddress <;>
      simp_all [addressesP, serialize_address, serialize_address_v6, Outcome.isErr]
  · intro h
    simp only [addressesP, List.mem_cons, List.not_mem_nil, or_false, forall_eq_or_imp, forall_eq] at h
    exact ⟨_, writes_of_serialize (by
      rw [PuncturePayload.ser_eq, serialize_address _ h.1, serialize_address _ h.2]; rfl)⟩

/-- C09. Puncture request. -/
theorem C09_puncture_request (v : PunctureRequestPayload) :
    ((∃ a ∈ addressesPR v, isV4 a = false) → Refused v) ∧
    ((∀ a ∈ addressesPR v, isV4 a = true) → ∃ w, Writes v w) := by
  constructor
  · intro h
    apply refused_of_err
    rw [PunctureRequestPayload.ser_eq]
    cases h1 : isV4 v.lanWalkerAddress <;> cases h2 : isV4 v.wanWalkerAddress <;>
      simp_all [addressesPR, serialize_address, serialize_address_v6, Outcome.isErr]
  · intro h
    simp only [addressesPR, List.mem_cons, List.not_mem_nil, or_false, forall_eq_or_imp, forall_eq] at h
    exact ⟨_, writes_of_serialize (by
      rw [PunctureRequestPayload.ser_eq, serialize_address _ h.1, serialize_address _ h.2]; rfl)⟩

/-- C09. Introduction request. -/
theorem C09_introduction_request (v : IntroductionRequestPayload) :
    ((∃ a ∈ addressesIReq v, isV4 a = false) → Refused v) ∧
    ((∀ a ∈ addressesIReq v, isV4 a = true) → ∃ w, Writes v w) := by
  constructor
  · intro h
    apply refused_of_err
    rw [IntroductionRequestPayload.ser_eq]
    cases h1 : isV4 v.destinationAddress <;> cases h2 : isV4 v.sourceLanAddress <;>
    cases h3 : isV4 v.sourceWanAddress <;>
      simp_all [addressesIReq, serialize_address, serialize_address_v6, Outcome.isErr]
  · intro h
    simp only [addressesIReq, List.mem_cons, List.not_mem_nil, or_false, forall_eq_or_imp,
      forall_eq] at h
    exact ⟨_, writes_of_serialize (by
      rw [IntroductionRequestPayload.ser_eq, serialize_address _ h.1, serialize_address _ h.2.1,
        serialize_address _ h.2.2]; rfl)⟩

/-- C09. Introduction response. -/
theorem C09_introduction_response (v : IntroductionResponsePayload) :
    ((∃ a ∈ addressesIResp v, isV4 a = false) → Refused v) ∧
    ((∀ a ∈ addressesIResp v, isV4 a = true) → ∃ w, Writes v w) := by
  constructor
  · intro h
    apply refused_of_err
    rw [IntroductionResponsePayload.ser_eq]
    cases h1 : isV4 v.destinationAddress <;> cases h2 : isV4 v.sourceLanAddress <;>
    cases h3 : isV4 v.sourceWanAddress <;> cases h4 : isV4 v.lanIntroductionAddress <;>
    cases h5 : isV4 v.wanIntroductionAddress <;>
      simp_all [addressesIResp, serialize_address, serialize_address_v6, Outcome.isErr]
  · intro h
    simp only [addressesIResp, List.mem_cons, List.not_mem_nil, or_false, forall_eq_or_imp,
      forall_eq] at h
    exact ⟨_, writes_of_serialize (by
      rw [IntroductionResponsePayload.ser_eq, serialize_address _ h.1, serialize_address _ h.2.1,
        serialize_address _ h.2.2.1, serialize_address _ h.2.2.2.1,
        serialize_address _ h.2.2.2.2]; rfl)⟩

-- the second address of a puncture payload is IPv6: nothing is added
example :
    let v : PuncturePayload := ⟨⟨.v4 1 2 3 4 5⟩, ⟨.v6 (FixedBytes.replicate 16 1) 5 0 0⟩, 7⟩
    (∃ a ∈ addressesP v, isV4 a = false) ∧ ((⟨[1]⟩ : Packet).add v).2 = ⟨[1]⟩ := by decide

/-! ## Cases for the theorems above -/

/-- `C02_encode_injective`: codes are the same for no other type. -/
example (u : ConnectionType) (h : ConnectionType.PUBLIC.encode = u.encode) : u = .PUBLIC :=
  (C02_encode_injective _ _ h).symm

/-- `C05_read32` -/
example : ReadsAs ([0, 0, 0, 2, 7, 8] : Bytes) (⟨[7, 8]⟩ : VarLen32) := C05_read32 ⟨[7, 8]⟩ (by decide)

/-- `C07_read` -/
example : (Bincode.deserialize .big [1, 2, 3] : Outcome RawEnd) = .ok ⟨[1, 2, 3]⟩ := C07_read .big [1, 2, 3] (by decide)

/-- `C03_read`, `C03_wire`, `C05_read64`, `C05_wire32` and `C05_wire64`: three bytes. -/
example := And.intro (C03_read ⟨[1, 2, 3]⟩ (by decide)) (C03_wire ⟨[1, 2, 3]⟩ (by decide))
example := And.intro (C05_read64 ⟨[1, 2, 3]⟩ (by decide)) (And.intro (C05_wire32 ⟨[1, 2, 3]⟩ (by decide)) (C05_wire64 ⟨[1, 2, 3]⟩ (by decide)))

end Ipv8
