import Verif.Lemmas.Serde
import Verif.Model.Packet
/-!
# Readers of the built-in types, characterised exactly
-/

namespace Ipv8

/-! ## Generic notions -/

/-- Reading inverts writing, and nothing else is accepted. -/
structure Canonical (α : Type) [Serialize α] [Deserialize α] : Prop where
  exact : ∀ (e : Endian) (r r' : Bytes) (v : α),
    (Deserialize.de e : De α) r = .ok (v, r') ↔
      ∃ bs, Bincode.serialize e v = .ok bs ∧ r = bs ++ r'
  noPanic : ∀ (e : Endian) (r : Bytes), (Deserialize.de e : De α) r ≠ .panic

/-- A successful read consumes exactly as many bytes as the size pass counts for the result. -/
structure SizeExact (α : Type) [Serialize α] [Deserialize α] : Prop where
  size : ∀ (e : Endian) (r r' : Bytes) (v : α), r.length ≤ usizeMax →
    (Deserialize.de e : De α) r = .ok (v, r') →
      ∃ bs, r = bs ++ r' ∧ Bincode.serializedSize v = .ok bs.length
  noPanic : ∀ (e : Endian) (r : Bytes), (Deserialize.de e : De α) r ≠ .panic

theorem Bincode.serialize_eq_ok {α : Type} [Serialize α] {e : Endian} {v : α} {bs : Bytes} :
    Bincode.serialize e v = .ok bs ↔
      ∃ ts, Serialize.ser v = .ok ts ∧ bs = ts.flatMap (Tok.bytes e) := by
  unfold Bincode.serialize
  cases h : Serialize.ser v with
  | ok ts => simp [eq_comm]
  | err x => simp
  | panic => simp

/-- The two passes of bincode agree. -/
theorem Bincode.size_of_serialize {α : Type} [Serialize α] {e : Endian} {v : α} {bs : Bytes}
    (h : Bincode.serialize e v = .ok bs) : Bincode.serializedSize v = .ok bs.length := by
  rw [Bincode.serialize_eq_ok] at h
  obtain ⟨ts, h1, rfl⟩ := h
  rw [Bincode.serializedSize_of_ser h1, flatMap_bytes_length]

theorem Canonical.sizeExact {α : Type} [Serialize α] [Deserialize α] (c : Canonical α) :
    SizeExact α where
  size e r r' v _ h := by
    obtain ⟨bs, h1, h2⟩ := (c.exact e r r' v).mp h
    exact ⟨bs, h2, Bincode.size_of_serialize h1⟩
  noPanic := c.noPanic

theorem Canonical.read {α : Type} [Serialize α] [Deserialize α] (c : Canonical α)
    {e : Endian} {v : α} {bs : Bytes} (h : Bincode.serialize e v = .ok bs) (rest : Bytes) :
    (Deserialize.de e : De α) (bs ++ rest) = .ok (v, rest) :=
  (c.exact e _ _ v).mpr ⟨bs, h, rfl⟩

/-- Reading what was written gives the value back, whatever follows.  The length bound is the size of
the address space. -/
def RoundTrip (α : Type) [Serialize α] [Deserialize α] : Prop :=
  ∀ (e : Endian) (v : α) (bs : Bytes), Bincode.serialize e v = .ok bs → bs.length ≤ usizeMax →
    ∀ rest, (Deserialize.de e : De α) (bs ++ rest) = .ok (v, rest)

theorem Canonical.roundTrip {α : Type} [Serialize α] [Deserialize α] (c : Canonical α) :
    RoundTrip α := fun _ _ _ h _ rest => c.read h rest

/-- For readers on which nothing panics, "not ok" is "err". -/
theorem Outcome.isErr_of_ne {α : Type} {o : Outcome α} (hp : o ≠ .panic) (ho : ∀ a, o ≠ .ok a) :
    o.isErr = true := by
  cases o with
  | ok a => exact absurd rfl (ho a)
  | err e => rfl
  | panic => exact absurd rfl hp

/-! ## Bits -/

theorem Bits.fromU8_toU8 (b : UInt8) : (Bits.fromU8 b).toU8 = b := by
  have h : ∀ n : Fin 256, (Bits.fromU8 ⟨⟨n⟩⟩).toU8 = ⟨⟨n⟩⟩ := by decide +kernel
  exact h b.toBitVec.toFin

theorem Bits.toU8_fromU8 (x : Bits) : Bits.fromU8 x.toU8 = x := by
  rcases x with ⟨_|_, _|_, _|_, _|_, _|_, _|_, _|_, _|_⟩ <;> rfl

theorem Bits.canonical : Canonical Bits where
  exact e r r' v := by
    simp only [Deserialize.de, De.bind_eq_ok, deU8_eq_ok, De.pure_run, Outcome.ok.injEq,
      Prod.mk.injEq, Bincode.serialize, Serialize.ser, Tok.bytes, List.flatMap_cons,
      List.flatMap_nil, List.append_nil]
    constructor
    · rintro ⟨b, r1, rfl, rfl, rfl⟩
      exact ⟨_, rfl, by simp [Bits.fromU8_toU8]⟩
    · rintro ⟨bs, rfl, rfl⟩
      exact ⟨_, _, rfl, Bits.toU8_fromU8 v, rfl⟩
  noPanic e r h := by
    simp only [Deserialize.de, De.bind_eq_panic] at h
    rcases h with h | ⟨_, _, _, h⟩
    · exact deU8_ne_panic _ h
    · simp at h

/-! ## Addresses -/

theorem deIpv4_eq_ok {r r' : Bytes} {a b c d : UInt8} :
    deIpv4 r = .ok ((a, b, c, d), r') ↔ r = a :: b :: c :: d :: r' := by
  simp [deIpv4, bind_field_eq_ok, deU8_eq_ok]
  grind

theorem deIpv4_ne_panic (r : Bytes) : deIpv4 r ≠ .panic := by
  intro h
  simp [deIpv4, bind_field_eq_panic, deU8_eq_ok, deU8_ne_panic] at h

theorem Address.de_eq_ok {e : Endian} {r r' : Bytes} {v : Address} :
    (Deserialize.de e : De Address) r = .ok (v, r') ↔
      ∃ a b c d port, v = ⟨.v4 a b c d port⟩ ∧
        r = a :: b :: c :: d :: ((Tok.u16 port).bytes e ++ r') := by
  simp only [Deserialize.de]
  simp [bind_field_eq_ok, deIpv4_eq_ok, deU16_eq_ok]
  grind

theorem Address.ser_eq_ok {e : Endian} {v : Address} {bs : Bytes} :
    Bincode.serialize e v = .ok bs ↔ ∃ a b c d port, v = ⟨.v4 a b c d port⟩ ∧
      bs = a :: b :: c :: d :: (Tok.u16 port).bytes e := by
  rcases v with ⟨⟨a, b, c, d, port⟩ | ⟨ip, port, fl, sc⟩⟩
  · simp [Bincode.serialize, Serialize.ser, Tok.bytes, eq_comm]
    grind
  · simp [Bincode.serialize, Serialize.ser]

theorem Address.canonical : Canonical Address where
  exact e r r' v := by
    rw [Address.de_eq_ok]
    simp only [Address.ser_eq_ok]
    constructor
    · rintro ⟨a, b, c, d, port, rfl, rfl⟩
      exact ⟨_, ⟨a, b, c, d, port, rfl, rfl⟩, by simp⟩
    · rintro ⟨bs, ⟨a, b, c, d, port, rfl, rfl⟩, rfl⟩
      exact ⟨a, b, c, d, port, rfl, by simp⟩
  noPanic e r h := by
    simp only [Deserialize.de] at h
    simp [bind_field_eq_panic, deIpv4_ne_panic, deU16_ne_panic] at h

/-! ## VarLen -/

theorem take_eq_append {n : Nat} {r res r' : Bytes} :
    (n ≤ r.length ∧ r.take n = res ∧ r.drop n = r') ↔ (res.length = n ∧ r = res ++ r') := by
  constructor
  · rintro ⟨h, rfl, rfl⟩
    exact ⟨by simp; omega, by simp⟩
  · rintro ⟨rfl, rfl⟩
    simp

theorem repeatField_eq_ok {x : Error} {k n m : Nat} (h : k ≤ n) {r r' res : Bytes} :
    repeatField deU8 x k n r = .ok ((res, m), r') ↔ res.length = k ∧ m = n - k ∧ r = res ++ r' := by
  rw [repeatField_deU8 x k n h]
  by_cases hk : k ≤ r.length
  · rw [if_pos hk]
    simp only [Outcome.ok.injEq, Prod.mk.injEq]
    have := @take_eq_append k r res r'
    grind
  · rw [if_neg hk]
    simp
    rintro h1 - rfl
    simp at hk
    omega

theorem repeatField_ne_panic (x : Error) (k n : Nat) (h : k ≤ n) (r : Bytes) :
    repeatField deU8 x k n r ≠ .panic := by
  rw [repeatField_deU8 x k n h]; split <;> simp

theorem bind_repeatField_eq_ok {β : Type} {x : Error} {k n : Nat} {f : Bytes × Nat → De β}
    (h : k ≤ n) {r r'' : Bytes} {b : β} :
    (repeatField deU8 x k n >>= f) r = .ok (b, r'') ↔
      ∃ res r', res.length = k ∧ r = res ++ r' ∧ f (res, n - k) r' = .ok (b, r'') := by
  rw [De.bind_eq_ok]
  constructor
  · rintro ⟨⟨res, m⟩, r', h1, h2⟩
    rw [repeatField_eq_ok h] at h1
    obtain ⟨h1, rfl, h3⟩ := h1
    exact ⟨res, r', h1, h3, h2⟩
  · rintro ⟨res, r', h1, h2, h3⟩
    exact ⟨(res, n - k), r', (repeatField_eq_ok h).mpr ⟨h1, rfl, h2⟩, h3⟩

theorem bind_repeatField_eq_panic {β : Type} {x : Error} {k n : Nat} {f : Bytes × Nat → De β}
    (h : k ≤ n) {r : Bytes} :
    (repeatField deU8 x k n >>= f) r = .panic ↔
      ∃ res r', res.length = k ∧ r = res ++ r' ∧ f (res, n - k) r' = .panic := by
  rw [De.bind_eq_panic]
  constructor
  · rintro (h1 | ⟨⟨res, m⟩, r', h1, h2⟩)
    · exact absurd h1 (repeatField_ne_panic _ _ _ h _)
    · rw [repeatField_eq_ok h] at h1
      obtain ⟨h1, rfl, h3⟩ := h1
      exact ⟨res, r', h1, h3, h2⟩
  · rintro ⟨res, r', h1, h2, h3⟩
    exact .inr ⟨(res, n - k), r', (repeatField_eq_ok h).mpr ⟨h1, rfl, h2⟩, h3⟩

theorem VarLen16.de_eq_ok {e : Endian} {r r' : Bytes} {v : VarLen16} :
    (Deserialize.de e : De VarLen16) r = .ok (v, r') ↔
      v.data.length < 2 ^ 16 ∧ r = intBytes e 2 v.data.length ++ (v.data ++ r') := by
  simp only [Deserialize.de]
  rw [bind_field_eq_ok (by decide)]
  constructor
  · rintro ⟨len, r1, h1, h2⟩
    have hl := len.toNat_lt
    simp only at h2
    rw [bind_repeatField_eq_ok (by omega)] at h2
    obtain ⟨res, r2, h3, rfl, h4⟩ := h2
    simp only [De.pure_run, Outcome.ok.injEq, Prod.mk.injEq] at h4
    obtain ⟨rfl, rfl⟩ := h4
    rw [deU16_eq_ok] at h1
    simp only [Tok.bytes] at h1
    simp only [h3]
    exact ⟨hl, h1⟩
  · rintro ⟨hl, rfl⟩
    have hn : (UInt16.ofNat v.data.length).toNat = v.data.length := by
      rw [UInt16.toNat_ofNat']; omega
    refine ⟨UInt16.ofNat v.data.length, v.data ++ r', ?_, ?_⟩
    · rw [deU16_eq_ok]; simp only [Tok.bytes, hn]
    · simp only
      rw [bind_repeatField_eq_ok (by omega)]
      exact ⟨v.data, r', by omega, rfl, rfl⟩

theorem VarLen16.ser_eq_ok {e : Endian} {v : VarLen16} {bs : Bytes} :
    Bincode.serialize e v = .ok bs ↔
      v.data.length < 2 ^ 16 ∧ bs = intBytes e 2 v.data.length ++ v.data := by
  by_cases h : v.data.length > 0xffff
  · have h' : ¬ v.data.length < 2 ^ 16 := by omega
    simp [Bincode.serialize, Serialize.ser, h]
    omega
  · have h' : v.data.length < 2 ^ 16 := by omega
    have hn : (UInt16.ofNat v.data.length).toNat = v.data.length := by
      rw [UInt16.toNat_ofNat']; omega
    simp only [Bincode.serialize, Serialize.ser, h, if_false, Outcome.ok.injEq,
      List.flatMap_cons, flatMap_u8, Tok.bytes, hn]
    simp only [h', true_and]
    exact eq_comm

theorem VarLen16.canonical : Canonical VarLen16 where
  exact e r r' v := by
    rw [VarLen16.de_eq_ok]
    simp only [VarLen16.ser_eq_ok]
    constructor
    · rintro ⟨h, rfl⟩; exact ⟨_, ⟨h, rfl⟩, by simp⟩
    · rintro ⟨bs, ⟨h, rfl⟩, rfl⟩; exact ⟨h, by simp⟩
  noPanic e r h := by
    simp only [Deserialize.de] at h
    rw [bind_field_eq_panic (by decide)] at h
    rcases h with h | ⟨len, r1, h1, h2⟩
    · exact deU16_ne_panic _ _ h
    · have hl := len.toNat_lt
      simp only at h2
      rw [bind_repeatField_eq_panic (by omega)] at h2
      obtain ⟨_, _, _, _, h⟩ := h2
      simp at h

theorem VarLen32.de_eq_ok {e : Endian} {r r' : Bytes} {v : VarLen32} :
    (Deserialize.de e : De VarLen32) r = .ok (v, r') ↔
      v.data.length < 2 ^ 32 ∧ r = intBytes e 4 v.data.length ++ (v.data ++ r') := by
  simp only [Deserialize.de]
  rw [bind_field_eq_ok (by decide)]
  constructor
  · rintro ⟨len, r1, h1, h2⟩
    have hl := len.toNat_lt
    simp only at h2
    rw [bind_repeatField_eq_ok (by omega)] at h2
    obtain ⟨res, r2, h3, rfl, h4⟩ := h2
    simp only [De.pure_run, Outcome.ok.injEq, Prod.mk.injEq] at h4
    obtain ⟨rfl, rfl⟩ := h4
    rw [deU32_eq_ok] at h1
    simp only [Tok.bytes] at h1
    simp only [h3]
    exact ⟨hl, h1⟩
  · rintro ⟨hl, rfl⟩
    have hn : (UInt32.ofNat v.data.length).toNat = v.data.length := by
      rw [UInt32.toNat_ofNat']; omega
    refine ⟨UInt32.ofNat v.data.length, v.data ++ r', ?_, ?_⟩
    · rw [deU32_eq_ok]; simp only [Tok.bytes, hn]
    · simp only
      rw [bind_repeatField_eq_ok (by omega)]
      exact ⟨v.data, r', by omega, rfl, rfl⟩

theorem VarLen32.ser_eq_ok {e : Endian} {v : VarLen32} {bs : Bytes} :
    Bincode.serialize e v = .ok bs ↔
      v.data.length < 2 ^ 32 ∧ bs = intBytes e 4 v.data.length ++ v.data := by
  by_cases h : v.data.length > 0xffffffff
  · have h' : ¬ v.data.length < 2 ^ 32 := by omega
    simp [Bincode.serialize, Serialize.ser, h]
    omega
  · have h' : v.data.length < 2 ^ 32 := by omega
    have hn : (UInt32.ofNat v.data.length).toNat = v.data.length := by
      rw [UInt32.toNat_ofNat']; omega
    simp only [Bincode.serialize, Serialize.ser, h, if_false, Outcome.ok.injEq,
      List.flatMap_cons, flatMap_u8, Tok.bytes, hn]
    simp only [h', true_and]
    exact eq_comm

theorem VarLen32.canonical : Canonical VarLen32 where
  exact e r r' v := by
    rw [VarLen32.de_eq_ok]
    simp only [VarLen32.ser_eq_ok]
    constructor
    · rintro ⟨h, rfl⟩; exact ⟨_, ⟨h, rfl⟩, by simp⟩
    · rintro ⟨bs, ⟨h, rfl⟩, rfl⟩; exact ⟨h, by simp⟩
  noPanic e r h := by
    simp only [Deserialize.de] at h
    rw [bind_field_eq_panic (by decide)] at h
    rcases h with h | ⟨len, r1, h1, h2⟩
    · exact deU32_ne_panic _ _ h
    · have hl := len.toNat_lt
      simp only at h2
      rw [bind_repeatField_eq_panic (by omega)] at h2
      obtain ⟨_, _, _, _, h⟩ := h2
      simp at h

theorem vecLoop_eq_ok {n : Nat} {r res r' : Bytes} :
    vecLoop deU8 n r = .ok (res, r') ↔ res.length = n ∧ r = res ++ r' := by
  rw [vecLoop_deU8]
  by_cases hk : n ≤ r.length
  · rw [if_pos hk]
    simp only [Outcome.ok.injEq, Prod.mk.injEq]
    have := @take_eq_append n r res r'
    grind
  · rw [if_neg hk]
    simp
    rintro h1 rfl
    simp at hk
    omega

theorem deVec_eq_ok {e : Endian} {r res r' : Bytes} :
    deVec e deU8 r = .ok (res, r') ↔
      res.length < 2 ^ 64 ∧ r = intBytes e 8 res.length ++ (res ++ r') := by
  simp only [deVec, De.bind_eq_ok, deU64_eq_ok, vecLoop_eq_ok, Tok.bytes]
  constructor
  · rintro ⟨n, r1, rfl, h, rfl⟩
    rw [h]
    exact ⟨n.toNat_lt, rfl⟩
  · rintro ⟨h, rfl⟩
    have hn : (UInt64.ofNat res.length).toNat = res.length := by
      rw [UInt64.toNat_ofNat']; omega
    exact ⟨UInt64.ofNat res.length, _, by rw [hn], hn.symm, rfl⟩

theorem deVec_ne_panic (e : Endian) (r : Bytes) : deVec e deU8 r ≠ .panic := by
  intro h
  simp only [deVec, De.bind_eq_panic] at h
  rcases h with h | ⟨_, _, _, h⟩
  · exact deU64_ne_panic _ _ h
  · rw [vecLoop_deU8] at h
    split at h <;> simp at h

/-- The derived codec of a newtype around `Vec<u8>`; Rust vectors have fewer than 2^63 bytes. -/
theorem serVec_bytes (e : Endian) {l : Bytes} (h : l.length < 2 ^ 64) :
    (Tok.u64 (UInt64.ofNat l.length) :: l.map Tok.u8).flatMap (Tok.bytes e) =
      intBytes e 8 l.length ++ l := by
  have hn : (UInt64.ofNat l.length).toNat = l.length := by
    rw [UInt64.toNat_ofNat']; omega
  simp [Tok.bytes, hn]

theorem VarLen64.de_eq_ok {e : Endian} {r r' : Bytes} {v : VarLen64} :
    (Deserialize.de e : De VarLen64) r = .ok (v, r') ↔
      v.data.length < 2 ^ 64 ∧ r = intBytes e 8 v.data.length ++ (v.data ++ r') := by
  simp only [Deserialize.de, De.bind_eq_ok, deVec_eq_ok]
  constructor
  · rintro ⟨res, r1, ⟨h, rfl⟩, h2⟩
    simp only [De.pure_run, Outcome.ok.injEq, Prod.mk.injEq] at h2
    obtain ⟨rfl, rfl⟩ := h2
    exact ⟨h, rfl⟩
  · rintro ⟨h, rfl⟩
    exact ⟨v.data, r', ⟨h, rfl⟩, rfl⟩

theorem VarLen64.ser_eq {e : Endian} {v : VarLen64} (h : v.data.length < 2 ^ 64) :
    Bincode.serialize e v = .ok (intBytes e 8 v.data.length ++ v.data) := by
  simp only [Bincode.serialize, Serialize.ser, serVec]
  rw [serVec_bytes e h]

theorem VarLen64.sizeExact : SizeExact VarLen64 where
  size e r r' v _ h := by
    rw [VarLen64.de_eq_ok] at h
    obtain ⟨h, rfl⟩ := h
    exact ⟨_, by rw [List.append_assoc], Bincode.size_of_serialize (e := e) (VarLen64.ser_eq h)⟩
  noPanic e r h := by
    simp only [Deserialize.de, De.bind_eq_panic] at h
    rcases h with h | ⟨_, _, _, h⟩
    · exact deVec_ne_panic _ _ h
    · simp at h

/-! ## RawEnd -/

theorem rawLoop_eq (n : Nat) (r : Bytes) : rawLoop n r = (r.take n, r.drop n) := by
  induction n generalizing r with
  | zero => simp [rawLoop]
  | succ n ih =>
    cases r with
    | nil => simp [rawLoop]
    | cons b r => simp [rawLoop, ih]

theorem RawEnd.de_eq (e : Endian) {r : Bytes} (h : r.length ≤ usizeMax) :
    (Deserialize.de e : De RawEnd) r = .ok (⟨r⟩, []) := by
  simp [Deserialize.de, rawLoop_eq, List.take_of_length_le h, List.drop_of_length_le h]

theorem RawEnd.ser_eq (e : Endian) (v : RawEnd) : Bincode.serialize e v = .ok v.data := by
  simp [Bincode.serialize, Serialize.ser]

theorem RawEnd.de_ne_panic (e : Endian) (r : Bytes) : (Deserialize.de e : De RawEnd) r ≠ .panic := by
  simp [Deserialize.de]

/-- Without a length assumption the captured part and the rest still make up the input. -/
theorem RawEnd.de_eq_ok {e : Endian} {r r' : Bytes} {v : RawEnd}
    (h : (Deserialize.de e : De RawEnd) r = .ok (v, r')) : r = v.data ++ r' := by
  simp [Deserialize.de, rawLoop_eq] at h
  obtain ⟨rfl, rfl⟩ := h
  simp

theorem RawEnd.sizeExact : SizeExact RawEnd where
  size e _ _ v _ h :=
    ⟨v.data, RawEnd.de_eq_ok h, Bincode.size_of_serialize (e := e) (RawEnd.ser_eq e v)⟩
  noPanic := RawEnd.de_ne_panic

theorem VarLen64.roundTrip : RoundTrip VarLen64 := by
  intro e v bs h hl rest
  have hv : v.data.length < 2 ^ 64 := by
    rw [Bincode.serialize_eq_ok] at h
    obtain ⟨ts, h1, rfl⟩ := h
    simp only [Serialize.ser, serVec, Outcome.ok.injEq] at h1
    subst h1
    simp [Tok.size, usizeMax] at hl
    omega
  rw [VarLen64.ser_eq hv] at h
  cases h
  rw [VarLen64.de_eq_ok]
  exact ⟨hv, by simp⟩

/-! ## Nested packets, time, puncture -/

theorem NestedPacket.serialize_eq (e : Endian) (v : NestedPacket) :
    Bincode.serialize e v = Bincode.serialize e (VarLen16.mk v.packet.bytes) := rfl

theorem NestedPacket.de_eq_ok {e : Endian} {r r' : Bytes} {v : NestedPacket} :
    (Deserialize.de e : De NestedPacket) r = .ok (v, r') ↔
      (Deserialize.de e : De VarLen16) r = .ok (⟨v.packet.bytes⟩, r') := by
  have hd : (Deserialize.de e : De NestedPacket) = (do
    let t ← (Deserialize.de e : De VarLen16)
    Pure.pure ⟨⟨t.data⟩⟩) := rfl
  rw [hd, De.bind_eq_ok]
  constructor
  · rintro ⟨a, r1, h1, h2⟩
    simp only [De.pure_run, Outcome.ok.injEq, Prod.mk.injEq] at h2
    obtain ⟨rfl, rfl⟩ := h2
    exact h1
  · intro h
    exact ⟨_, _, h, rfl⟩

theorem NestedPacket.canonical : Canonical NestedPacket where
  exact e r r' v := by
    rw [NestedPacket.de_eq_ok, VarLen16.canonical.exact]
    rfl
  noPanic e r h := by
    have hd : (Deserialize.de e : De NestedPacket) = (do
      let t ← (Deserialize.de e : De VarLen16)
      Pure.pure ⟨⟨t.data⟩⟩) := rfl
    rw [hd, De.bind_eq_panic] at h
    rcases h with h | ⟨_, _, _, h⟩
    · exact VarLen16.canonical.noPanic _ _ h
    · simp at h

theorem TimeDistributionPayload.ser_eq (e : Endian) (v : TimeDistributionPayload) :
    Bincode.serialize e v = .ok (intBytes e 8 v.globalTime.toNat) := by
  simp [Bincode.serialize, Serialize.ser, Tok.bytes]

theorem TimeDistributionPayload.canonical : Canonical TimeDistributionPayload where
  exact e r r' v := by
    rw [TimeDistributionPayload.ser_eq]
    simp only [Deserialize.de]
    rw [bind_field_eq_ok (by decide)]
    simp only [deU64_eq_ok, De.pure_run, Outcome.ok.injEq, Prod.mk.injEq, Tok.bytes]
    grind
  noPanic e r h := by
    simp only [Deserialize.de] at h
    simp [bind_field_eq_panic, deU64_ne_panic] at h

/-- A write as a value: the bytes or the error.  `seq` writes one value after another. -/
theorem Bincode.serialize_def {α : Type} [Serialize α] (e : Endian) (v : α) :
    Bincode.serialize e v = (do
      let ts ← Serialize.ser v
      Pure.pure (ts.flatMap (Tok.bytes e))) := by
  unfold Bincode.serialize
  cases Serialize.ser v <;> rfl

theorem Outcome.bind_eq_ok {α β : Type} {m : Outcome α} {f : α → Outcome β} {b : β} :
    (m >>= f) = .ok b ↔ ∃ a, m = .ok a ∧ f a = .ok b := by
  cases m <;> simp

theorem PuncturePayload.ser_eq (e : Endian) (v : PuncturePayload) :
    Bincode.serialize e v = (do
      let a ← Bincode.serialize e v.lanWalkerAddress
      let b ← Bincode.serialize e v.wanWalkerAddress
      Pure.pure (a ++ (b ++ intBytes e 2 v.identifier.toNat))) := by
  have hs : Serialize.ser v = (do
    let a ← Serialize.ser v.lanWalkerAddress
    let b ← Serialize.ser v.wanWalkerAddress
    Pure.pure (a ++ b ++ [Tok.u16 v.identifier])) := rfl
  simp only [Bincode.serialize_def, hs]
  cases h1 : (Serialize.ser v.lanWalkerAddress) <;> cases h2 : (Serialize.ser v.wanWalkerAddress) <;>
    simp [Tok.bytes]

theorem PunctureRequestPayload.ser_eq (e : Endian) (v : PunctureRequestPayload) :
    Bincode.serialize e v = (do
      let a ← Bincode.serialize e v.lanWalkerAddress
      let b ← Bincode.serialize e v.wanWalkerAddress
      Pure.pure (a ++ (b ++ intBytes e 2 v.identifier.toNat))) := by
  have hs : Serialize.ser v = (do
    let a ← Serialize.ser v.lanWalkerAddress
    let b ← Serialize.ser v.wanWalkerAddress
    Pure.pure (a ++ b ++ [Tok.u16 v.identifier])) := rfl
  simp only [Bincode.serialize_def, hs]
  cases h1 : (Serialize.ser v.lanWalkerAddress) <;> cases h2 : (Serialize.ser v.wanWalkerAddress) <;>
    simp [Tok.bytes]

theorem PuncturePayload.canonical : Canonical PuncturePayload where
  exact e r r' v := by
    simp only [PuncturePayload.ser_eq, Outcome.bind_eq_ok, Outcome.pure_eq, Outcome.ok.injEq]
    have hd : (Deserialize.de e : De PuncturePayload) = (do
      let (a, n) ← field (Deserialize.de e : De Address) (.invalidLength 0) 3
      let (b, n) ← field (Deserialize.de e : De Address) (.invalidLength 1) n
      let (i, _) ← field (deU16 e) (.invalidLength 2) n
      Pure.pure ⟨a, b, i⟩) := rfl
    rw [hd]
    simp only [bind_field_eq_ok, Nat.reduceLT, Nat.reduceSub, deU16_eq_ok, Address.canonical.exact,
      De.pure_run, Outcome.ok.injEq, Prod.mk.injEq, Tok.bytes]
    constructor
    · rintro ⟨a, r1, ⟨bs1, h1, rfl⟩, b, r2, ⟨bs2, h2, rfl⟩, i, r3, rfl, rfl, rfl⟩
      exact ⟨_, ⟨bs1, h1, bs2, h2, rfl⟩, by simp⟩
    · rintro ⟨bs, ⟨bs1, h1, bs2, h2, rfl⟩, rfl⟩
      exact ⟨_, _, ⟨bs1, h1, by rw [List.append_assoc]⟩, _, _, ⟨bs2, h2, by rw [List.append_assoc]⟩,
        _, _, rfl, rfl, rfl⟩
  noPanic e r h := by
    have hd : (Deserialize.de e : De PuncturePayload) = (do
      let (a, n) ← field (Deserialize.de e : De Address) (.invalidLength 0) 3
      let (b, n) ← field (Deserialize.de e : De Address) (.invalidLength 1) n
      let (i, _) ← field (deU16 e) (.invalidLength 2) n
      Pure.pure ⟨a, b, i⟩) := rfl
    rw [hd] at h
    simp [bind_field_eq_panic, Address.canonical.noPanic, deU16_ne_panic] at h

theorem PunctureRequestPayload.canonical : Canonical PunctureRequestPayload where
  exact e r r' v := by
    simp only [PunctureRequestPayload.ser_eq, Outcome.bind_eq_ok, Outcome.pure_eq, Outcome.ok.injEq]
    have hd : (Deserialize.de e : De PunctureRequestPayload) = (do
      let (a, n) ← field (Deserialize.de e : De Address) (.invalidLength 0) 3
      let (b, n) ← field (Deserialize.de e : De Address) (.invalidLength 1) n
      let (i, _) ← field (deU16 e) (.invalidLength 2) n
      Pure.pure ⟨a, b, i⟩) := rfl
    rw [hd]
    simp only [bind_field_eq_ok, Nat.reduceLT, Nat.reduceSub, deU16_eq_ok, Address.canonical.exact,
      De.pure_run, Outcome.ok.injEq, Prod.mk.injEq, Tok.bytes]
    constructor
    · rintro ⟨a, r1, ⟨bs1, h1, rfl⟩, b, r2, ⟨bs2, h2, rfl⟩, i, r3, rfl, rfl, rfl⟩
      exact ⟨_, ⟨bs1, h1, bs2, h2, rfl⟩, by simp⟩
    · rintro ⟨bs, ⟨bs1, h1, bs2, h2, rfl⟩, rfl⟩
      exact ⟨_, _, ⟨bs1, h1, by rw [List.append_assoc]⟩, _, _, ⟨bs2, h2, by rw [List.append_assoc]⟩,
        _, _, rfl, rfl, rfl⟩
  noPanic e r h := by
    have hd : (Deserialize.de e : De PunctureRequestPayload) = (do
      let (a, n) ← field (Deserialize.de e : De Address) (.invalidLength 0) 3
      let (b, n) ← field (Deserialize.de e : De Address) (.invalidLength 1) n
      let (i, _) ← field (deU16 e) (.invalidLength 2) n
      Pure.pure ⟨a, b, i⟩) := rfl
    rw [hd] at h
    simp [bind_field_eq_panic, Address.canonical.noPanic, deU16_ne_panic] at h

/-! ## Introduction request and response -/

theorem ConnectionType.decode_encode (t : ConnectionType) : ConnectionType.decode t.encode = t := by
  cases t <;> rfl

/-- The flag byte of an introduction request. -/
def reqFlags (v : IntroductionRequestPayload) : UInt8 :=
  (Bits.fromBools v.connectionType.encode.1 v.connectionType.encode.2
    false false false false false v.advice).toU8

/-- The flag byte of an introduction response. -/
def respFlags (v : IntroductionResponsePayload) : UInt8 :=
  (Bits.fromBools v.connectionType.encode.1 v.connectionType.encode.2
    false false false false false false).toU8

theorem IntroductionRequestPayload.ser_eq (e : Endian) (v : IntroductionRequestPayload) :
    Bincode.serialize e v = (do
      let a ← Bincode.serialize e v.destinationAddress
      let b ← Bincode.serialize e v.sourceLanAddress
      let c ← Bincode.serialize e v.sourceWanAddress
      Pure.pure (a ++ (b ++ (c ++ (reqFlags v :: (intBytes e 2 v.identifier.toNat ++
        v.extraBytes.data)))))) := by
  have hs : Serialize.ser v = (do
    let d ← Serialize.ser v.destinationAddress
    let l ← Serialize.ser v.sourceLanAddress
    let w ← Serialize.ser v.sourceWanAddress
    let f ← Serialize.ser
      (Bits.fromBools v.connectionType.encode.1 v.connectionType.encode.2
        false false false false false v.advice)
    let x ← Serialize.ser v.extraBytes
    Pure.pure (d ++ l ++ w ++ f ++ [.u16 v.identifier] ++ x)) := rfl
  have hx : Serialize.ser v.extraBytes = .ok (v.extraBytes.data.map .u8) := rfl
  have hb : Serialize.ser
      (Bits.fromBools v.connectionType.encode.1 v.connectionType.encode.2
        false false false false false v.advice) = .ok [.u8 (reqFlags v)] := rfl
  simp only [Bincode.serialize_def, hs, hx, hb]
  cases h1 : (Serialize.ser v.destinationAddress) <;>
  cases h2 : (Serialize.ser v.sourceLanAddress) <;>
  cases h3 : (Serialize.ser v.sourceWanAddress) <;>
    simp [Tok.bytes]

theorem IntroductionResponsePayload.ser_eq (e : Endian) (v : IntroductionResponsePayload) :
    Bincode.serialize e v = (do
      let a ← Bincode.serialize e v.destinationAddress
      let b ← Bincode.serialize e v.sourceLanAddress
      let c ← Bincode.serialize e v.sourceWanAddress
      let d ← Bincode.serialize e v.lanIntroductionAddress
      let f ← Bincode.serialize e v.wanIntroductionAddress
      Pure.pure (a ++ (b ++ (c ++ (d ++ (f ++ (respFlags v :: (intBytes e 2 v.identifier.toNat ++
        v.extraBytes.data)))))))) := by
  have hs : Serialize.ser v = (do
    let d ← Serialize.ser v.destinationAddress
    let l ← Serialize.ser v.sourceLanAddress
    let w ← Serialize.ser v.sourceWanAddress
    let li ← Serialize.ser v.lanIntroductionAddress
    let wi ← Serialize.ser v.wanIntroductionAddress
    let f ← Serialize.ser
      (Bits.fromBools v.connectionType.encode.1 v.connectionType.encode.2
        false false false false false false)
    let x ← Serialize.ser v.extraBytes
    Pure.pure (d ++ l ++ w ++ li ++ wi ++ f ++ [.u16 v.identifier] ++ x)) := rfl
  have hx : Serialize.ser v.extraBytes = .ok (v.extraBytes.data.map .u8) := rfl
  have hb : Serialize.ser
      (Bits.fromBools v.connectionType.encode.1 v.connectionType.encode.2
        false false false false false false) = .ok [.u8 (respFlags v)] := rfl
  simp only [Bincode.serialize_def, hs, hx, hb]
  cases h1 : (Serialize.ser v.destinationAddress) <;>
  cases h2 : (Serialize.ser v.sourceLanAddress) <;>
  cases h3 : (Serialize.ser v.sourceWanAddress) <;>
  cases h4 : (Serialize.ser v.lanIntroductionAddress) <;>
  cases h5 : (Serialize.ser v.wanIntroductionAddress) <;>
    simp [Tok.bytes]

theorem Bits.de_eq_ok {e : Endian} {r r' : Bytes} {v : Bits} :
    (Deserialize.de e : De Bits) r = .ok (v, r') ↔ r = v.toU8 :: r' := by
  rw [Bits.canonical.exact]
  simp [Bincode.serialize, Serialize.ser, Tok.bytes]

/-- What reading an introduction request from `r` means, field by field. -/
theorem IntroductionRequestPayload.de_eq_ok {e : Endian} {r r' : Bytes}
    {v : IntroductionRequestPayload} :
    (Deserialize.de e : De IntroductionRequestPayload) r = .ok (v, r') ↔
      ∃ (a b c rest : Bytes) (flags : UInt8),
        Bincode.serialize e v.destinationAddress = .ok a ∧
        Bincode.serialize e v.sourceLanAddress = .ok b ∧
        Bincode.serialize e v.sourceWanAddress = .ok c ∧
        v.advice = (Bits.fromU8 flags).bit7 ∧
        v.connectionType = ConnectionType.decode ((Bits.fromU8 flags).bit0, (Bits.fromU8 flags).bit1) ∧
        (Deserialize.de e : De RawEnd) rest = .ok (v.extraBytes, r') ∧
        r = a ++ (b ++ (c ++ (flags :: (intBytes e 2 v.identifier.toNat ++ rest)))) := by
  have hd : (Deserialize.de e : De IntroductionRequestPayload) = (do
    let (t0, n) ← field (Deserialize.de e : De Address) (.invalidLength 0) 6
    let (t1, n) ← field (Deserialize.de e : De Address) (.invalidLength 1) n
    let (t2, n) ← field (Deserialize.de e : De Address) (.invalidLength 2) n
    let (t3, n) ← field (Deserialize.de e : De Bits) (.invalidLength 3) n
    let (t4, n) ← field (deU16 e) (.invalidLength 4) n
    let (t5, _) ← field (Deserialize.de e : De RawEnd) (.invalidLength 5) n
    Pure.pure {
      destinationAddress := t0
      sourceLanAddress := t1
      sourceWanAddress := t2
      advice := t3.bit7
      connectionType := ConnectionType.decode (t3.bit0, t3.bit1)
      identifier := t4
      extraBytes := t5 }) := rfl
  rw [hd]
  simp only [bind_field_eq_ok, Nat.reduceLT, Nat.reduceSub, deU16_eq_ok, Address.canonical.exact,
    Bits.de_eq_ok, De.pure_run, Outcome.ok.injEq, Prod.mk.injEq, Tok.bytes]
  constructor
  · rintro ⟨a, r1, ⟨bs1, h1, rfl⟩, b, r2, ⟨bs2, h2, rfl⟩, c, r3, ⟨bs3, h3, rfl⟩, t, r4, rfl,
      i, r5, rfl, x, r6, hx, rfl, rfl⟩
    exact ⟨bs1, bs2, bs3, r5, t.toU8, h1, h2, h3, by rw [Bits.toU8_fromU8],
      by rw [Bits.toU8_fromU8], hx, rfl⟩
  · rintro ⟨bs1, bs2, bs3, r5, fl, h1, h2, h3, ha, hc, hx, rfl⟩
    exact ⟨_, _, ⟨bs1, h1, rfl⟩, _, _, ⟨bs2, h2, rfl⟩, _, _, ⟨bs3, h3, rfl⟩, Bits.fromU8 fl, _,
      by rw [Bits.fromU8_toU8], _, _, rfl, _, _, hx, by rw [← ha, ← hc], rfl⟩

theorem IntroductionRequestPayload.de_ne_panic (e : Endian) (r : Bytes) :
    (Deserialize.de e : De IntroductionRequestPayload) r ≠ .panic := by
  intro h
  have hd : (Deserialize.de e : De IntroductionRequestPayload) = (do
    let (t0, n) ← field (Deserialize.de e : De Address) (.invalidLength 0) 6
    let (t1, n) ← field (Deserialize.de e : De Address) (.invalidLength 1) n
    let (t2, n) ← field (Deserialize.de e : De Address) (.invalidLength 2) n
    let (t3, n) ← field (Deserialize.de e : De Bits) (.invalidLength 3) n
    let (t4, n) ← field (deU16 e) (.invalidLength 4) n
    let (t5, _) ← field (Deserialize.de e : De RawEnd) (.invalidLength 5) n
    Pure.pure {
      destinationAddress := t0
      sourceLanAddress := t1
      sourceWanAddress := t2
      advice := t3.bit7
      connectionType := ConnectionType.decode (t3.bit0, t3.bit1)
      identifier := t4
      extraBytes := t5 }) := rfl
  rw [hd] at h
  simp [bind_field_eq_panic, Address.canonical.noPanic, deU16_ne_panic, Bits.canonical.noPanic,
    RawEnd.de_ne_panic] at h

theorem IntroductionResponsePayload.de_eq_ok {e : Endian} {r r' : Bytes}
    {v : IntroductionResponsePayload} :
    (Deserialize.de e : De IntroductionResponsePayload) r = .ok (v, r') ↔
      ∃ (a b c d f rest : Bytes) (flags : UInt8),
        Bincode.serialize e v.destinationAddress = .ok a ∧
        Bincode.serialize e v.sourceLanAddress = .ok b ∧
        Bincode.serialize e v.sourceWanAddress = .ok c ∧
        Bincode.serialize e v.lanIntroductionAddress = .ok d ∧
        Bincode.serialize e v.wanIntroductionAddress = .ok f ∧
        v.tunnel = false ∧
        v.connectionType = ConnectionType.decode ((Bits.fromU8 flags).bit0, (Bits.fromU8 flags).bit1) ∧
        (Deserialize.de e : De RawEnd) rest = .ok (v.extraBytes, r') ∧
        r = a ++ (b ++ (c ++ (d ++ (f ++ (flags ::
          (intBytes e 2 v.identifier.toNat ++ rest)))))) := by
  have hd : (Deserialize.de e : De IntroductionResponsePayload) = (do
    let (t0, n) ← field (Deserialize.de e : De Address) (.invalidLength 0) 8
    let (t1, n) ← field (Deserialize.de e : De Address) (.invalidLength 1) n
    let (t2, n) ← field (Deserialize.de e : De Address) (.invalidLength 2) n
    let (t3, n) ← field (Deserialize.de e : De Address) (.invalidLength 3) n
    let (t4, n) ← field (Deserialize.de e : De Address) (.invalidLength 4) n
    let (t5, n) ← field (Deserialize.de e : De Bits) (.invalidLength 5) n
    let (t6, n) ← field (deU16 e) (.invalidLength 6) n
    let (t7, _) ← field (Deserialize.de e : De RawEnd) (.invalidLength 7) n
    Pure.pure {
      destinationAddress := t0
      sourceLanAddress := t1
      sourceWanAddress := t2
      lanIntroductionAddress := t3
      wanIntroductionAddress := t4
      tunnel := false
      connectionType := ConnectionType.decode (t5.bit0, t5.bit1)
      identifier := t6
      extraBytes := t7 }) := rfl
  rw [hd]
  simp only [bind_field_eq_ok, Nat.reduceLT, Nat.reduceSub, deU16_eq_ok, Address.canonical.exact,
    Bits.de_eq_ok, De.pure_run, Outcome.ok.injEq, Prod.mk.injEq, Tok.bytes]
  constructor
  · rintro ⟨a, r1, ⟨bs1, h1, rfl⟩, b, r2, ⟨bs2, h2, rfl⟩, c, r3, ⟨bs3, h3, rfl⟩,
      d, r3', ⟨bs4, h4, rfl⟩, f, r3'', ⟨bs5, h5, rfl⟩, t, r4, rfl,
      i, r5, rfl, x, r6, hx, rfl, rfl⟩
    exact ⟨bs1, bs2, bs3, bs4, bs5, r5, t.toU8, h1, h2, h3, h4, h5, rfl,
      by rw [Bits.toU8_fromU8], hx, rfl⟩
  · rintro ⟨bs1, bs2, bs3, bs4, bs5, r5, fl, h1, h2, h3, h4, h5, ht, hc, hx, rfl⟩
    exact ⟨_, _, ⟨bs1, h1, rfl⟩, _, _, ⟨bs2, h2, rfl⟩, _, _, ⟨bs3, h3, rfl⟩,
      _, _, ⟨bs4, h4, rfl⟩, _, _, ⟨bs5, h5, rfl⟩, Bits.fromU8 fl, _,
      by rw [Bits.fromU8_toU8], _, _, rfl, _, _, hx, by rw [← hc, ← ht], rfl⟩

theorem IntroductionResponsePayload.de_ne_panic (e : Endian) (r : Bytes) :
    (Deserialize.de e : De IntroductionResponsePayload) r ≠ .panic := by
  intro h
  have hd : (Deserialize.de e : De IntroductionResponsePayload) = (do
    let (t0, n) ← field (Deserialize.de e : De Address) (.invalidLength 0) 8
    let (t1, n) ← field (Deserialize.de e : De Address) (.invalidLength 1) n
    let (t2, n) ← field (Deserialize.de e : De Address) (.invalidLength 2) n
    let (t3, n) ← field (Deserialize.de e : De Address) (.invalidLength 3) n
    let (t4, n) ← field (Deserialize.de e : De Address) (.invalidLength 4) n
    let (t5, n) ← field (Deserialize.de e : De Bits) (.invalidLength 5) n
    let (t6, n) ← field (deU16 e) (.invalidLength 6) n
    let (t7, _) ← field (Deserialize.de e : De RawEnd) (.invalidLength 7) n
    Pure.pure {
      destinationAddress := t0
      sourceLanAddress := t1
      sourceWanAddress := t2
      lanIntroductionAddress := t3
      wanIntroductionAddress := t4
      tunnel := false
      connectionType := ConnectionType.decode (t5.bit0, t5.bit1)
      identifier := t6
      extraBytes := t7 }) := rfl
  rw [hd] at h
  simp [bind_field_eq_panic, Address.canonical.noPanic, deU16_ne_panic, Bits.canonical.noPanic,
    RawEnd.de_ne_panic] at h

theorem IntroductionRequestPayload.sizeExact : SizeExact IntroductionRequestPayload where
  size e r r' v _ h := by
    rw [IntroductionRequestPayload.de_eq_ok] at h
    obtain ⟨a, b, c, rest, fl, h1, h2, h3, _, _, hx, rfl⟩ := h
    have hr := RawEnd.de_eq_ok hx
    have hs : Bincode.serialize e v = .ok (a ++ (b ++ (c ++ (reqFlags v ::
        (intBytes e 2 v.identifier.toNat ++ v.extraBytes.data))))) := by
      rw [IntroductionRequestPayload.ser_eq, h1, h2, h3]; rfl
    refine ⟨a ++ (b ++ (c ++ (fl :: (intBytes e 2 v.identifier.toNat ++ v.extraBytes.data)))), ?_, ?_⟩
    · rw [hr]; simp
    · rw [Bincode.size_of_serialize hs]; simp
  noPanic := IntroductionRequestPayload.de_ne_panic

theorem IntroductionResponsePayload.sizeExact : SizeExact IntroductionResponsePayload where
  size e r r' v _ h := by
    rw [IntroductionResponsePayload.de_eq_ok] at h
    obtain ⟨a, b, c, d, f, rest, fl, h1, h2, h3, h4, h5, _, _, hx, rfl⟩ := h
    have hr := RawEnd.de_eq_ok hx
    have hs : Bincode.serialize e v = .ok (a ++ (b ++ (c ++ (d ++ (f ++ (respFlags v ::
        (intBytes e 2 v.identifier.toNat ++ v.extraBytes.data))))))) := by
      rw [IntroductionResponsePayload.ser_eq, h1, h2, h3, h4, h5]; rfl
    refine ⟨a ++ (b ++ (c ++ (d ++ (f ++ (fl ::
      (intBytes e 2 v.identifier.toNat ++ v.extraBytes.data)))))), ?_, ?_⟩
    · rw [hr]; simp
    · rw [Bincode.size_of_serialize hs]; simp
  noPanic := IntroductionResponsePayload.de_ne_panic

/-! ## Authentication payload -/

/-- The content of the length-prefixed key, as the reader takes it apart. -/
theorem authOfContents_eq (c : Bytes) :
    authOfContents c =
      if c.length < 10 then .panic
      else if c.take 10 ≠ libNaCLPK then
        .err (.custom "Received BinMemberAuthenticationPayload without LibNaclPK: prefix")
      else if h : c.length < 74 then .panic
      else .ok ⟨⟨(c.take 74).drop 42, by simp; omega⟩, ⟨(c.take 42).drop 10, by simp; omega⟩⟩ := by
  by_cases h1 : c.length < 10
  · have : ¬ 10 ≤ c.length := by omega
    simp [authOfContents, slice, h1, this]
  · have h1' : 10 ≤ c.length := by omega
    by_cases h2 : c.take 10 = libNaCLPK
    · by_cases h3 : c.length < 74
      · by_cases h4 : 42 ≤ c.length
        · have h5 : ¬ 74 ≤ c.length := by omega
          simp [authOfContents, slice, h1, h1', h2, h3, h4, h5, toFixed]
        · simp [authOfContents, slice, h1, h1', h2, h3, h4]
      · have h4 : 42 ≤ c.length := by omega
        have h5 : 74 ≤ c.length := by omega
        simp [authOfContents, slice, h1, h1', h2, h3, h4, h5, toFixed]
    · simp [authOfContents, slice, h1, h1', h2]

theorem BinMemberAuthenticationPayload.de_def (e : Endian) (r : Bytes) :
    (Deserialize.de e : De BinMemberAuthenticationPayload) r =
      match (Deserialize.de e : De VarLen16) r with
      | .ok (c, r') =>
        (match authOfContents c.data with
        | .ok a => .ok (a, r')
        | .err x => .err x
        | .panic => .panic)
      | .err x => .err x
      | .panic => .panic := by
  have hd : (Deserialize.de e : De BinMemberAuthenticationPayload) = (do
    let t ← (Deserialize.de e : De VarLen16)
    De.lift (authOfContents t.data)) := rfl
  rw [hd, De.bind_run]
  cases (Deserialize.de e : De VarLen16) r with
  | ok x =>
    simp only [De.lift]
    cases authOfContents x.1.data <;> rfl
  | err x => rfl
  | panic => rfl

/-- The bytes of an authentication payload. -/
def authBytes (e : Endian) (v : BinMemberAuthenticationPayload) : Bytes :=
  intBytes e 2 74 ++ (libNaCLPK ++ (v.encryptionKeyBin.1 ++ v.publicKeyBin.1))

theorem BinMemberAuthenticationPayload.ser_eq (e : Endian) (v : BinMemberAuthenticationPayload) :
    Bincode.serialize e v = .ok (authBytes e v) := by
  have h1 := v.publicKeyBin.2
  have h2 := v.encryptionKeyBin.2
  simp [Bincode.serialize, Serialize.ser, authBytes, Tok.bytes, h1, h2]

theorem authBytes_length (e : Endian) (v : BinMemberAuthenticationPayload) :
    (authBytes e v).length = 76 := by
  have h1 := v.publicKeyBin.2
  have h2 := v.encryptionKeyBin.2
  simp [authBytes, h1, h2, libNaCLPK]

theorem BinMemberAuthenticationPayload.roundTrip : RoundTrip BinMemberAuthenticationPayload := by
  intro e v bs h _ rest
  rw [BinMemberAuthenticationPayload.ser_eq] at h
  cases h
  have h1 := v.publicKeyBin.2
  have h2 := v.encryptionKeyBin.2
  have hc : (libNaCLPK ++ (v.encryptionKeyBin.1 ++ v.publicKeyBin.1)).length = 74 := by
    simp [h1, h2, libNaCLPK]
  have hd : (Deserialize.de e : De VarLen16) (authBytes e v ++ rest) =
      .ok (⟨libNaCLPK ++ (v.encryptionKeyBin.1 ++ v.publicKeyBin.1)⟩, rest) := by
    rw [VarLen16.de_eq_ok]
    simp only [hc]
    exact ⟨by omega, by simp [authBytes]⟩
  rw [BinMemberAuthenticationPayload.de_def, hd]
  simp only [authOfContents_eq]
  rw [if_neg (by omega), if_neg (by simp [libNaCLPK]), dif_neg (by omega)]
  have e1 : (libNaCLPK ++ (v.encryptionKeyBin.1 ++ v.publicKeyBin.1)).take 74 =
      libNaCLPK ++ (v.encryptionKeyBin.1 ++ v.publicKeyBin.1) := List.take_of_length_le (by omega)
  have e2 : (libNaCLPK ++ (v.encryptionKeyBin.1 ++ v.publicKeyBin.1)).drop 42 =
      v.publicKeyBin.1 := by
    rw [← List.append_assoc, List.drop_append_of_le_length (by simp [h2, libNaCLPK]),
      List.drop_of_length_le (by simp [h2, libNaCLPK])]
    rfl
  have e3 : ((libNaCLPK ++ (v.encryptionKeyBin.1 ++ v.publicKeyBin.1)).take 42).drop 10 =
      v.encryptionKeyBin.1 := by
    rw [← List.append_assoc, List.take_append_of_le_length (by simp [h2, libNaCLPK]),
      List.take_of_length_le (by simp [h2, libNaCLPK]),
      List.drop_append_of_le_length (by simp [libNaCLPK]),
      List.drop_of_length_le (by simp [libNaCLPK])]
    rfl
  simp only [e1, e2, e3]

/-! ## Header -/

theorem Header.de_def (e : Endian) (r : Bytes) :
    (Deserialize.de e : De Header) r = (do
      let (v0, n) ← field deU8 noValidHeader usizeMax
      let (v1, n) ← field deU8 noValidHeader n
      if [v0, v1] = [0, 2] then
        let (midHash, n) ← repeatField deU8 noValidHeader 20 n
        let (messageType, _) ← field deU8 noValidHeader n
        Pure.pure (Header.ofMid midHash messageType)
      else De.fail noValidHeader : De Header) r := rfl

theorem Header.de_eq_ok {e : Endian} {r r' : Bytes} {h : Header} :
    (Deserialize.de e : De Header) r = .ok (h, r') ↔
      ∃ (mid : Bytes) (t : UInt8), mid.length = 20 ∧ h = Header.ofMid mid t ∧
        r = 0 :: 2 :: (mid ++ t :: r') := by
  rw [Header.de_def, bind_field_eq_ok (by decide)]
  constructor
  · rintro ⟨v0, r1, h1, h2⟩
    rw [deU8_eq_ok] at h1
    simp only at h2
    rw [bind_field_eq_ok (by decide)] at h2
    obtain ⟨v1, r2, h3, h4⟩ := h2
    rw [deU8_eq_ok] at h3
    simp only at h4
    split at h4
    · rename_i hv
      simp only [List.cons.injEq, and_true] at hv
      rw [bind_repeatField_eq_ok (by decide)] at h4
      obtain ⟨mid, r3, h5, h6, h7⟩ := h4
      simp only at h7
      rw [bind_field_eq_ok (by decide)] at h7
      obtain ⟨t, r4, h8, h9⟩ := h7
      rw [deU8_eq_ok] at h8
      simp only [De.pure_run, Outcome.ok.injEq, Prod.mk.injEq] at h9
      exact ⟨mid, t, h5, h9.1.symm, by rw [h1, h3, hv.1, hv.2, h6, h8, h9.2]⟩
    · simp at h4
  · rintro ⟨mid, t, hl, rfl, rfl⟩
    refine ⟨0, _, deU8_eq_ok.mpr rfl, ?_⟩
    simp only
    rw [bind_field_eq_ok (by decide)]
    refine ⟨2, _, deU8_eq_ok.mpr rfl, ?_⟩
    simp only [if_true]
    rw [bind_repeatField_eq_ok (by decide)]
    refine ⟨mid, _, hl, rfl, ?_⟩
    simp only
    rw [bind_field_eq_ok (by decide)]
    exact ⟨t, r', deU8_eq_ok.mpr rfl, rfl⟩

theorem Header.de_ne_panic (e : Endian) (r : Bytes) : (Deserialize.de e : De Header) r ≠ .panic := by
  intro h
  rw [Header.de_def, bind_field_eq_panic (by decide)] at h
  rcases h with h | ⟨v0, r1, h1, h⟩
  · exact deU8_ne_panic _ h
  simp only at h
  rw [bind_field_eq_panic (by decide)] at h
  rcases h with h | ⟨v1, r2, h2, h⟩
  · exact deU8_ne_panic _ h
  simp only at h
  split at h
  · rw [bind_repeatField_eq_panic (by decide)] at h
    obtain ⟨_, _, _, _, h⟩ := h
    simp only at h
    rw [bind_field_eq_panic (by decide)] at h
    rcases h with h | ⟨_, _, _, h⟩
    · exact deU8_ne_panic _ h
    · simp at h
  · simp at h

end Ipv8
