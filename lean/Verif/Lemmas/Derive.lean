import Verif.Lemmas.Types
import Verif.SpecPacket
/-!
# Derived codecs
-/

namespace Ipv8

/-- The bytes of a list of tokens. -/
abbrev flat (e : Endian) (ts : List Tok) : Bytes := ts.flatMap (Tok.bytes e)

/-! ## What is read is what would be written -/

theorem vecLoop_exact {α : Type} {d : De α} {f : α → Outcome (List Tok)} {e : Endian}
    (hd : ∀ r r' v, d r = .ok (v, r') → ∃ ts, f v = .ok ts ∧ r = flat e ts ++ r') :
    ∀ (n : Nat) (r r' : Bytes) (vs : List α), vecLoop d n r = .ok (vs, r') →
      vs.length = n ∧ ∃ ts, serSeq f vs = .ok ts ∧ r = flat e ts ++ r' := by
  intro n
  induction n with
  | zero =>
    intro r r' vs h
    simp only [vecLoop, De.pure_run, Outcome.ok.injEq, Prod.mk.injEq] at h
    obtain ⟨rfl, rfl⟩ := h
    exact ⟨rfl, [], rfl, rfl⟩
  | succ n ih =>
    intro r r' vs h
    simp only [vecLoop, De.bind_eq_ok, De.pure_run, Outcome.ok.injEq, Prod.mk.injEq] at h
    obtain ⟨a, r1, h1, as, r2, h2, rfl, rfl⟩ := h
    obtain ⟨ts1, e1, rfl⟩ := hd _ _ _ h1
    obtain ⟨hl, ts2, e2, rfl⟩ := ih _ _ _ h2
    exact ⟨by simp [hl], ts1 ++ ts2, by simp [serSeq, e1, e2], by simp⟩

theorem vecLoop_ne_panic {α : Type} {d : De α} (hd : ∀ r, d r ≠ .panic) :
    ∀ (n : Nat) (r : Bytes), vecLoop d n r ≠ .panic := by
  intro n
  induction n with
  | zero => intro r h; simp [vecLoop] at h
  | succ n ih =>
    intro r h
    simp only [vecLoop, De.bind_eq_panic] at h
    rcases h with h | ⟨a, r1, _, h | ⟨_, _, _, h⟩⟩
    · exact hd _ h
    · exact ih _ h
    · simp at h

theorem ser_of_canonical {α : Type} [Serialize α] [Deserialize α] (c : Canonical α) {e : Endian}
    {r r' : Bytes} {v : α} (h : (Deserialize.de e : De α) r = .ok (v, r')) :
    ∃ ts, Serialize.ser v = .ok ts ∧ r = flat e ts ++ r' := by
  obtain ⟨bs, h1, h2⟩ := (c.exact e r r' v).mp h
  rw [Bincode.serialize_eq_ok] at h1
  obtain ⟨ts, h3, rfl⟩ := h1
  exact ⟨ts, h3, h2⟩

theorem deString_eq_ok {e : Endian} {r r' : Bytes} {v : String} :
    deString e r = .ok (v, r') ↔ v.toByteArray.data.size < 2 ^ 64 ∧
      r = flat e (.u64 (UInt64.ofNat v.toByteArray.data.size) ::
        v.toByteArray.data.toList.map Tok.u8) ++ r' := by
  simp only [deString, deVec, De.bind_eq_ok, deU64_eq_ok, vecLoop_eq_ok, flat, List.flatMap_cons,
    flatMap_u8]
  constructor
  · rintro ⟨bs, r1, ⟨n, r2, rfl, hl, rfl⟩, h⟩
    split at h
    · simp only [De.pure_run, Outcome.ok.injEq, Prod.mk.injEq] at h
      obtain ⟨rfl, rfl⟩ := h
      have := n.toNat_lt
      refine ⟨?_, ?_⟩
      · simp only [List.size_toArray, hl]; omega
      · simp [hl]
    · simp at h
  · rintro ⟨hl, rfl⟩
    refine ⟨v.toByteArray.data.toList, r', ⟨_, _, by rw [List.append_assoc], ?_, rfl⟩, ?_⟩
    · rw [UInt64.toNat_ofNat', Nat.mod_eq_of_lt hl]; simp
    · have hv : (ByteArray.mk v.toByteArray.data.toList.toArray).IsValidUTF8 := v.isValidUTF8
      rw [dif_pos hv]
      rfl

theorem deString_ne_panic (e : Endian) (r : Bytes) : deString e r ≠ .panic := by
  intro h
  simp only [deString, deVec, De.bind_eq_panic] at h
  rcases h with (h | ⟨_, _, _, h⟩) | ⟨_, _, _, h⟩
  · exact deU64_ne_panic _ _ h
  · exact vecLoop_ne_panic deU8_ne_panic _ _ h
  · split at h <;> simp at h

theorem deArray_eq_ok {α : Type} {d : De α} {n : Nat} {r r' : Bytes}
    {v : { l : List α // l.length = n }} :
    deArray d n r = .ok (v, r') ↔ vecLoop d n r = .ok (v.val, r') := by
  simp only [deArray, De.bind_eq_ok]
  constructor
  · rintro ⟨xs, r1, h1, h⟩
    split at h
    · simp only [De.pure_run, Outcome.ok.injEq, Prod.mk.injEq] at h
      obtain ⟨rfl, rfl⟩ := h
      exact h1
    · simp at h
  · intro h
    refine ⟨_, _, h, ?_⟩
    rw [dif_pos v.property]
    rfl

theorem utf8CharWidth_encode (c : Char) :
    ∃ b bs, String.utf8EncodeChar c = b :: bs ∧ utf8CharWidth b = bs.length + 1 := by
  have hv : c.val.toNat < 55296 ∨ 57343 < c.val.toNat ∧ c.val.toNat < 1114112 := c.valid
  fun_cases String.utf8EncodeChar c
  all_goals refine ⟨_, _, rfl, ?_⟩
  all_goals unfold utf8CharWidth
  all_goals simp only [UInt8.lt_iff_toNat_lt, UInt8.toNat_ofNat', UInt8.reduceToNat]
  all_goals simp only [List.length_cons, List.length_nil]
  all_goals repeat' split
  all_goals omega

/-- A character of one byte. -/
theorem utf8EncodeChar_ofNat (b : UInt8) (h : utf8CharWidth b = 1) :
    String.utf8EncodeChar (Char.ofNat b.toNat) = [b] := by
  have hb : b.toNat < 128 := by
    unfold utf8CharWidth at h
    simp only [UInt8.lt_iff_toNat_lt, UInt8.reduceToNat] at h
    by_cases hx : b.toNat < 128
    · exact hx
    · rw [if_neg hx] at h
      repeat' split at h
      all_goals omega
  have hn : (Char.ofNat b.toNat).val.toNat = b.toNat := by
    rw [Char.ofNat, dif_pos (Or.inl (by omega))]
    rfl
  unfold String.utf8EncodeChar
  simp only [hn, show b.toNat ≤ 127 by omega, if_true]
  simp

theorem deBytes_eq_ok {k : Nat} {r r' bs : Bytes} :
    deBytes k r = .ok (bs, r') ↔ bs.length = k ∧ r = bs ++ r' := by
  unfold deBytes
  split
  · constructor
    · intro h; simp at h
    · rintro ⟨h1, rfl⟩; simp at *; omega
  · constructor
    · intro h
      simp only [Outcome.ok.injEq, Prod.mk.injEq] at h
      obtain ⟨rfl, rfl⟩ := h
      simp; omega
    · rintro ⟨rfl, rfl⟩; simp

theorem utf8EncodeChar_inj {c c' : Char}
    (h : String.utf8EncodeChar c = String.utf8EncodeChar c') : c = c' := by
  have h1 := ByteArray.utf8DecodeChar?_utf8EncodeChar_append (b := ByteArray.empty) (c := c)
  have h2 := ByteArray.utf8DecodeChar?_utf8EncodeChar_append (b := ByteArray.empty) (c := c')
  rw [h] at h1
  rw [h1] at h2
  exact Option.some.inj h2

/-- The first character of a valid UTF-8 text whose first byte announces the whole text. -/
theorem head_char {b : UInt8} {bs : Bytes} (hw : utf8CharWidth b = bs.length + 1)
    (h : (ByteArray.mk (b :: bs).toArray).IsValidUTF8) {c : Char} :
    (String.ofByteArray ⟨(b :: bs).toArray⟩ h).toList.head? = some c ↔
      String.utf8EncodeChar c = b :: bs := by
  have he := String.utf8Encode_toList (b := String.ofByteArray ⟨(b :: bs).toArray⟩ h)
  have key : ∀ l : List Char, l.utf8Encode.data.toList = l.flatMap String.utf8EncodeChar := by
    intro l
    simp [List.utf8Encode]
  have h2 := key (String.ofByteArray ⟨(b :: bs).toArray⟩ h).toList
  rw [he] at h2
  simp at h2
  cases hl : (String.ofByteArray ⟨(b :: bs).toArray⟩ h).toList with
  | nil => rw [hl] at h2; simp at h2
  | cons c' cs =>
    rw [hl] at h2
    simp only [List.flatMap_cons] at h2
    obtain ⟨b', bs', e1, e2⟩ := utf8CharWidth_encode c'
    rw [e1] at h2
    simp only [List.cons_append, List.cons.injEq] at h2
    obtain ⟨rfl, h2⟩ := h2
    have : cs.flatMap String.utf8EncodeChar = [] := by
      have := congrArg List.length h2
      simp only [List.length_append] at this
      exact List.eq_nil_of_length_eq_zero (by omega)
    rw [this, List.append_nil] at h2
    subst h2
    simp only [List.head?_cons, Option.some.injEq]
    constructor
    · rintro rfl; exact e1
    · intro hc
      have h3 : String.utf8EncodeChar c = String.utf8EncodeChar c' := by rw [hc, e1]
      exact utf8EncodeChar_inj h3.symm

theorem deChar_eq_ok {r r' : Bytes} {c : Char} :
    deChar r = .ok (c, r') ↔ r = String.utf8EncodeChar c ++ r' := by
  cases r with
  | nil =>
    obtain ⟨b, bs, e1, _⟩ := utf8CharWidth_encode c
    simp [deChar, deU8, De.bind_run, e1]
  | cons b r =>
    simp only [deChar]
    rw [De.bind_ok (deU8_cons b r)]
    obtain ⟨b', bs', e1, e2⟩ := utf8CharWidth_encode c
    by_cases h1 : utf8CharWidth b = 1
    · rw [if_pos h1, De.pure_run, Outcome.ok.injEq, Prod.mk.injEq]
      have h3 := utf8EncodeChar_ofNat b h1
      constructor
      · rintro ⟨rfl, rfl⟩; rw [h3]; rfl
      · intro h
        rw [e1] at h
        simp only [List.cons_append, List.cons.injEq] at h
        obtain ⟨rfl, h⟩ := h
        have : bs' = [] := List.eq_nil_of_length_eq_zero (by omega)
        subst this
        exact ⟨utf8EncodeChar_inj (by rw [h3, e1]), h⟩
    · rw [if_neg h1]
      by_cases h0 : utf8CharWidth b = 0
      · rw [if_pos h0]
        constructor
        · intro h; simp at h
        · intro h
          rw [e1] at h
          simp only [List.cons_append, List.cons.injEq] at h
          rw [← h.1] at e2; omega
      · rw [if_neg h0]
        unfold deCharRest
        constructor
        · intro h
          cases hb : deBytes (utf8CharWidth b - 1) r with
          | err e => simp [hb] at h
          | panic => simp [hb] at h
          | ok x =>
            obtain ⟨bs, r1⟩ := x
            simp only [hb] at h
            obtain ⟨hl, rfl⟩ := deBytes_eq_ok.mp hb
            split at h
            · rename_i hv
              split at h
              · rename_i c1 hc
                simp only [Outcome.ok.injEq, Prod.mk.injEq] at h
                obtain ⟨rfl, rfl⟩ := h
                rw [(head_char (by omega) hv).mp hc]; rfl
              · simp at h
            · simp at h
        · intro h
          rw [e1] at h
          simp only [List.cons_append, List.cons.injEq] at h
          obtain ⟨rfl, rfl⟩ := h
          have hb : deBytes (utf8CharWidth b - 1) (bs' ++ r') = .ok (bs', r') :=
            deBytes_eq_ok.mpr ⟨by omega, rfl⟩
          have hv : (ByteArray.mk (b :: bs').toArray).IsValidUTF8 := by
            have := Char.isValidUTF8_toByteArray_utf8EncodeChar (c := c)
            rw [e1] at this
            have hx : (b :: bs').toByteArray = ByteArray.mk (b :: bs').toArray := by
              apply ByteArray.ext; simp
            rwa [hx] at this
          simp only [hb, dif_pos hv, (head_char e2 hv).mpr e1]

theorem deChar_ne_panic (r : Bytes) : deChar r ≠ .panic := by
  intro h
  simp only [deChar, De.bind_eq_panic] at h
  rcases h with h | ⟨b, r1, _, h⟩
  · exact deU8_ne_panic _ h
  · repeat' split at h
    · simp at h
    · simp at h
    unfold deCharRest at h
    repeat' split at h
    all_goals first | (simp at h; done) | skip
    rename_i hb
    unfold deBytes at hb
    split at hb <;> simp at hb

theorem Sch.de_exact (e : Endian) (s : Sch) : ∀ (r r' : Bytes) (v : s.Ty),
    s.de e r = .ok (v, r') → ∃ ts, s.ser v = .ok ts ∧ r = flat e ts ++ r' := by
  induction s with
  | u8 =>
    intro r r' v h
    simp only [Sch.de, deU8_eq_ok] at h
    exact ⟨_, rfl, by simp [flat, Tok.bytes, h]⟩
  | u16 =>
    intro r r' v h
    simp only [Sch.de, deU16_eq_ok] at h
    exact ⟨_, rfl, by simp [flat, h]⟩
  | u32 =>
    intro r r' v h
    simp only [Sch.de, deU32_eq_ok] at h
    exact ⟨_, rfl, by simp [flat, h]⟩
  | u64 =>
    intro r r' v h
    simp only [Sch.de, deU64_eq_ok] at h
    exact ⟨_, rfl, by simp [flat, h]⟩
  | u128 =>
    intro r r' v h
    simp only [Sch.de, deU128_eq_ok] at h
    exact ⟨_, rfl, by simp [flat, h]⟩
  | char =>
    intro r r' v h
    exact ⟨_, rfl, by simp only [flat, flatMap_u8]; exact deChar_eq_ok.mp h⟩
  | i8 =>
    intro r r' v h
    simp only [Sch.de, De.bind_eq_ok, deU8_eq_ok, De.pure_run, Outcome.ok.injEq, Prod.mk.injEq] at h
    obtain ⟨x, r1, rfl, rfl, rfl⟩ := h
    exact ⟨_, rfl, by simp [flat, Tok.bytes]⟩
  | i16 =>
    intro r r' v h
    simp only [Sch.de, De.bind_eq_ok, deU16_eq_ok, De.pure_run, Outcome.ok.injEq, Prod.mk.injEq] at h
    obtain ⟨x, r1, rfl, rfl, rfl⟩ := h
    exact ⟨_, rfl, by simp [flat]⟩
  | i32 =>
    intro r r' v h
    simp only [Sch.de, De.bind_eq_ok, deU32_eq_ok, De.pure_run, Outcome.ok.injEq, Prod.mk.injEq] at h
    obtain ⟨x, r1, rfl, rfl, rfl⟩ := h
    exact ⟨_, rfl, by simp [flat]⟩
  | i64 =>
    intro r r' v h
    simp only [Sch.de, De.bind_eq_ok, deU64_eq_ok, De.pure_run, Outcome.ok.injEq, Prod.mk.injEq] at h
    obtain ⟨x, r1, rfl, rfl, rfl⟩ := h
    exact ⟨_, rfl, by simp [flat]⟩
  | string =>
    intro r r' v h
    exact ⟨_, rfl, (deString_eq_ok.mp h).2⟩
  | array n s ih =>
    intro r r' v h
    exact (vecLoop_exact (f := s.ser) (e := e) ih _ _ _ _ (deArray_eq_ok.mp h)).2
  | bool =>
    intro r r' v h
    simp only [Sch.de, deBool, De.bind_eq_ok, deU8_eq_ok] at h
    obtain ⟨b, r1, rfl, h⟩ := h
    split at h
    · simp only [De.pure_run, Outcome.ok.injEq, Prod.mk.injEq] at h
      obtain ⟨rfl, rfl⟩ := h
      exact ⟨_, rfl, by simp [flat, Tok.bytes, *]⟩
    · split at h
      · simp only [De.pure_run, Outcome.ok.injEq, Prod.mk.injEq] at h
        obtain ⟨rfl, rfl⟩ := h
        exact ⟨_, rfl, by simp [flat, Tok.bytes, *]⟩
      · simp at h
  | bits => intro r r' v h; exact ser_of_canonical Bits.canonical h
  | address => intro r r' v h; exact ser_of_canonical Address.canonical h
  | varlen16 => intro r r' v h; exact ser_of_canonical VarLen16.canonical h
  | varlen32 => intro r r' v h; exact ser_of_canonical VarLen32.canonical h
  | nested => intro r r' v h; exact ser_of_canonical NestedPacket.canonical h
  | varlen64 =>
    intro r r' v h
    simp only [Sch.de] at h
    rw [VarLen64.de_eq_ok] at h
    obtain ⟨hl, rfl⟩ := h
    have := VarLen64.ser_eq (e := e) hl
    rw [Bincode.serialize_eq_ok] at this
    obtain ⟨ts, h3, h4⟩ := this
    exact ⟨ts, h3, by rw [← List.append_assoc, h4]⟩
  | rawEnd =>
    intro r r' v h
    exact ⟨_, rfl, by rw [RawEnd.de_eq_ok h]; simp [flat]⟩
  | option s ih =>
    intro r r' v h
    simp only [Sch.de, deOption, De.bind_eq_ok, deU8_eq_ok] at h
    obtain ⟨b, r1, rfl, h⟩ := h
    split at h
    · simp only [De.pure_run, Outcome.ok.injEq, Prod.mk.injEq] at h
      obtain ⟨rfl, rfl⟩ := h
      exact ⟨_, rfl, by simp [flat, Tok.bytes, *]⟩
    · split at h
      · simp only [De.bind_eq_ok, De.pure_run, Outcome.ok.injEq, Prod.mk.injEq] at h
        obtain ⟨a, r2, h1, rfl, rfl⟩ := h
        obtain ⟨ts, e1, rfl⟩ := ih _ _ _ h1
        exact ⟨.u8 1 :: ts, by simp [Sch.ser, e1], by simp [flat, Tok.bytes, *]⟩
      · simp at h
  | vec s ih =>
    intro r r' v h
    simp only [Sch.de, deVec, De.bind_eq_ok, deU64_eq_ok] at h
    obtain ⟨n, r1, rfl, h⟩ := h
    obtain ⟨hl, ts, e1, rfl⟩ := vecLoop_exact (f := s.ser) (e := e) ih _ _ _ _ h
    refine ⟨.u64 n :: ts, ?_, by simp [flat]⟩
    simp [Sch.ser, e1, hl]
  | unit =>
    intro r r' v h
    simp only [Sch.de, De.pure_run, Outcome.ok.injEq, Prod.mk.injEq] at h
    exact ⟨[], rfl, by simp [flat, h.2]⟩
  | cons a b iha ihb =>
    intro r r' v h
    simp only [Sch.de, De.bind_eq_ok, De.pure_run, Outcome.ok.injEq, Prod.mk.injEq] at h
    obtain ⟨x, r1, h1, y, r2, h2, rfl, rfl⟩ := h
    obtain ⟨ts1, e1, rfl⟩ := iha _ _ _ h1
    obtain ⟨ts2, e2, rfl⟩ := ihb _ _ _ h2
    exact ⟨ts1 ++ ts2, by simp [Sch.ser, e1, e2], by simp [flat]⟩
  | enum n f ih =>
    intro r r' v h
    simp only [Sch.de, De.bind_eq_ok, deU32_eq_ok] at h
    obtain ⟨i, r1, rfl, h⟩ := h
    split at h
    · rename_i hi
      simp only [De.bind_eq_ok, De.pure_run, Outcome.ok.injEq, Prod.mk.injEq] at h
      obtain ⟨x, r2, h1, rfl, rfl⟩ := h
      obtain ⟨ts, e1, rfl⟩ := ih _ _ _ _ h1
      refine ⟨.u32 i :: ts, ?_, by simp [flat]⟩
      simp [Sch.ser, e1]
    · simp at h

theorem Sch.de_ne_panic (e : Endian) (s : Sch) : ∀ (r : Bytes), s.de e r ≠ .panic := by
  induction s with
  | u8 => exact deU8_ne_panic
  | u16 => exact deU16_ne_panic e
  | u32 => exact deU32_ne_panic e
  | u64 => exact deU64_ne_panic e
  | u128 => exact deU128_ne_panic e
  | char => exact deChar_ne_panic
  | i8 =>
    intro r h
    simp only [Sch.de, De.bind_eq_panic] at h
    rcases h with h | ⟨_, _, _, h⟩
    · exact deU8_ne_panic _ h
    · simp at h
  | i16 =>
    intro r h
    simp only [Sch.de, De.bind_eq_panic] at h
    rcases h with h | ⟨_, _, _, h⟩
    · exact deU16_ne_panic _ _ h
    · simp at h
  | i32 =>
    intro r h
    simp only [Sch.de, De.bind_eq_panic] at h
    rcases h with h | ⟨_, _, _, h⟩
    · exact deU32_ne_panic _ _ h
    · simp at h
  | i64 =>
    intro r h
    simp only [Sch.de, De.bind_eq_panic] at h
    rcases h with h | ⟨_, _, _, h⟩
    · exact deU64_ne_panic _ _ h
    · simp at h
  | string => exact deString_ne_panic e
  | array n s ih =>
    intro r h
    simp only [Sch.de, deArray, De.bind_eq_panic] at h
    rcases h with h | ⟨_, _, _, h⟩
    · exact vecLoop_ne_panic ih _ _ h
    · split at h <;> simp at h
  | bool =>
    intro r h
    simp only [Sch.de, deBool, De.bind_eq_panic] at h
    rcases h with h | ⟨_, _, _, h⟩
    · exact deU8_ne_panic _ h
    · split at h
      · simp at h
      · split at h <;> simp at h
  | bits => exact Bits.canonical.noPanic e
  | address => exact Address.canonical.noPanic e
  | varlen16 => exact VarLen16.canonical.noPanic e
  | varlen32 => exact VarLen32.canonical.noPanic e
  | nested => exact NestedPacket.canonical.noPanic e
  | varlen64 => exact VarLen64.sizeExact.noPanic e
  | rawEnd => exact RawEnd.de_ne_panic e
  | option s ih =>
    intro r h
    simp only [Sch.de, deOption, De.bind_eq_panic] at h
    rcases h with h | ⟨_, _, _, h⟩
    · exact deU8_ne_panic _ h
    · split at h
      · simp at h
      · split at h
        · simp only [De.bind_eq_panic] at h
          rcases h with h | ⟨_, _, _, h⟩
          · exact ih _ h
          · simp at h
        · simp at h
  | vec s ih =>
    intro r h
    simp only [Sch.de, deVec, De.bind_eq_panic] at h
    rcases h with h | ⟨_, _, _, h⟩
    · exact deU64_ne_panic _ _ h
    · exact vecLoop_ne_panic ih _ _ h
  | unit => intro r h; simp [Sch.de] at h
  | cons a b iha ihb =>
    intro r h
    simp only [Sch.de, De.bind_eq_panic] at h
    rcases h with h | ⟨_, _, _, h | ⟨_, _, _, h⟩⟩
    · exact iha _ h
    · exact ihb _ h
    · simp at h
  | enum n f ih =>
    intro r h
    simp only [Sch.de, De.bind_eq_panic] at h
    rcases h with h | ⟨_, _, _, h⟩
    · exact deU32_ne_panic _ _ h
    · split at h
      · simp only [De.bind_eq_panic] at h
        rcases h with h | ⟨_, _, _, h⟩
        · exact ih _ _ h
        · simp at h
      · simp at h

/-! ## What is written reads back -/

theorem vecLoop_roundtrip {α : Type} {d : De α} {f : α → Outcome (List Tok)} {e : Endian}
    {P : α → Prop}
    (hd : ∀ v ts rest, P v → f v = .ok ts → d (flat e ts ++ rest) = .ok (v, rest)) :
    ∀ (vs : List α) (ts : List Tok) (rest : Bytes), (∀ v ∈ vs, P v) → serSeq f vs = .ok ts →
      vecLoop d vs.length (flat e ts ++ rest) = .ok (vs, rest) := by
  intro vs
  induction vs with
  | nil =>
    intro ts rest _ h
    simp only [serSeq, Outcome.ok.injEq] at h
    subst h
    rfl
  | cons v vs ih =>
    intro ts rest hp h
    simp only [serSeq, Outcome.bind_eq_ok, Outcome.pure_eq, Outcome.ok.injEq] at h
    obtain ⟨a, ha, b, hb, rfl⟩ := h
    simp only [List.length_cons, vecLoop, flat, List.flatMap_append, List.append_assoc]
    rw [De.bind_ok (hd v a _ (hp v (by simp)) ha),
      De.bind_ok (ih b rest (fun x hx => hp x (by simp [hx])) hb)]
    rfl

theorem read_of_canonical {α : Type} [Serialize α] [Deserialize α] (c : Canonical α) {e : Endian}
    {v : α} {ts : List Tok} (h : Serialize.ser v = .ok ts) (rest : Bytes) :
    (Deserialize.de e : De α) (flat e ts ++ rest) = .ok (v, rest) :=
  c.read (Bincode.serialize_of_ser e h) rest

/-- The variant arm of the derived enum reader, for an index known to be in range. -/
theorem enum_arm {n : Nat} {f : Fin n → Sch} {e : Endian} {i : Fin n} {m : Nat} (hm : m = i.val)
    {x : (f i).Ty} {r r' : Bytes} (h : (f i).de e r = .ok (x, r')) :
    (if h : m < n then (do
      let x ← (f ⟨m, h⟩).de e
      Pure.pure ⟨⟨m, h⟩, x⟩ : De ((i : Fin n) × (f i).Ty))
    else De.fail (.custom "invalid value: expected variant index")) r = .ok (⟨i, x⟩, r') := by
  subst hm
  simp only [i.isLt, dif_pos]
  rw [De.bind_ok h]
  rfl

theorem Sch.roundtrip (e : Endian) (s : Sch) : s.SelfDelimiting →
    ∀ (v : s.Ty) (ts : List Tok) (rest : Bytes), s.Fits v → s.ser v = .ok ts →
      s.de e (flat e ts ++ rest) = .ok (v, rest) := by
  induction s with
  | u8 => intro _ v ts rest _ h; cases h; rfl
  | u16 =>
    intro _ v ts rest _ h; cases h
    simp only [Sch.de, deU16_eq_ok, flat, List.flatMap_cons, List.flatMap_nil, List.append_nil]
  | u32 =>
    intro _ v ts rest _ h; cases h
    simp only [Sch.de, deU32_eq_ok, flat, List.flatMap_cons, List.flatMap_nil, List.append_nil]
  | u64 =>
    intro _ v ts rest _ h; cases h
    simp only [Sch.de, deU64_eq_ok, flat, List.flatMap_cons, List.flatMap_nil, List.append_nil]
  | u128 =>
    intro _ v ts rest _ h; cases h
    simp only [Sch.de, deU128_eq_ok, flat, List.flatMap_cons, List.flatMap_nil, List.append_nil]
  | char =>
    intro _ v ts rest _ h; cases h
    simp only [Sch.de, deChar_eq_ok, flat, flatMap_u8]
  | i8 =>
    intro _ v ts rest _ h; cases h
    simp only [Sch.de, flat, List.flatMap_cons, List.flatMap_nil, List.append_nil, Tok.bytes,
      List.cons_append, List.nil_append]
    rw [De.bind_ok (deU8_cons _ _)]
    simp
  | i16 =>
    intro _ v ts rest _ h; cases h
    simp only [Sch.de, flat, List.flatMap_cons, List.flatMap_nil, List.append_nil]
    rw [De.bind_ok (deU16_tok e _ _)]
    simp
  | i32 =>
    intro _ v ts rest _ h; cases h
    simp only [Sch.de, flat, List.flatMap_cons, List.flatMap_nil, List.append_nil]
    rw [De.bind_ok (deU32_tok e _ _)]
    simp
  | i64 =>
    intro _ v ts rest _ h; cases h
    simp only [Sch.de, flat, List.flatMap_cons, List.flatMap_nil, List.append_nil]
    rw [De.bind_ok (deU64_tok e _ _)]
    simp
  | string =>
    intro _ v ts rest hf h; cases h
    simp only [Sch.Fits, usizeMax] at hf
    exact deString_eq_ok.mpr ⟨by omega, rfl⟩
  | array n s ih =>
    intro hs v ts rest hf h
    refine deArray_eq_ok.mpr ?_
    have := vecLoop_roundtrip (P := s.Fits) (fun v ts rest hp h => ih hs v ts rest hp h) v.val ts rest hf h
    rwa [v.property] at this
  | bool => intro _ v ts rest _ h; cases h; cases v <;> rfl
  | bits => intro _ v ts rest _ h; exact read_of_canonical Bits.canonical h rest
  | address => intro _ v ts rest _ h; exact read_of_canonical Address.canonical h rest
  | varlen16 => intro _ v ts rest _ h; exact read_of_canonical VarLen16.canonical h rest
  | varlen32 => intro _ v ts rest _ h; exact read_of_canonical VarLen32.canonical h rest
  | nested => intro _ v ts rest _ h; exact read_of_canonical NestedPacket.canonical h rest
  | varlen64 =>
    intro _ v ts rest hf h
    have hl : v.data.length < 2 ^ 64 := by
      simp only [Sch.Fits, usizeMax] at hf; omega
    have h1 := VarLen64.ser_eq (e := e) hl
    have h2 := Bincode.serialize_of_ser e h
    simp only [Sch.de]
    rw [VarLen64.de_eq_ok]
    refine ⟨hl, ?_⟩
    have h3 : flat e ts = intBytes e 8 v.data.length ++ v.data := by
      have := h2.symm.trans h1
      simpa using this
    rw [h3, List.append_assoc]
  | rawEnd => intro hs; exact absurd hs (by simp [Sch.SelfDelimiting])
  | option s ih =>
    intro hs v ts rest hf h
    cases v with
    | none => cases h; rfl
    | some x =>
      simp only [Sch.ser, Outcome.bind_eq_ok, Outcome.pure_eq, Outcome.ok.injEq] at h
      obtain ⟨a, ha, rfl⟩ := h
      have := ih hs x a rest hf ha
      simp only [Sch.de, deOption, flat, List.flatMap_cons, Tok.bytes, List.cons_append,
        List.nil_append]
      rw [De.bind_ok (deU8_cons _ _)]
      simp only [show (1 : UInt8) ≠ 0 by decide, if_false, if_true]
      rw [De.bind_ok this]
      rfl
  | vec s ih =>
    intro hs v ts rest hf h
    simp only [Sch.ser, Outcome.bind_eq_ok, Outcome.pure_eq, Outcome.ok.injEq] at h
    obtain ⟨a, ha, rfl⟩ := h
    have hn : (UInt64.ofNat v.length).toNat = v.length := by
      rw [UInt64.toNat_ofNat']
      have := hf.1
      simp only [usizeMax] at this
      omega
    simp only [Sch.de, deVec, flat, List.flatMap_cons, List.append_assoc]
    rw [De.bind_ok (deU64_tok e _ _), hn]
    exact vecLoop_roundtrip (P := s.Fits) (fun v ts rest hp h => ih hs v ts rest hp h) v a rest hf.2 ha
  | unit => intro _ v ts rest _ h; cases h; rfl
  | cons a b iha ihb =>
    intro hs v ts rest hf h
    simp only [Sch.ser, Outcome.bind_eq_ok, Outcome.pure_eq, Outcome.ok.injEq] at h
    obtain ⟨p, hp, q, hq, rfl⟩ := h
    simp only [Sch.de, flat, List.flatMap_append, List.append_assoc]
    rw [De.bind_ok (iha hs.1 v.1 p _ hf.1 hp), De.bind_ok (ihb hs.2 v.2 q rest hf.2 hq)]
    rfl
  | enum n f ih =>
    intro hs v ts rest hf h
    obtain ⟨i, x⟩ := v
    simp only [Sch.ser, Outcome.bind_eq_ok, Outcome.pure_eq, Outcome.ok.injEq] at h
    obtain ⟨a, ha, rfl⟩ := h
    have hn : (UInt32.ofNat i.val).toNat = i.val := by
      rw [UInt32.toNat_ofNat']
      have := hs.1
      have := i.isLt
      omega
    simp only [Sch.de, flat, List.flatMap_cons, List.append_assoc]
    rw [De.bind_ok (deU32_tok e _ _)]
    exact enum_arm hn (ih i (hs.2 i) x a rest hf ha)

theorem Sch.roundtrip_last (e : Endian) (s : Sch) : s.LastOnly →
    ∀ (v : s.Ty) (ts : List Tok), s.Fits v → s.ser v = .ok ts → (flat e ts).length ≤ usizeMax →
      s.de e (flat e ts) = .ok (v, []) := by
  have sd : ∀ s : Sch, s.SelfDelimiting →
    ∀ (v : s.Ty) (ts : List Tok), s.Fits v → s.ser v = .ok ts → (flat e ts).length ≤ usizeMax →
      s.de e (flat e ts) = .ok (v, []) := by
    intro s hs v ts hf h _
    have := Sch.roundtrip e s hs v ts [] hf h
    simpa using this
  induction s with
  | rawEnd =>
    intro _ v ts _ h hl
    cases h
    simp only [Sch.de]
    simp only [flat, flatMap_u8] at hl ⊢
    rw [RawEnd.de_eq e hl]
  | option s ih =>
    intro hs v ts hf h hl
    cases v with
    | none => cases h; rfl
    | some x =>
      simp only [Sch.ser, Outcome.bind_eq_ok, Outcome.pure_eq, Outcome.ok.injEq] at h
      obtain ⟨a, ha, rfl⟩ := h
      have := ih hs x a hf ha (by simp at hl ⊢; omega)
      simp only [Sch.de, deOption, flat, List.flatMap_cons, Tok.bytes, List.cons_append,
        List.nil_append]
      rw [De.bind_ok (deU8_cons _ _)]
      simp only [show (1 : UInt8) ≠ 0 by decide, if_false, if_true]
      rw [De.bind_ok this]
      rfl
  | cons a b iha ihb =>
    intro hs v ts hf h hl
    simp only [Sch.ser, Outcome.bind_eq_ok, Outcome.pure_eq, Outcome.ok.injEq] at h
    obtain ⟨p, hp, q, hq, rfl⟩ := h
    rcases hs with hs | ⟨hs, rfl⟩
    case inr =>
      simp only [Sch.ser, Outcome.ok.injEq] at hq
      subst hq
      rw [List.append_nil] at hl ⊢
      have ha := iha hs v.1 p hf.1 hp hl
      simp only [Sch.de]
      rw [De.bind_ok ha]
      rfl
    have hb := ihb hs.2 v.2 q hf.2 hq (by simp at hl ⊢; omega)
    simp only [Sch.de, flat, List.flatMap_append]
    rw [De.bind_ok (Sch.roundtrip e a hs.1 v.1 p _ hf.1 hp), De.bind_ok hb]
    rfl
  | enum n f ih =>
    intro hs v ts hf h hl
    obtain ⟨i, x⟩ := v
    simp only [Sch.ser, Outcome.bind_eq_ok, Outcome.pure_eq, Outcome.ok.injEq] at h
    obtain ⟨a, ha, rfl⟩ := h
    have hn : (UInt32.ofNat i.val).toNat = i.val := by
      rw [UInt32.toNat_ofNat']
      have := hs.1
      have := i.isLt
      omega
    have hx := ih i (hs.2 i) x a hf ha (by simp at hl ⊢; omega)
    simp only [Sch.de, flat, List.flatMap_cons]
    rw [De.bind_ok (deU32_tok e _ _)]
    exact enum_arm hn hx
  | vec s _ => intro hs; exact sd (.vec s) hs
  | array n s _ => intro hs; exact sd (.array n s) hs
  | string => intro _; exact sd .string trivial
  | i8 => intro _; exact sd .i8 trivial
  | i16 => intro _; exact sd .i16 trivial
  | i32 => intro _; exact sd .i32 trivial
  | i64 => intro _; exact sd .i64 trivial
  | u8 => intro _; exact sd .u8 trivial
  | u16 => intro _; exact sd .u16 trivial
  | u32 => intro _; exact sd .u32 trivial
  | u64 => intro _; exact sd .u64 trivial
  | u128 => intro _; exact sd .u128 trivial
  | char => intro _; exact sd .char trivial
  | bool => intro _; exact sd .bool trivial
  | bits => intro _; exact sd .bits trivial
  | address => intro _; exact sd .address trivial
  | varlen16 => intro _; exact sd .varlen16 trivial
  | varlen32 => intro _; exact sd .varlen32 trivial
  | varlen64 => intro _; exact sd .varlen64 trivial
  | nested => intro _; exact sd .nested trivial
  | unit => intro _; exact sd .unit trivial

theorem Derived.de_eq_ok {s : Sch} {e : Endian} {r r' : Bytes} {v : Derived s} :
    (Deserialize.de e : De (Derived s)) r = .ok (v, r') ↔ s.de e r = .ok (v.val, r') := by
  have hd : (Deserialize.de e : De (Derived s)) = (do
    let v ← s.de e
    Pure.pure ⟨v⟩) := rfl
  rw [hd, De.bind_eq_ok]
  constructor
  · rintro ⟨a, r1, h1, h2⟩
    simp only [De.pure_run, Outcome.ok.injEq, Prod.mk.injEq] at h2
    obtain ⟨rfl, rfl⟩ := h2
    exact h1
  · intro h
    exact ⟨_, _, h, rfl⟩

theorem vecLoop_all {α : Type} {d : De α} {P : α → Prop} (hd : ∀ r r' v, d r = .ok (v, r') → P v) :
    ∀ (n : Nat) (r r' : Bytes) (vs : List α), vecLoop d n r = .ok (vs, r') →
      vs.length = n ∧ ∀ v ∈ vs, P v := by
  intro n
  induction n with
  | zero =>
    intro r r' vs h
    simp only [vecLoop, De.pure_run, Outcome.ok.injEq, Prod.mk.injEq] at h
    obtain ⟨rfl, rfl⟩ := h
    exact ⟨rfl, by simp⟩
  | succ n ih =>
    intro r r' vs h
    simp only [vecLoop, De.bind_eq_ok, De.pure_run, Outcome.ok.injEq, Prod.mk.injEq] at h
    obtain ⟨a, r1, h1, as, r2, h2, rfl, rfl⟩ := h
    obtain ⟨hl, ha⟩ := ih _ _ _ h2
    refine ⟨by simp [hl], ?_⟩
    intro v hv
    rcases List.mem_cons.mp hv with rfl | hv
    · exact hd _ _ _ h1
    · exact ha v hv

/-- Values read fit the address space. -/
theorem Sch.de_fits (e : Endian) (s : Sch) : ∀ (r r' : Bytes) (v : s.Ty),
    s.de e r = .ok (v, r') → s.Fits v := by
  induction s with
  | varlen64 =>
    intro r r' v h
    simp only [Sch.de] at h
    rw [VarLen64.de_eq_ok] at h
    simp only [Sch.Fits, usizeMax]
    omega
  | string =>
    intro r r' v h
    have := (deString_eq_ok.mp h).1
    simp only [Sch.Fits, usizeMax]
    omega
  | array n s ih =>
    intro r r' v h
    exact (vecLoop_all ih _ _ _ _ (deArray_eq_ok.mp h)).2
  | option s ih =>
    intro r r' v h
    cases v with
    | none => trivial
    | some x =>
      simp only [Sch.de, deOption, De.bind_eq_ok, deU8_eq_ok] at h
      obtain ⟨b, r1, rfl, h⟩ := h
      split at h
      · simp at h
      · split at h
        · simp only [De.bind_eq_ok, De.pure_run, Outcome.ok.injEq, Prod.mk.injEq,
            Option.some.injEq] at h
          obtain ⟨a, r2, h1, rfl, rfl⟩ := h
          exact ih _ _ _ h1
        · simp at h
  | vec s ih =>
    intro r r' v h
    simp only [Sch.de, deVec, De.bind_eq_ok, deU64_eq_ok] at h
    obtain ⟨n, r1, rfl, h⟩ := h
    obtain ⟨hl, ha⟩ := vecLoop_all ih _ _ _ _ h
    refine ⟨?_, ha⟩
    have := n.toNat_lt
    simp only [usizeMax]
    omega
  | cons a b iha ihb =>
    intro r r' v h
    simp only [Sch.de, De.bind_eq_ok, De.pure_run, Outcome.ok.injEq, Prod.mk.injEq] at h
    obtain ⟨x, r1, h1, y, r2, h2, rfl, rfl⟩ := h
    exact ⟨iha _ _ _ h1, ihb _ _ _ h2⟩
  | enum n f ih =>
    intro r r' v h
    simp only [Sch.de, De.bind_eq_ok, deU32_eq_ok] at h
    obtain ⟨i, r1, rfl, h⟩ := h
    split at h
    · simp only [De.bind_eq_ok, De.pure_run, Outcome.ok.injEq, Prod.mk.injEq] at h
      obtain ⟨x, r2, h1, rfl, rfl⟩ := h
      exact ih _ _ _ _ h1
    · simp at h
  | _ => intro _ _ _ _; trivial

theorem Derived.sizeExact (s : Sch) : SizeExact (Derived s) where
  size e r r' v _ h := by
    rw [Derived.de_eq_ok] at h
    obtain ⟨ts, h1, h2⟩ := Sch.de_exact e s r r' v.val h
    refine ⟨flat e ts, h2, ?_⟩
    have : (Serialize.ser v : Outcome (List Tok)) = .ok ts := h1
    exact Bincode.size_of_serialize (Bincode.serialize_of_ser e this)
  noPanic e r h := by
    have hd : (Deserialize.de e : De (Derived s)) = (do
      let v ← s.de e
      Pure.pure ⟨v⟩) := rfl
    rw [hd, De.bind_eq_panic] at h
    rcases h with h | ⟨_, _, _, h⟩
    · exact Sch.de_ne_panic e s _ h
    · simp at h

end Ipv8
