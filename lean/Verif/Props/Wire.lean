import Verif.Props.Bounded
/-!
# Property C80: the wire format of user-defined payloads
-/

namespace Ipv8
open Spec PacketDeserializer

/-! ## Specification -/

namespace Spec

/-- Sixteen bytes, most significant first. -/
def be128 (n : Nat) : Bytes := be64 (n / 2 ^ 64) ++ be64 n

/-- The UTF-8 encoding of a code point. -/
def utf8 (c : Char) : Bytes :=
  let n := c.toNat
  if n < 0x80 then [UInt8.ofNat n]
  else if n < 0x800 then [UInt8.ofNat (0xC0 + n / 64), UInt8.ofNat (0x80 + n % 64)]
  else if n < 0x10000 then
    [UInt8.ofNat (0xE0 + n / 4096), UInt8.ofNat (0x80 + n / 64 % 64), UInt8.ofNat (0x80 + n % 64)]
  else
    [UInt8.ofNat (0xF0 + n / 262144), UInt8.ofNat (0x80 + n / 4096 % 64),
      UInt8.ofNat (0x80 + n / 64 % 64), UInt8.ofNat (0x80 + n % 64)]

/-- Eight flags as one byte, `bit7` being the highest digit. -/
def flagByte (x : Bits) : UInt8 :=
  UInt8.ofNat (x.bit0.toNat + 2 * x.bit1.toNat + 4 * x.bit2.toNat + 8 * x.bit3.toNat +
    16 * x.bit4.toNat + 32 * x.bit5.toNat + 64 * x.bit6.toNat + 128 * x.bit7.toNat)

/-- The concatenation of the parts, if all of them are there. -/
def allOf : List (Option Bytes) → Option Bytes
  | [] => some []
  | none :: _ => none
  | some w :: ws => (allOf ws).map (w ++ ·)

/-- The wire form of a value of a user-defined type: numbers big-endian, signed ones in two's complement;
booleans as 0 or 1; characters in UTF-8; strings as an eight-byte length (in bytes) and UTF-8; `Option` as
0, or 1 and the value; `Vec` as an eight-byte count and the elements; arrays and structs as their parts;
enums as the four-byte index of the variant and its parts.  IPv6 addresses and byte vectors too long for
their length field have none. -/
def wire : (s : Sch) → s.Ty → Option Bytes
  | .u8, x => some [x]
  | .u16, x => some (be16 x.toNat)
  | .u32, x => some (be32 x.toNat)
  | .u64, x => some (be64 x.toNat)
  | .u128, x => some (be128 x.toNat)
  | .i8, x => some [UInt8.ofNat (x.toInt % 2 ^ 8).toNat]
  | .i16, x => some (be16 (x.toInt % 2 ^ 16).toNat)
  | .i32, x => some (be32 (x.toInt % 2 ^ 32).toNat)
  | .i64, x => some (be64 (x.toInt % 2 ^ 64).toNat)
  | .bool, x => some [if x then 1 else 0]
  | .char, x => some (utf8 x)
  | .string, x => some (be64 (x.toList.flatMap utf8).length ++ x.toList.flatMap utf8)
  | .bits, x => some [flagByte x]
  | .address, x => address x
  | .varlen16, x => if x.data.length < 2 ^ 16 then some (be16 x.data.length ++ x.data) else none
  | .varlen32, x => if x.data.length < 2 ^ 32 then some (be32 x.data.length ++ x.data) else none
  | .varlen64, x => some (be64 x.data.length ++ x.data)
  | .nested, x =>
    if x.packet.bytes.length < 2 ^ 16 then some (be16 x.packet.bytes.length ++ x.packet.bytes) else none
  | .rawEnd, x => some x.data
  | .option _, none => some [0]
  | .option s, some x => allOf [some [1], wire s x]
  | .vec s, xs => allOf [some (be64 xs.length), allOf (xs.map (wire s))]
  | .array _ s, xs => allOf (xs.val.map (wire s))
  | .unit, _ => some []
  | .cons a b, x => allOf [wire a x.1, wire b x.2]
  | .enum _ f, x => allOf [some (be32 x.1.val), wire (f x.1) x.2]

end Spec

/-! ## Proof -/

/-- A serializer outcome and a wire form that belong together. -/
def Wired (o : Outcome (List Tok)) (w : Option Bytes) : Prop :=
  match w with
  | some w => ∃ ts, o = .ok ts ∧ flat .big ts = w
  | none => ∃ e, o = .err e

theorem utf8_eq (c : Char) : utf8 c = String.utf8EncodeChar c := by
  have hv : c.val.toNat < 55296 ∨ 57343 < c.val.toNat ∧ c.val.toNat < 1114112 := c.valid
  have hn : c.toNat = c.val.toNat := rfl
  unfold utf8 String.utf8EncodeChar
  simp only [hn]
  generalize c.val.toNat = n at hv
  have cons : ∀ {x y : Nat} {l m : Bytes}, x = y → l = m →
      UInt8.ofNat x :: l = UInt8.ofNat y :: m := by
    rintro x y l m rfl rfl; rfl
  repeat' split
  all_goals first
    | omega
    | rfl
    | exact cons (by omega) (cons (by omega) rfl)
    | exact cons (by omega) (cons (by omega) (cons (by omega) rfl))
    | exact cons (by omega) (cons (by omega) (cons (by omega) (cons (by omega) rfl)))

theorem string_bytes (x : String) : x.toByteArray.data.toList = x.toList.flatMap utf8 := by
  have he := String.utf8Encode_toList (b := x)
  rw [← he]
  simp only [List.utf8Encode, List.data_toByteArray]
  congr 1
  funext c
  exact (utf8_eq c).symm

theorem flagByte_eq (x : Bits) : flagByte x = x.toU8 := by
  obtain ⟨b0, b1, b2, b3, b4, b5, b6, b7⟩ := x
  cases b0 <;> cases b1 <;> cases b2 <;> cases b3 <;> cases b4 <;> cases b5 <;> cases b6 <;>
    cases b7 <;> rfl

theorem be128_eq (n : Nat) : intBytes .big 16 n = be128 n := by
  simp [intBytes, leBytes, be128, be64, Nat.div_div_eq_div_mul]

theorem leBytes_mod : ∀ (k n m : Nat), n % 256 ^ k = m % 256 ^ k → leBytes k n = leBytes k m
  | 0, _, _, _ => rfl
  | k + 1, n, m, h => by
    rw [Nat.pow_succ, Nat.mul_comm, Nat.mod_mul, Nat.mod_mul] at h
    have h1 : n % 256 = m % 256 := by
      have := congrArg (· % 256) h
      simp only [Nat.add_mul_mod_self_left, Nat.mod_mod] at this
      exact this
    have h2 : n / 256 % 256 ^ k = m / 256 % 256 ^ k := by omega
    simp only [leBytes]
    rw [leBytes_mod k _ _ h2]
    congr 1
    apply UInt8.toNat_inj.mp
    rw [UInt8.toNat_ofNat', UInt8.toNat_ofNat']
    exact h1

theorem intBytes_mod (k n m : Nat) (h : m % 256 ^ k = n % 256 ^ k) :
    intBytes .big k m = intBytes .big k n := by
  simp only [intBytes, leBytes_mod k m n h]

theorem be64_ofNat (n : Nat) : be64 (UInt64.ofNat n).toNat = be64 n := by
  rw [← be64_eq, ← be64_eq]
  exact intBytes_mod 8 n _ (by rw [UInt64.toNat_ofNat']; omega)

theorem be32_ofNat (n : Nat) : be32 (UInt32.ofNat n).toNat = be32 n := by
  rw [← be32_eq, ← be32_eq]
  exact intBytes_mod 4 n _ (by rw [UInt32.toNat_ofNat']; omega)

theorem Wired.bind {o o' : Outcome (List Tok)} {w w' : Option Bytes} (h : Wired o w) (h' : Wired o' w') :
    Wired (do let a ← o; let b ← o'; pure (a ++ b)) (allOf [w, w']) := by
  cases w with
  | none => obtain ⟨e, rfl⟩ := h; exact ⟨e, rfl⟩
  | some w =>
    obtain ⟨ts, rfl, rfl⟩ := h
    cases w' with
    | none => obtain ⟨e, rfl⟩ := h'; exact ⟨e, rfl⟩
    | some w' =>
      obtain ⟨ts', rfl, rfl⟩ := h'
      exact ⟨ts ++ ts', rfl, by simp⟩

theorem Wired.cons {o : Outcome (List Tok)} {w : Option Bytes} (h : Wired o w) (t : Tok) :
    Wired (do let a ← o; pure (t :: a)) (allOf [some (t.bytes .big), w]) := by
  cases w with
  | none => obtain ⟨e, rfl⟩ := h; exact ⟨e, rfl⟩
  | some w =>
    obtain ⟨ts, rfl, rfl⟩ := h
    exact ⟨t :: ts, rfl, by simp⟩

theorem Wired.seq {α : Type} {f : α → Outcome (List Tok)} {g : α → Option Bytes}
    (h : ∀ x, Wired (f x) (g x)) : ∀ l, Wired (serSeq f l) (allOf (l.map g))
  | [] => ⟨[], rfl, rfl⟩
  | x :: l => by
    have h1 := Wired.bind (h x) (Wired.seq h l)
    have e : allOf ((x :: l).map g) = allOf [g x, allOf (l.map g)] := by
      rw [List.map_cons]
      cases g x with
      | none => rfl
      | some w => cases h : allOf (l.map g) <;> simp [allOf, h]
    rw [e]
    exact h1

theorem toInt_emod {n : Nat} (x : BitVec n) : (x.toInt % (2 ^ n : Int)).toNat = x.toNat := by
  have h1 : (2 ^ n : Int) = ((2 ^ n : Nat) : Int) := by simp
  rw [h1, BitVec.toInt_eq_toNat_bmod, Int.bmod_emod, Int.emod_eq_of_lt (by omega)
    (by have := x.isLt; omega)]
  simp

theorem VarLen16.wired (v : VarLen16) : Wired (Serialize.ser v)
    (if v.data.length < 2 ^ 16 then some (be16 v.data.length ++ v.data) else none) := by
  simp only [Serialize.ser]
  by_cases h : v.data.length < 2 ^ 16
  · rw [if_pos h, if_neg (by omega)]
    refine ⟨_, rfl, ?_⟩
    simp only [flat, List.flatMap_cons, flatMap_u8, Tok.bytes, be16_eq, UInt16.toNat_ofNat']
    rw [Nat.mod_eq_of_lt h]
  · rw [if_neg h, if_pos (by omega)]
    exact ⟨_, rfl⟩

theorem VarLen32.wired (v : VarLen32) : Wired (Serialize.ser v)
    (if v.data.length < 2 ^ 32 then some (be32 v.data.length ++ v.data) else none) := by
  simp only [Serialize.ser]
  by_cases h : v.data.length < 2 ^ 32
  · rw [if_pos h, if_neg (by omega)]
    refine ⟨_, rfl, ?_⟩
    simp only [flat, List.flatMap_cons, flatMap_u8, Tok.bytes, be32_eq, UInt32.toNat_ofNat']
    rw [Nat.mod_eq_of_lt h]
  · rw [if_neg h, if_pos (by omega)]
    exact ⟨_, rfl⟩

theorem Sch.wired (s : Sch) : ∀ v : s.Ty, Wired (s.ser v) (wire s v) := by
  induction s with
  | u8 => intro v; exact ⟨_, rfl, by simp [flat, Tok.bytes]⟩
  | u16 => intro v; exact ⟨_, rfl, by simp [flat, Tok.bytes, be16_eq]⟩
  | u32 => intro v; exact ⟨_, rfl, by simp [flat, Tok.bytes, be32_eq]⟩
  | u64 => intro v; exact ⟨_, rfl, by simp [flat, Tok.bytes, be64_eq]⟩
  | u128 => intro v; exact ⟨_, rfl, by simp [flat, Tok.bytes, be128_eq]⟩
  | i8 =>
    intro v
    refine ⟨_, rfl, ?_⟩
    simp only [flat, List.flatMap_cons, List.flatMap_nil, List.append_nil, Tok.bytes]
    exact congrArg (fun x => [x]) (by
      have h := toInt_emod v.toBitVec
      exact ((congrArg UInt8.ofNat h).trans (UInt8.ofNat_toNat (x := v.toUInt8))).symm)
  | i16 =>
    intro v
    refine ⟨_, rfl, ?_⟩
    simp only [flat, List.flatMap_cons, List.flatMap_nil, List.append_nil, Tok.bytes, be16_eq]
    exact congrArg be16 ((toInt_emod v.toBitVec).symm)
  | i32 =>
    intro v
    refine ⟨_, rfl, ?_⟩
    simp only [flat, List.flatMap_cons, List.flatMap_nil, List.append_nil, Tok.bytes, be32_eq]
    exact congrArg be32 ((toInt_emod v.toBitVec).symm)
  | i64 =>
    intro v
    refine ⟨_, rfl, ?_⟩
    simp only [flat, List.flatMap_cons, List.flatMap_nil, List.append_nil, Tok.bytes, be64_eq]
    exact congrArg be64 ((toInt_emod v.toBitVec).symm)
  | bool => intro v; exact ⟨_, rfl, by simp [flat, Tok.bytes]⟩
  | char => intro v; exact ⟨_, rfl, by simp [flat, flatMap_u8, utf8_eq]⟩
  | string =>
    intro v
    refine ⟨_, rfl, ?_⟩
    simp only [flat, List.flatMap_cons, flatMap_u8, Tok.bytes, be64_eq, be64_ofNat, string_bytes]
    rw [← string_bytes, Array.length_toList]
  | bits => intro v; exact ⟨_, rfl, by simp [flat, Tok.bytes, flagByte_eq]⟩
  | address =>
    intro v
    obtain ⟨sock⟩ := v
    cases sock with
    | v4 a b c d port => exact ⟨_, rfl, by simp [flat, Tok.bytes, be16_eq]⟩
    | v6 => exact ⟨_, rfl⟩
  | varlen16 => intro v; exact VarLen16.wired v
  | varlen32 => intro v; exact VarLen32.wired v
  | varlen64 =>
    intro v
    refine ⟨_, rfl, ?_⟩
    simp only [flat, List.flatMap_cons, flatMap_u8, Tok.bytes, be64_eq, be64_ofNat]
  | nested => intro v; exact VarLen16.wired ⟨v.packet.bytes⟩
  | rawEnd => intro v; exact ⟨_, rfl, by simp [flat, flatMap_u8]⟩
  | option s ih =>
    intro v
    cases v with
    | none => exact ⟨_, rfl, by simp [flat, Tok.bytes]⟩
    | some x => exact Wired.cons (ih x) (.u8 1)
  | vec s ih =>
    intro v
    have := Wired.cons (Wired.seq ih v) (.u64 (UInt64.ofNat v.length))
    simp only [Tok.bytes, be64_eq, be64_ofNat] at this
    exact this
  | array n s ih => intro v; exact Wired.seq ih v.val
  | unit => intro v; exact ⟨_, rfl, rfl⟩
  | cons a b iha ihb => intro v; exact Wired.bind (iha v.1) (ihb v.2)
  | enum n f ih =>
    intro v
    have := Wired.cons (ih v.1 v.2) (.u32 (UInt32.ofNat v.1.val))
    simp only [Tok.bytes, be32_eq, be32_ofNat] at this
    exact this

theorem wire_some {s : Sch} {v : Derived s} {w : Bytes} :
    wire s v.val = some w ↔ Bincode.serialize .big v = .ok w := by
  have h := Sch.wired s v.val
  have hs : (Serialize.ser v : Outcome (List Tok)) = s.ser v.val := rfl
  rw [Bincode.serialize_eq_ok, hs]
  cases hw : wire s v.val with
  | none =>
    rw [hw] at h
    obtain ⟨e, h⟩ := h
    simp [h]
  | some w' =>
    rw [hw] at h
    obtain ⟨ts, h, rfl⟩ := h
    simp only [h, Option.some.injEq, Outcome.ok.injEq, exists_eq_left', flat]
    exact eq_comm

/-! ## C80 -/

/-- C80. Adding a user-defined payload appends its wire form; a value that has none (an IPv6 address or a
byte vector too long for its length field somewhere in it) is refused and the packet stays as it was. -/
theorem C80 (s : Sch) (v : Derived s) :
    (∀ w, wire s v.val = some w → Writes v w) ∧ (wire s v.val = none → Refused v) := by
  constructor
  · intro w hw p
    exact add_ok_iff.mpr ⟨w, wire_some.mp hw, rfl⟩
  · intro hw p
    have h := Sch.wired s v.val
    rw [hw] at h
    obtain ⟨e, h⟩ := h
    have hs : (Serialize.ser v : Outcome (List Tok)) = .err e := h
    simp [Packet.add, Bincode.serialize, hs, Outcome.isErr]

/-- C80. Whatever is read from a packet, its wire form is what the packet holds at the cursor, and the
cursor moves just behind it.  (Any type, `RawEnd` included.) -/
theorem C80_read (s : Sch) (p : Packet) (hl : p.bytes.length ≤ usizeMax) (i : Nat) (v : Derived s)
    (d' : PacketDeserializer) (h : nextPayload (Derived s) ⟨p, i⟩ = (.ok v, d')) :
    s.Fits v.val ∧ ∃ w, wire s v.val = some w ∧ w <+: p.bytes.drop i ∧ d' = ⟨p, i + w.length⟩ := by
  obtain ⟨h1, h2, h3, h4⟩ := nextPayload_sizeExact (Derived.sizeExact s) hl h
  have h5 := Derived.de_eq_ok.mp h4
  refine ⟨Sch.de_fits _ _ _ _ _ h5, ?_⟩
  obtain ⟨ts, h6, h7⟩ := Sch.de_exact _ _ _ _ _ h5
  refine ⟨flat .big ts, wire_some.mpr (Bincode.serialize_of_ser .big (α := Derived s) h6),
    ⟨_, h7.symm⟩, ?_⟩
  have h8 := congrArg List.length h7
  rw [List.length_append, List.length_drop, List.length_drop] at h8
  obtain ⟨q, j⟩ := d'
  simp only at h1 h2 h3 h8 ⊢
  subst h3
  congr 1
  omega

/-- C80. For a type without `RawEnd` this is all there is to reading: the result is `v` exactly when the
packet holds the wire form of `v` at the cursor. -/
theorem C80_read_iff (s : Sch) (hs : s.SelfDelimiting) (p : Packet) (hl : p.bytes.length ≤ usizeMax)
    (i : Nat) (hi : i ≤ p.bytes.length) (v : Derived s) (d' : PacketDeserializer) :
    nextPayload (Derived s) ⟨p, i⟩ = (.ok v, d') ↔
      s.Fits v.val ∧ ∃ w, wire s v.val = some w ∧ w <+: p.bytes.drop i ∧ d' = ⟨p, i + w.length⟩ := by
  refine ⟨C80_read s p hl i v d', ?_⟩
  rintro ⟨hf, w, hw, ⟨r, hr⟩, rfl⟩
  have hw := wire_some.mp hw
  obtain ⟨ts, h1, rfl⟩ := Derived.serialize_eq hw
  refine nextPayload_of_de (r' := r) hi ?_ (Bincode.size_of_serialize hw)
  simp only [← hr]
  exact Derived.de_eq_ok.mpr (Sch.roundtrip .big s hs v.val ts r hf h1)

/-- C80. A read from inside the packet is refused exactly when the bytes at the cursor start with the wire
form of no value of the type; the cursor then stays where it was. -/
theorem C80_reject (s : Sch) (hs : s.SelfDelimiting) (p : Packet) (hl : p.bytes.length ≤ usizeMax)
    (i : Nat) (hi : i ≤ p.bytes.length) :
    (∃ e, nextPayload (Derived s) ⟨p, i⟩ = (.err e, ⟨p, i⟩)) ↔
      ¬ ∃ (v : s.Ty) (w : Bytes), s.Fits v ∧ wire s v = some w ∧ w <+: p.bytes.drop i := by
  constructor
  · rintro ⟨e, he⟩ ⟨v, w, hf, hw, hp⟩
    have := (C80_read_iff s hs p hl i hi ⟨v⟩ ⟨p, i + w.length⟩).mpr ⟨hf, w, hw, hp, rfl⟩
    rw [he] at this
    simp at this
  · intro hn
    cases hd : (Deserialize.de .big : De (Derived s)) (p.bytes.drop i) with
    | err e => exact ⟨e, nextPayload_of_err hi hd⟩
    | panic => exact absurd hd ((Derived.sizeExact s).noPanic .big _)
    | ok x =>
      obtain ⟨v, r'⟩ := x
      refine absurd ?_ hn
      have h5 := Derived.de_eq_ok.mp hd
      obtain ⟨ts, h6, h7⟩ := Sch.de_exact _ _ _ _ _ h5
      exact ⟨v.val, _, Sch.de_fits _ _ _ _ _ h5,
        wire_some.mpr (Bincode.serialize_of_ser .big (α := Derived s) h6), ⟨_, h7.symm⟩⟩

/-- C80. With `RawEnd` in last position: the wire form at the end of a packet reads back. -/
theorem C80_read_last (s : Sch) (hs : s.LastOnly) (v : Derived s) (hf : s.Fits v.val) (w : Bytes)
    (hw : wire s v.val = some w) : ReadsLastAs w v := by
  intro pre hl
  have hw := wire_some.mp hw
  obtain ⟨ts, h1, rfl⟩ := Derived.serialize_eq hw
  refine nextPayload_of_de (r' := []) (by simp) ?_ (Bincode.size_of_serialize hw)
  simp only [drop_pre]
  exact Derived.de_eq_ok.mpr (Sch.roundtrip_last .big s hs v.val ts hf h1 (by simp at hl ⊢; omega))

/-! ## A concrete payload -/

/-- `struct S { c: char, n: u128, x: Option<i16>, t: String, e: enum { A, B(bool) } }`. -/
def wireExample : Sch :=
  .cons .char (.cons .u128 (.cons (.option .i16) (.cons .string
    (.cons (.enum 2 fun | 0 => .unit | 1 => .bool) .unit))))

/-- A value of it. -/
def wireValue : Derived wireExample := ⟨('€', 258#128, some (-2), "aé", ⟨1, true⟩, ())⟩

example : wireExample.SelfDelimiting ∧ wireExample.Fits wireValue.val := by
  refine ⟨⟨trivial, trivial, trivial, trivial, ⟨by decide, ?_⟩, trivial⟩, ?_⟩
  · intro i; match i with
    | 0 => trivial
    | 1 => trivial
  · exact ⟨trivial, trivial, trivial, (by decide +kernel : "aé".toByteArray.data.size ≤ usizeMax),
      trivial, trivial⟩

example : wire wireExample wireValue.val = some
    [0xE2, 0x82, 0xAC, 0, 0, 0, 0, 0, 0, 0, 0, 0, 0, 0, 0, 0, 0, 1, 2, 1, 0xFF, 0xFE,
      0, 0, 0, 0, 0, 0, 0, 3, 97, 0xC3, 0xA9, 0, 0, 0, 1, 1] := by decide +kernel

example : wire (.cons .u8 (.cons .address .unit))
    (7, ⟨.v6 (FixedBytes.replicate 16 1) 0 0 0⟩, ()) = none := by decide

/-- A lone continuation byte is no character; neither is half of one. -/
example : (nextPayload (Derived .char) ⟨⟨[0x80]⟩, 0⟩).1.isErr = true ∧
    (nextPayload (Derived .char) ⟨⟨[0xE2, 0x82]⟩, 0⟩).1.isErr = true := by decide +kernel

/-! ## Cases for the theorems above -/

/-- `C80_reject`: a lone continuation byte begins no character. -/
example : ¬ ∃ (v : Sch.Ty .char) (w : Bytes), Sch.Fits .char v ∧ wire .char v = some w ∧ w <+: [0x80] :=
  (C80_reject .char trivial ⟨[0x80]⟩ (by decide) 0 (by decide)).mp ⟨_, by rfl⟩

/-- `C80_read`, `C80_read_iff`: a character in the middle of a packet. -/
example := C80_read .char ⟨[9, 0xE2, 0x82, 0xAC, 7]⟩ (by decide) 1 ⟨'€'⟩ ⟨⟨[9, 0xE2, 0x82, 0xAC, 7]⟩, 4⟩ (by rfl)
example := C80_read_iff .char trivial ⟨[9, 0xE2, 0x82, 0xAC, 7]⟩ (by decide) 1 (by decide) ⟨'€'⟩ ⟨⟨[9, 0xE2, 0x82, 0xAC, 7]⟩, 4⟩

/-- `C80_read_last`: raw bytes behind a number. -/
example := C80_read_last (.cons .u16 (.cons .rawEnd .unit)) (by simp [Sch.LastOnly, Sch.SelfDelimiting]) ⟨(258, ⟨[7, 8]⟩, ())⟩
  (by simp [Sch.Fits]) [1, 2, 7, 8] (by decide +kernel)

end Ipv8
