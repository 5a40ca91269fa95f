import Verif.Props.Community
import Verif.Lemmas.Kind
/-!
# Property C68: failures are told apart

Callers get boxed errors and can only react to what they say.  The theorems below give, for every
fallible call, the exact error for every way in which it can fail.
-/

namespace Ipv8
open Spec PacketDeserializer

/-! ## Helper lemmas: which errors a reader can report -/

/-- Every error of the reader satisfies `P`. -/
def De.Errs {α : Type} (P : Error → Prop) (d : De α) : Prop := ∀ r e, d r = .err e → P e

theorem De.Errs.mono {α : Type} {P Q : Error → Prop} {d : De α} (h : d.Errs P) (hpq : ∀ e, P e → Q e) :
    d.Errs Q := fun r e hd => hpq e (h r e hd)

theorem De.Errs.pure {α : Type} {P : Error → Prop} (a : α) : De.Errs P (Pure.pure a : De α) := by
  intro r e h; simp at h

theorem De.Errs.bind {α β : Type} {P : Error → Prop} {m : De α} {f : α → De β} (hm : m.Errs P)
    (hf : ∀ a, (f a).Errs P) : De.Errs P (m >>= f) := by
  intro r e h
  rw [De.bind_run] at h
  cases hx : m r with
  | ok y => simp only [hx] at h; exact hf _ _ _ h
  | err e' => simp only [hx, Outcome.err.injEq] at h; exact h ▸ hm r e' hx
  | panic => simp [hx] at h

theorem De.Errs.field {α : Type} {P : Error → Prop} {d : De α} {x : Error} {n : Nat} (hd : d.Errs P)
    (hn : 0 < n) : De.Errs P (Ipv8.field d x n) := by
  intro r e h
  rw [field_pos d x hn] at h
  cases hx : d r with
  | ok y => simp [hx] at h
  | err e' => simp only [hx, Outcome.err.injEq] at h; exact h ▸ hd r e' hx
  | panic => simp [hx] at h

/-- The next step of a struct reader, with the field budget in view. -/
theorem De.Errs.bindField {α β : Type} {P : Error → Prop} {d : De α} {x : Error} {n : Nat}
    {f : α × Nat → De β} (hd : d.Errs P) (hn : 0 < n) (hf : ∀ a, (f (a, n - 1)).Errs P) :
    De.Errs P (Ipv8.field d x n >>= f) := by
  intro r e h
  rw [De.bind_run, field_pos d x hn] at h
  cases hx : d r with
  | ok y => simp only [hx] at h; exact hf _ _ _ h
  | err e' => simp only [hx, Outcome.err.injEq] at h; exact h ▸ hd r e' hx
  | panic => simp [hx] at h

/-- The only error is the end of the packet. -/
abbrev De.OnlyEof {α : Type} (d : De α) : Prop := d.Errs (· = .eof)

theorem deU8_onlyEof : deU8.OnlyEof := by
  intro r e h; cases r <;> simp at h; exact h.symm

theorem deInt_onlyEof (e : Endian) (k : Nat) : (deInt e k).OnlyEof := by
  intro r x h; unfold deInt at h; split at h <;> simp at h; exact h.symm

theorem deU16_onlyEof (e : Endian) : (deU16 e).OnlyEof := (deInt_onlyEof e 2).bind fun _ => .pure _
theorem deU32_onlyEof (e : Endian) : (deU32 e).OnlyEof := (deInt_onlyEof e 4).bind fun _ => .pure _
theorem deU64_onlyEof (e : Endian) : (deU64 e).OnlyEof := (deInt_onlyEof e 8).bind fun _ => .pure _

theorem deU128_onlyEof (e : Endian) : (deU128 e).OnlyEof := (deInt_onlyEof e 16).bind fun _ => .pure _

theorem vecLoop_errs {α : Type} {P : Error → Prop} {d : De α} (hd : d.Errs P) (n : Nat) :
    (vecLoop d n).Errs P := by
  induction n with
  | zero => exact .pure _
  | succ n ih => exact hd.bind fun _ => ih.bind fun _ => .pure _

theorem deVec_errs {α : Type} {P : Error → Prop} (hP : P .eof) {e : Endian} {d : De α} (hd : d.Errs P) :
    (deVec e d).Errs P :=
  ((deU64_onlyEof e).mono (fun _ h => h ▸ hP)).bind fun _ => vecLoop_errs hd _

theorem Bits.onlyEof (e : Endian) : (Deserialize.de e : De Bits).OnlyEof :=
  deU8_onlyEof.bind fun _ => .pure _

theorem deIpv4_onlyEof : deIpv4.OnlyEof :=
  deU8_onlyEof.bindField (by decide) fun _ => deU8_onlyEof.bindField (by decide) fun _ =>
    deU8_onlyEof.bindField (by decide) fun _ => deU8_onlyEof.bindField (by decide) fun _ => .pure _

theorem Address.onlyEof (e : Endian) : (Deserialize.de e : De Address).OnlyEof :=
  deIpv4_onlyEof.bindField (by decide) fun _ =>
    (deU16_onlyEof e).bindField (by decide) fun _ => .pure _

theorem repeatField_onlyEof {x : Error} {k n : Nat} (h : k ≤ n) : (repeatField deU8 x k n).OnlyEof := by
  intro r e he
  rw [repeatField_deU8 x k n h] at he
  split at he <;> simp at he
  exact he.symm

theorem VarLen16.onlyEof (e : Endian) : (Deserialize.de e : De VarLen16).OnlyEof :=
  (deU16_onlyEof e).bindField (by decide) fun a =>
    (repeatField_onlyEof (by have := a.toNat_lt; omega)).bind fun _ => .pure _

theorem VarLen32.onlyEof (e : Endian) : (Deserialize.de e : De VarLen32).OnlyEof :=
  (deU32_onlyEof e).bindField (by decide) fun a =>
    (repeatField_onlyEof (by have := a.toNat_lt; omega)).bind fun _ => .pure _

theorem VarLen64.onlyEof (e : Endian) : (Deserialize.de e : De VarLen64).OnlyEof :=
  (deVec_errs (P := (· = .eof)) rfl deU8_onlyEof).bind fun _ => .pure _

theorem RawEnd.onlyEof (e : Endian) : (Deserialize.de e : De RawEnd).OnlyEof := by
  intro r x h; simp [Deserialize.de] at h

theorem NestedPacket.onlyEof (e : Endian) : (Deserialize.de e : De NestedPacket).OnlyEof :=
  (VarLen16.onlyEof e).bind fun _ => .pure _

theorem TimeDistributionPayload.onlyEof (e : Endian) :
    (Deserialize.de e : De TimeDistributionPayload).OnlyEof :=
  (deU64_onlyEof e).bindField (by decide) fun _ => .pure _

theorem PuncturePayload.onlyEof (e : Endian) : (Deserialize.de e : De PuncturePayload).OnlyEof :=
  (Address.onlyEof e).bindField (by decide) fun _ =>
    (Address.onlyEof e).bindField (by decide) fun _ =>
      (deU16_onlyEof e).bindField (by decide) fun _ => .pure _

theorem PunctureRequestPayload.onlyEof (e : Endian) :
    (Deserialize.de e : De PunctureRequestPayload).OnlyEof :=
  (Address.onlyEof e).bindField (by decide) fun _ =>
    (Address.onlyEof e).bindField (by decide) fun _ =>
      (deU16_onlyEof e).bindField (by decide) fun _ => .pure _

theorem IntroductionRequestPayload.onlyEof (e : Endian) :
    (Deserialize.de e : De IntroductionRequestPayload).OnlyEof :=
  (Address.onlyEof e).bindField (by decide) fun _ =>
    (Address.onlyEof e).bindField (by decide) fun _ =>
      (Address.onlyEof e).bindField (by decide) fun _ =>
        (Bits.onlyEof e).bindField (by decide) fun _ =>
          (deU16_onlyEof e).bindField (by decide) fun _ =>
            (RawEnd.onlyEof e).bindField (by decide) fun _ => .pure _

theorem IntroductionResponsePayload.onlyEof (e : Endian) :
    (Deserialize.de e : De IntroductionResponsePayload).OnlyEof :=
  (Address.onlyEof e).bindField (by decide) fun _ =>
    (Address.onlyEof e).bindField (by decide) fun _ =>
      (Address.onlyEof e).bindField (by decide) fun _ =>
        (Address.onlyEof e).bindField (by decide) fun _ =>
          (Address.onlyEof e).bindField (by decide) fun _ =>
            (Bits.onlyEof e).bindField (by decide) fun _ =>
              (deU16_onlyEof e).bindField (by decide) fun _ =>
                (RawEnd.onlyEof e).bindField (by decide) fun _ => .pure _

/-- What can go wrong while reading a user-defined payload. -/
def DecodeError (e : Error) : Prop :=
  e = .eof ∨ e = .invalidBool ∨ e = .invalidTag ∨ e = .invalidUtf8 ∨ e = .invalidChar ∨
    e = .custom "invalid value: expected variant index"

theorem De.Errs.decode {α : Type} {d : De α} (h : d.OnlyEof) : d.Errs DecodeError :=
  h.mono fun _ he => .inl he

theorem deChar_errs : deChar.Errs DecodeError := by
  refine deU8_onlyEof.decode.bind fun b => ?_
  intro r x h
  have hx : x = .invalidChar → DecodeError x := fun hx => .inr (.inr (.inr (.inr (.inl hx))))
  split at h
  · simp at h
  · split at h
    · simp at h; exact hx h.symm
    · unfold deCharRest at h
      repeat' split at h
      all_goals first | (simp at h; done) | (simp at h; exact hx h.symm)

theorem vecLoop_length {α : Type} (d : De α) (n : Nat) (r r' : Bytes) (xs : List α)
    (h : vecLoop d n r = .ok (xs, r')) : xs.length = n := by
  induction n generalizing r xs with
  | zero => simp [vecLoop] at h; simp [← h.1]
  | succ n ih =>
    unfold vecLoop at h
    rw [De.bind_eq_ok] at h
    obtain ⟨a, r1, _, h⟩ := h
    rw [De.bind_eq_ok] at h
    obtain ⟨as, r2, h2, h⟩ := h
    simp at h
    rw [← h.1, List.length_cons, ih _ _ (h.2 ▸ h2)]

theorem deArray_errs {α : Type} {P : Error → Prop} {d : De α} (hd : d.Errs P) (n : Nat) :
    (deArray d n).Errs P := by
  intro r e h
  unfold deArray at h
  rw [De.bind_run] at h
  cases hx : vecLoop d n r with
  | ok y =>
    simp only [hx] at h
    rw [dif_pos (vecLoop_length d n r y.2 y.1 hx)] at h
    simp at h
  | err e' => simp only [hx, Outcome.err.injEq] at h; exact h ▸ vecLoop_errs hd n r e' hx
  | panic => simp [hx] at h

theorem Sch.errs (e : Endian) : (s : Sch) → (s.de e).Errs DecodeError
  | .u8 => deU8_onlyEof.decode
  | .u16 => (deU16_onlyEof e).decode
  | .u32 => (deU32_onlyEof e).decode
  | .u64 => (deU64_onlyEof e).decode
  | .u128 => (deU128_onlyEof e).decode
  | .char => deChar_errs
  | .i8 => deU8_onlyEof.decode.bind fun _ => .pure _
  | .i16 => (deU16_onlyEof e).decode.bind fun _ => .pure _
  | .i32 => (deU32_onlyEof e).decode.bind fun _ => .pure _
  | .i64 => (deU64_onlyEof e).decode.bind fun _ => .pure _
  | .bool => by
    refine deU8_onlyEof.decode.bind fun b => ?_
    intro r x h
    split at h
    · simp at h
    · split at h
      · simp at h
      · simp at h; exact .inr (.inl h.symm)
  | .string => by
    refine (deVec_errs (.inl rfl) deU8_onlyEof.decode).bind fun b => ?_
    intro r x h
    split at h
    · simp at h
    · simp at h; exact .inr (.inr (.inr (.inl h.symm)))
  | .bits => (Bits.onlyEof e).decode
  | .address => (Address.onlyEof e).decode
  | .varlen16 => (VarLen16.onlyEof e).decode
  | .varlen32 => (VarLen32.onlyEof e).decode
  | .varlen64 => (VarLen64.onlyEof e).decode
  | .nested => (NestedPacket.onlyEof e).decode
  | .rawEnd => (RawEnd.onlyEof e).decode
  | .option s => by
    refine deU8_onlyEof.decode.bind fun b => ?_
    intro r x h
    split at h
    · simp at h
    · split at h
      · exact (Sch.errs e s).bind (fun _ => .pure _) r x h
      · simp at h; exact .inr (.inr (.inl h.symm))
  | .vec s => deVec_errs (.inl rfl) (Sch.errs e s)
  | .array n s => deArray_errs (Sch.errs e s) n
  | .unit => .pure _
  | .cons a b => (Sch.errs e a).bind fun _ => (Sch.errs e b).bind fun _ => .pure _
  | .enum n f => by
    refine (deU32_onlyEof e).decode.bind fun i => ?_
    intro r x h
    split at h
    · rename_i hi
      exact (Sch.errs e (f ⟨i.toNat, hi⟩)).bind (fun _ => .pure _) r x h
    · simp at h; exact .inr (.inr (.inr (.inr (.inr h.symm))))

theorem Kind.onlyEof : (k : Kind) → k ≠ .auth → (∀ s, k ≠ .derived s) →
    (Deserialize.de .big : De k.Ty).OnlyEof
  | .varlen16, _, _ => VarLen16.onlyEof .big
  | .varlen32, _, _ => VarLen32.onlyEof .big
  | .varlen64, _, _ => VarLen64.onlyEof .big
  | .nested, _, _ => NestedPacket.onlyEof .big
  | .time, _, _ => TimeDistributionPayload.onlyEof .big
  | .puncture, _, _ => PuncturePayload.onlyEof .big
  | .punctureRequest, _, _ => PunctureRequestPayload.onlyEof .big
  | .introRequest, _, _ => IntroductionRequestPayload.onlyEof .big
  | .introResponse, _, _ => IntroductionResponsePayload.onlyEof .big
  | .auth, h, _ => absurd rfl h
  | .derived s, _, h => absurd rfl (h s)

/-- An error of `next_payload` is an error of the reader: computing the size of the value read does not
fail. -/
theorem next_err {k : Kind} (hk : k ≠ .auth) {d : PacketDeserializer} {e : Error}
    (hl : d.pntr.bytes.length ≤ usizeMax) (h : (d.nextPayload k.Ty).1 = .err e) :
    (Deserialize.de .big : De k.Ty) (d.pntr.bytes.drop d.index) = .err e := by
  by_cases hi : d.index ≤ d.pntr.bytes.length
  · rw [nextPayload_inside hi] at h
    cases hx : (Deserialize.de .big : De k.Ty) (d.pntr.bytes.drop d.index) with
    | ok y =>
      obtain ⟨v, r'⟩ := y
      simp only [hx] at h
      obtain ⟨bs, _, hs⟩ := (k.sizeExact hk).size .big _ _ _ (by simp; omega) hx
      simp [hs] at h
    | err e' => simp only [hx, Outcome.err.injEq] at h; rw [h]
    | panic => simp [hx] at h
  · have : sliceFrom d.pntr.bytes d.index = .panic := by simp [sliceFrom, hi]
    unfold nextPayload at h
    simp [this] at h

/-- What can go wrong while writing a payload. -/
def EncodeError (e : Error) : Prop :=
  e = .custom "ip-v8 does not (yet) support ipv6" ∨
  e = .custom "Data too large to fit in a VarLen16. Must be less than 65536 bytes." ∨
  e = .custom "Data too large to fit in a VarLen32. Must be less than 4294967295 bytes."

theorem Address.encodeErr {a : Address} {e : Error} (h : Serialize.ser a = .err e) :
    e = .custom "ip-v8 does not (yet) support ipv6" := by
  rcases a with ⟨_ | _⟩ <;> simp [Serialize.ser] at h
  exact h.symm

theorem VarLen16.encodeErr {v : VarLen16} {e : Error} (h : Serialize.ser v = .err e) :
    EncodeError e := by
  simp only [Serialize.ser] at h
  split at h <;> simp at h
  exact .inr (.inl h.symm)

theorem VarLen32.encodeErr {v : VarLen32} {e : Error} (h : Serialize.ser v = .err e) :
    EncodeError e := by
  simp only [Serialize.ser] at h
  split at h <;> simp at h
  exact .inr (.inr h.symm)

theorem Outcome.bind_eq_err {α β : Type} {m : Outcome α} {f : α → Outcome β} {e : Error} :
    (m >>= f) = .err e ↔ m = .err e ∨ ∃ a, m = .ok a ∧ f a = .err e := by
  cases m <;> simp

theorem serSeq_encodeErr {α : Type} {f : α → Outcome (List Tok)} {l : List α} {e : Error}
    (hf : ∀ a e, f a = .err e → EncodeError e) (h : serSeq f l = .err e) : EncodeError e := by
  induction l with
  | nil => simp [serSeq] at h
  | cons a l ih =>
    unfold serSeq at h
    rw [Outcome.bind_eq_err] at h
    rcases h with h | ⟨_, _, h⟩
    · exact hf _ _ h
    · rw [Outcome.bind_eq_err] at h
      rcases h with h | ⟨_, _, h⟩
      · exact ih h
      · simp at h

theorem Sch.encodeErr : (s : Sch) → ∀ (x : s.Ty) (e : Error), s.ser x = .err e → EncodeError e
  | .u8, _, _, h => by simp [Sch.ser] at h
  | .u16, _, _, h => by simp [Sch.ser] at h
  | .u32, _, _, h => by simp [Sch.ser] at h
  | .u64, _, _, h => by simp [Sch.ser] at h
  | .u128, _, _, h => by simp [Sch.ser] at h
  | .char, _, _, h => by simp [Sch.ser] at h
  | .i8, _, _, h => by simp [Sch.ser] at h
  | .i16, _, _, h => by simp [Sch.ser] at h
  | .i32, _, _, h => by simp [Sch.ser] at h
  | .i64, _, _, h => by simp [Sch.ser] at h
  | .bool, _, _, h => by simp [Sch.ser] at h
  | .string, _, _, h => by simp [Sch.ser] at h
  | .bits, _, _, h => by simp [Sch.ser, Serialize.ser] at h
  | .address, _, _, h => .inl (Address.encodeErr (by simpa [Sch.ser] using h))
  | .varlen16, _, _, h => VarLen16.encodeErr (by simpa [Sch.ser] using h)
  | .varlen32, _, _, h => VarLen32.encodeErr (by simpa [Sch.ser] using h)
  | .varlen64, _, _, h => by simp [Sch.ser, Serialize.ser, serVec] at h
  | .nested, _, _, h => VarLen16.encodeErr (by rw [Sch.ser] at h; exact h)
  | .rawEnd, _, _, h => by simp [Sch.ser, Serialize.ser] at h
  | .option _, none, _, h => by simp [Sch.ser] at h
  | .option s, some x, e, h => by
    rw [Sch.ser, Outcome.bind_eq_err] at h
    rcases h with h | ⟨_, _, h⟩
    · exact Sch.encodeErr s x e h
    · simp at h
  | .vec s, xs, e, h => by
    rw [Sch.ser, Outcome.bind_eq_err] at h
    rcases h with h | ⟨_, _, h⟩
    · exact serSeq_encodeErr (Sch.encodeErr s) h
    · simp at h
  | .array _ s, xs, e, h => by
    rw [Sch.ser] at h
    exact serSeq_encodeErr (Sch.encodeErr s) h
  | .unit, _, _, h => by simp [Sch.ser] at h
  | .cons a b, x, e, h => by
    rw [Sch.ser, Outcome.bind_eq_err] at h
    rcases h with h | ⟨_, _, h⟩
    · exact Sch.encodeErr a x.1 e h
    · rw [Outcome.bind_eq_err] at h
      rcases h with h | ⟨_, _, h⟩
      · exact Sch.encodeErr b x.2 e h
      · simp at h
  | .enum _ f, x, e, h => by
    rw [Sch.ser, Outcome.bind_eq_err] at h
    rcases h with h | ⟨_, _, h⟩
    · exact Sch.encodeErr (f x.1) x.2 e h
    · simp at h

theorem Header.de_short (e : Endian) {r : Bytes} (h : r.length < 2) :
    (Deserialize.de e : De Header) r = .err .eof := by
  rw [Header.de_def]
  match r, h with
  | [], _ => exact De.bind_err (by rw [field_pos _ _ (by decide)]; rfl)
  | [b], _ =>
    rw [De.bind_ok (field_ok (by decide) (deU8_cons b []))]
    exact De.bind_err (by rw [field_pos _ _ (by decide)]; rfl)
  | _ :: _ :: _, h => simp at h; omega

theorem Header.de_two (e : Endian) (b c : UInt8) (q : Bytes) :
    (Deserialize.de e : De Header) (b :: c :: q) = (
      if [b, c] = [0, 2] then do
        let (midHash, n) ← repeatField deU8 noValidHeader 20 (usizeMax - 1 - 1)
        let (messageType, _) ← field deU8 noValidHeader n
        Pure.pure (Header.ofMid midHash messageType)
      else De.fail noValidHeader : De Header) q := by
  rw [Header.de_def, De.bind_ok (field_ok (by decide) (deU8_cons b _))]
  simp only
  rw [De.bind_ok (field_ok (by decide) (deU8_cons c _))]

theorem Header.de_version (e : Endian) {r : Bytes} (h : 2 ≤ r.length) (h2 : r.take 2 ≠ [0, 2]) :
    (Deserialize.de e : De Header) r =
      .err (.custom "No valid header type could be determined") := by
  match r, h, h2 with
  | b :: c :: q, _, h2 =>
    rw [Header.de_two, if_neg (by simpa using h2)]
    rfl

theorem Header.de_cut (e : Endian) {r : Bytes} (h2 : r.take 2 = [0, 2]) (h : r.length < 23) :
    (Deserialize.de e : De Header) r = .err .eof := by
  match r, h, h2 with
  | b :: c :: q, h, h2 =>
    simp only [List.length_cons] at h
    rw [Header.de_two, if_pos (by simpa using h2)]
    by_cases hq : 20 ≤ q.length
    · have hr := repeatField_deU8 noValidHeader 20 (usizeMax - 1 - 1) (by decide) q
      rw [if_pos hq] at hr
      rw [De.bind_ok hr]
      have : q.drop 20 = [] := List.drop_of_length_le (by omega)
      rw [this]
      exact De.bind_err (by rw [field_pos _ _ (by decide)]; rfl)
    · have hr := repeatField_deU8 noValidHeader 20 (usizeMax - 1 - 1) (by decide) q
      rw [if_neg hq] at hr
      exact De.bind_err hr

/-! ## C68: headers -/

/-- C68. Reading a header.  A packet that ends too early is reported as such; two bytes that are not a
known version give the message about header types, however long the rest is. -/
theorem C68_header (s : Bytes) (i : Nat) (hi : i ≤ s.length) :
    let r := s.drop i
    (peekHeader ⟨⟨s⟩, i⟩ = .err .eof ↔ r.length < 2 ∨ (r.take 2 = [0, 2] ∧ r.length < 23)) ∧
    (peekHeader ⟨⟨s⟩, i⟩ = .err (.custom "No valid header type could be determined") ↔
      2 ≤ r.length ∧ r.take 2 ≠ [0, 2]) ∧
    (∀ e, peekHeader ⟨⟨s⟩, i⟩ = .err e →
      e = .eof ∨ e = .custom "No valid header type could be determined") ∧
    (∀ e, (popHeader ⟨⟨s⟩, i⟩).1 = .err e ↔ peekHeader ⟨⟨s⟩, i⟩ = .err e) ∧
    (∀ e, skipHeader ⟨⟨s⟩, i⟩ = .err e ↔ peekHeader ⟨⟨s⟩, i⟩ = .err e) := by
  intro r
  have hp := peekHeader_of_de (d := ⟨⟨s⟩, i⟩) hi
  simp only [show s.drop i = r from rfl] at hp
  have hok : 23 ≤ r.length → r.take 2 = [0, 2] → ∃ h, peekHeader ⟨⟨s⟩, i⟩ = .ok h := by
    intro h1 h2
    obtain ⟨t, _, h⟩ := (C11_peek s i hi).1 ⟨h1, h2⟩
    exact ⟨_, h⟩
  have hcases : (r.length < 2 ∧ peekHeader ⟨⟨s⟩, i⟩ = .err .eof) ∨
      (2 ≤ r.length ∧ r.take 2 ≠ [0, 2] ∧
        peekHeader ⟨⟨s⟩, i⟩ = .err (.custom "No valid header type could be determined")) ∨
      (2 ≤ r.length ∧ r.take 2 = [0, 2] ∧ r.length < 23 ∧ peekHeader ⟨⟨s⟩, i⟩ = .err .eof) ∨
      (23 ≤ r.length ∧ r.take 2 = [0, 2] ∧ ∃ h, peekHeader ⟨⟨s⟩, i⟩ = .ok h) := by
    by_cases h1 : r.length < 2
    · rw [Header.de_short .big h1] at hp; exact .inl ⟨h1, hp⟩
    · by_cases h2 : r.take 2 = [0, 2]
      · by_cases h3 : r.length < 23
        · rw [Header.de_cut .big h2 h3] at hp; exact .inr (.inr (.inl ⟨by omega, h2, h3, hp⟩))
        · exact .inr (.inr (.inr ⟨by omega, h2, hok (by omega) h2⟩))
      · rw [Header.de_version .big (by omega) h2] at hp
        exact .inr (.inl ⟨by omega, h2, hp⟩)
  refine ⟨?_, ?_, ?_, ?_, ?_⟩
  · rcases hcases with ⟨h1, h⟩ | ⟨h1, h2, h⟩ | ⟨h1, h2, h3, h⟩ | ⟨h1, h2, x, h⟩
    · simp [h, h1]
    · simp [h, h2]; omega
    · simp [h, h2, h3]
    · simp [h, h2]; omega
  · rcases hcases with ⟨h1, h⟩ | ⟨h1, h2, h⟩ | ⟨h1, h2, h3, h⟩ | ⟨h1, h2, x, h⟩
    · simp [h]; omega
    · simp [h, h1, h2]
    · simp [h, h2]
    · simp [h, h2]
  · intro e he
    rcases hcases with ⟨h1, h⟩ | ⟨h1, h2, h⟩ | ⟨h1, h2, h3, h⟩ | ⟨h1, h2, x, h⟩ <;>
      rw [h] at he <;> cases he <;> simp
  · intro e
    unfold popHeader
    cases peekHeader ⟨⟨s⟩, i⟩ <;> simp
  · intro e
    unfold skipHeader popHeader
    cases peekHeader ⟨⟨s⟩, i⟩ <;> simp

/-- C68. `Packet::new` hides which field of the header was missing: its only error is the header
error. -/
theorem C68_new (h : Header) :
    (Packet.new h = .err .header ↔ h.midHash = none ∨ h.messageType = none) ∧
    (∀ e, Packet.new h = .err e → e = .header) := by
  unfold Packet.new
  rw [Header.serialize_eq]
  rcases h with ⟨size, ⟨⟩, _ | mid, _ | t⟩ <;> simp

/-! ## C68: forwarding -/

/-- C68. Forwarding a packet.  The error of the header read is passed on unchanged; a readable header
for a mid nobody registered is the unknown-community error; every other error is the community's own.
In particular "no mid" and "no message type" are never reported for a packet from the wire. -/
theorem C68_forward (cs : List Community) (p : Packet) (a : Address) :
    (∀ e, p.startDeserialize.peekHeader = .err e →
      (registered cs).forwardMessage p a = (.err e, [])) ∧
    (∀ e, ((registered cs).forwardMessage p a).1 = .err e →
      e = .eof ∨ e = .custom "No valid header type could be determined" ∨ e = .unknownCommunity ∨
      ∃ mid t c, HasHeader p mid t ∧ lastWith mid cs = some c ∧
        c.onReceive (Header.ofMid mid t) ⟨p, 0⟩ a = .err e) := by
  constructor
  · intro e he
    unfold CommunityRegistry.forwardMessage CommunityRegistry.forwardLogged
    simp [he]
  · intro e he
    rcases hasHeader_or p with ⟨mid, t, h⟩ | ⟨e', he'⟩
    · rw [forward_eq cs p a mid t h] at he
      cases hc : lastWith mid cs with
      | none => simp [hc] at he; exact .inr (.inr (.inl he.symm))
      | some c =>
        simp only [hc] at he
        by_cases ht : reserved t = true
        · simp [ht] at he
        · simp only [ht] at he
          exact .inr (.inr (.inr ⟨mid, t, c, h, hc, he⟩))
    · have hx := (C68_header p.bytes 0 (Nat.zero_le _)).2.2.1 e' he'
      have : (registered cs).forwardMessage p a = (.err e', []) := by
        unfold CommunityRegistry.forwardMessage CommunityRegistry.forwardLogged
        simp [he']
      rw [this] at he
      simp only [Outcome.err.injEq] at he
      subst he
      rcases hx with rfl | rfl <;> simp

/-- C68. `receive` called by hand with a header that has no message type: the error for that, no
callback, no log line.  With a message type it never reports that error by itself. -/
theorem C68_receive (c : Community) (h : Header) (d : PacketDeserializer) (a : Address) :
    (h.messageType = none → c.receiveLogged h d a = (.err .headerUnwrap, [], [])) ∧
    (∀ t e, h.messageType = some t → (c.receive h d a).1 = .err e →
      c.onReceive h d a = .err e ∧ (c.receive h d a).2 = [⟨c.id, h, d, a⟩]) := by
  constructor
  · intro hn; simp [Community.receiveLogged, hn]
  · intro t e ht he
    unfold Community.receive Community.receiveLogged at he ⊢
    simp only [ht] at he ⊢
    cases hl : deprecatedMessages.lookup t with
    | some m => simp [hl, warnDeprecated] at he
    | none => simpa [hl] using he

/-! ## C68: writing -/

/-- C68. Values too long for their length prefix are refused with a message that says which prefix. -/
theorem C68_too_long (p : Packet) :
    (∀ v : VarLen16, v.data.length > 65535 → p.add v =
      (.err (.custom "Data too large to fit in a VarLen16. Must be less than 65536 bytes."), p)) ∧
    (∀ v : NestedPacket, v.packet.bytes.length > 65535 → p.add v =
      (.err (.custom "Data too large to fit in a VarLen16. Must be less than 65536 bytes."), p)) ∧
    (∀ v : VarLen32, v.data.length > 4294967295 → p.add v =
      (.err (.custom "Data too large to fit in a VarLen32. Must be less than 4294967295 bytes."), p)) := by
  refine ⟨?_, ?_, ?_⟩
  · intro v h
    simp [Packet.add, Bincode.serialize, Serialize.ser, if_pos h]
  · intro v h
    simp [Packet.add, Bincode.serialize, Serialize.ser, if_pos h]
  · intro v h
    simp [Packet.add, Bincode.serialize, Serialize.ser, if_pos h]

theorem add_err {α : Type} [Ipv8Payload α] [Serialize α] {p : Packet} {v : α} {e : Error}
    (h : Bincode.serialize .big v = .err e) : p.add v = (.err e, p) := by
  simp [Packet.add, h]

/-- C68. A payload with an IPv6 address anywhere is refused with the message about IPv6. -/
theorem C68_v6 (p : Packet) :
    (∀ v : PuncturePayload, (∃ a ∈ addressesP v, isV4 a = false) →
      p.add v = (.err (.custom "ip-v8 does not (yet) support ipv6"), p)) ∧
    (∀ v : PunctureRequestPayload, (∃ a ∈ addressesPR v, isV4 a = false) →
      p.add v = (.err (.custom "ip-v8 does not (yet) support ipv6"), p)) ∧
    (∀ v : IntroductionRequestPayload, (∃ a ∈ addressesIReq v, isV4 a = false) →
      p.add v = (.err (.custom "ip-v8 does not (yet) support ipv6"), p)) ∧
    (∀ v : IntroductionResponsePayload, (∃ a ∈ addressesIResp v, isV4 a = false) →
      p.add v = (.err (.custom "ip-v8 does not (yet) support ipv6"), p)) := by
  refine ⟨?_, ?_, ?_, ?_⟩ <;> intro v h <;> apply add_err
  · rw [PuncturePayload.ser_eq]
    cases h1 : isV4 v.lanWalkerAddress <;> cases h2 : isV4 v.wanWalkerAddress <;>
      simp_all [addressesP, serialize_address, serialize_address_v6]
  · rw [PunctureRequestPayload.ser_eq]
    cases h1 : isV4 v.lanWalkerAddress <;> cases h2 : isV4 v.wanWalkerAddress <;>
      simp_all [addressesPR, serialize_address, serialize_address_v6]
  · rw [IntroductionRequestPayload.ser_eq]
    cases h1 : isV4 v.destinationAddress <;> cases h2 : isV4 v.sourceLanAddress <;>
    cases h3 : isV4 v.sourceWanAddress <;>
      simp_all [addressesIReq, serialize_address, serialize_address_v6]
  · rw [IntroductionResponsePayload.ser_eq]
    cases h1 : isV4 v.destinationAddress <;> cases h2 : isV4 v.sourceLanAddress <;>
    cases h3 : isV4 v.sourceWanAddress <;> cases h4 : isV4 v.lanIntroductionAddress <;>
    cases h5 : isV4 v.wanIntroductionAddress <;>
      simp_all [addressesIResp, serialize_address, serialize_address_v6]

theorem PuncturePayload.addErr (p : Packet) (v : PuncturePayload) (e : Error) (h : (p.add v).1 = .err e) :
    e = .custom "ip-v8 does not (yet) support ipv6" := by
  by_cases h6 : ∃ a ∈ addressesP v, isV4 a = false
  · rw [(C68_v6 p).1 v h6] at h
    simpa using h.symm
  · obtain ⟨w, hw⟩ := (C09_puncture v).2 (by simpa using h6)
    rw [hw p] at h
    simp at h

theorem PunctureRequestPayload.addErr (p : Packet) (v : PunctureRequestPayload) (e : Error) (h : (p.add v).1 = .err e) :
    e = .custom "ip-v8 does not (yet) support ipv6" := by
  by_cases h6 : ∃ a ∈ addressesPR v, isV4 a = false
  · rw [(C68_v6 p).2.1 v h6] at h
    simpa using h.symm
  · obtain ⟨w, hw⟩ := (C09_puncture_request v).2 (by simpa using h6)
    rw [hw p] at h
    simp at h

theorem IntroductionRequestPayload.addErr (p : Packet) (v : IntroductionRequestPayload) (e : Error) (h : (p.add v).1 = .err e) :
    e = .custom "ip-v8 does not (yet) support ipv6" := by
  by_cases h6 : ∃ a ∈ addressesIReq v, isV4 a = false
  · rw [(C68_v6 p).2.2.1 v h6] at h
    simpa using h.symm
  · obtain ⟨w, hw⟩ := (C09_introduction_request v).2 (by simpa using h6)
    rw [hw p] at h
    simp at h

theorem IntroductionResponsePayload.addErr (p : Packet) (v : IntroductionResponsePayload) (e : Error) (h : (p.add v).1 = .err e) :
    e = .custom "ip-v8 does not (yet) support ipv6" := by
  by_cases h6 : ∃ a ∈ addressesIResp v, isV4 a = false
  · rw [(C68_v6 p).2.2.2 v h6] at h
    simpa using h.symm
  · obtain ⟨w, hw⟩ := (C09_introduction_response v).2 (by simpa using h6)
    rw [hw p] at h
    simp at h

/-- C68. Adding any payload, user-defined ones included, fails with one of three messages only, and
the packet stays as it was. -/
theorem C68_add (p : Packet) (k : Kind) (v : k.Ty) (e : Error) (h : (p.add v).1 = .err e) :
    (e = .custom "ip-v8 does not (yet) support ipv6" ∨
     e = .custom "Data too large to fit in a VarLen16. Must be less than 65536 bytes." ∨
     e = .custom "Data too large to fit in a VarLen32. Must be less than 4294967295 bytes.") ∧
    (p.add v).2 = p := by
  have hs : Serialize.ser v = .err e := by
    simp only [Packet.add, Bincode.serialize] at h
    cases hx : Serialize.ser v <;> simp [hx] at h
    rw [h]
  refine ⟨?_, by simp [Packet.add, Bincode.serialize, hs]⟩
  cases k with
  | varlen16 => exact VarLen16.encodeErr hs
  | varlen32 => exact VarLen32.encodeErr hs
  | varlen64 => cases hs
  | nested => exact VarLen16.encodeErr hs
  | time => cases hs
  | auth => cases hs
  | derived s => exact Sch.encodeErr s v.val e hs
  | puncture => exact .inl (PuncturePayload.addErr p v e h)
  | punctureRequest => exact .inl (PunctureRequestPayload.addErr p v e h)
  | introRequest => exact .inl (IntroductionRequestPayload.addErr p v e h)
  | introResponse => exact .inl (IntroductionResponsePayload.addErr p v e h)

/-! ## C68: reading -/

/-- C68. Reading a payload of the crate other than an authentication payload: the only error there is
is the end of the packet, and the cursor stays. -/
theorem C68_read (k : Kind) (ha : k ≠ .auth) (hd : ∀ s, k ≠ .derived s) (d : PacketDeserializer)
    (hl : d.pntr.bytes.length ≤ usizeMax) (e : Error) (h : (d.nextPayload k.Ty).1 = .err e) :
    e = .eof ∧ d.nextPayload k.Ty = (.err .eof, d) := by
  have hr := next_err ha hl h
  have he : e = .eof := k.onlyEof ha hd _ _ hr
  subst he
  refine ⟨rfl, ?_⟩
  have hi : d.index ≤ d.pntr.bytes.length := by
    apply Nat.le_of_not_lt
    intro hlt
    have : sliceFrom d.pntr.bytes d.index = .panic := by simp [sliceFrom]; omega
    unfold nextPayload at h
    simp [this] at h
  exact nextPayload_of_err hi hr

/-- C68. Reading a user-defined payload fails because the packet ends, or because of a byte that is no
boolean, no option tag, no UTF-8, no character or no variant of the enum. -/
theorem C68_read_derived (s : Sch) (d : PacketDeserializer) (hl : d.pntr.bytes.length ≤ usizeMax)
    (e : Error) (h : (d.nextPayload (Derived s)).1 = .err e) :
    e = .eof ∨ e = .invalidBool ∨ e = .invalidTag ∨ e = .invalidUtf8 ∨ e = .invalidChar ∨
      e = .custom "invalid value: expected variant index" := by
  have hr := next_err (k := .derived s) (by simp) hl h
  have : (Deserialize.de .big : De (Derived s)).Errs DecodeError :=
    (Sch.errs .big s).bind fun _ => .pure _
  exact this _ _ hr

/-- C68. Reading an authentication payload: the end of the packet if the announced key is not all
there, the message about the prefix if it is there and is no such key. -/
theorem C68_auth (s : Bytes) (i : Nat) (hi : i ≤ s.length) :
    let d : PacketDeserializer := ⟨⟨s⟩, i⟩
    let r := s.drop i
    let n := fromBE (r.take 2)
    let c := (r.drop 2).take n
    (r.length < 2 + n ∨ r.length < 2 → d.nextPayload BinMemberAuthenticationPayload = (.err .eof, d)) ∧
    (2 ≤ r.length → 2 + n ≤ r.length → 10 ≤ n → c.take 10 ≠ keyPrefix →
      d.nextPayload BinMemberAuthenticationPayload =
        (.err (.custom "Received BinMemberAuthenticationPayload without LibNaclPK: prefix"), d)) ∧
    (∀ e, (d.nextPayload BinMemberAuthenticationPayload).1 = .err e →
      e = .eof ∨ e = .custom "Received BinMemberAuthenticationPayload without LibNaclPK: prefix") := by
  intro d r n c
  have herr : (Deserialize.de .big : De BinMemberAuthenticationPayload).Errs
      (fun e => e = .eof ∨
        e = .custom "Received BinMemberAuthenticationPayload without LibNaclPK: prefix") := by
    intro r e h
    rw [BinMemberAuthenticationPayload.de_def] at h
    cases hx : (Deserialize.de .big : De VarLen16) r with
    | ok y =>
      simp only [hx] at h
      cases hy : authOfContents y.1.data with
      | ok z => simp [hy] at h
      | panic => simp [hy] at h
      | err x =>
        simp only [hy, Outcome.err.injEq] at h
        subst h
        rw [authOfContents_eq] at hy
        split at hy
        · simp at hy
        · split at hy
          · simp at hy; exact .inr hy.symm
          · split at hy <;> simp at hy
    | err x =>
      simp only [hx, Outcome.err.injEq] at h
      exact .inl (h ▸ VarLen16.onlyEof .big _ _ hx)
    | panic => simp [hx] at h
  have hread : ∀ e, (d.nextPayload BinMemberAuthenticationPayload).1 = .err e →
      (Deserialize.de .big : De BinMemberAuthenticationPayload) r = .err e := by
    intro e h
    rw [nextPayload_inside (d := d) hi] at h
    cases hx : (Deserialize.de .big : De BinMemberAuthenticationPayload) r with
    | ok y =>
      simp only [d, r] at hx h
      simp only [hx, Bincode.size_of_serialize (BinMemberAuthenticationPayload.ser_eq .big y.1)] at h
      simp at h
    | err x => simp only [d, r] at hx h; simp only [hx, Outcome.err.injEq] at h; rw [h]
    | panic => simp only [d, r] at hx h; simp [hx] at h
  have h16 := C06_varlen16 s i hi
  simp only at h16
  have hcut : (r.length < 2 ∨ r.length < 2 + n) →
      (Deserialize.de .big : De VarLen16) r = .err .eof := by
    intro h
    have := (h16.1 h).1
    cases hx : (Deserialize.de .big : De VarLen16) r with
    | err e => rw [VarLen16.onlyEof .big _ _ hx]
    | panic => exact absurd hx (VarLen16.canonical.noPanic _ _)
    | ok y =>
      obtain ⟨bs, h1, _⟩ := (VarLen16.canonical.exact .big r y.2 y.1).mp hx
      rw [nextPayload_of_de (d := ⟨⟨s⟩, i⟩) hi hx (Bincode.size_of_serialize h1)] at this
      simp [Outcome.isErr] at this
  have hfull : 2 + n ≤ r.length → ∃ r', (Deserialize.de .big : De VarLen16) r = .ok (⟨c⟩, r') := by
    intro h
    have := h16.2 h
    rw [nextPayload_inside (d := ⟨⟨s⟩, i⟩) hi] at this
    cases hx : (Deserialize.de .big : De VarLen16) r with
    | err e => simp only [r] at hx; simp [hx] at this
    | panic => exact absurd hx (VarLen16.canonical.noPanic _ _)
    | ok y =>
      obtain ⟨bs, h1, _⟩ := (VarLen16.canonical.exact .big r y.2 y.1).mp hx
      have hs := Bincode.size_of_serialize h1
      simp only [r] at hx
      simp only [hx, hs, Prod.mk.injEq, Outcome.ok.injEq] at this
      refine ⟨y.2, ?_⟩
      rw [← this.1]
  have hde := BinMemberAuthenticationPayload.de_def .big r
  refine ⟨?_, ?_, fun e h => herr _ _ (hread e h)⟩
  · intro h
    rw [hcut h.symm] at hde
    exact nextPayload_of_err (d := d) hi hde
  · intro _ h hn hc
    obtain ⟨r', hr'⟩ := hfull h
    have hcl : c.length = n := by simp only [c, List.length_take, List.length_drop]; omega
    rw [hr'] at hde
    simp only [authOfContents_eq] at hde
    rw [if_neg (by omega), if_pos (by rw [keyPrefix_eq] at hc; exact hc)] at hde
    exact nextPayload_of_err (d := d) hi hde

/-! ## C68: keys and fixed-size views -/

/-- C68. Key construction: a failing random generator is a generation error, everything else a
rejected key. -/
theorem C68_keys (R : Ring) :
    (∀ rng, R.generatePkcs8 rng = none → KeyPair.new R rng = .err .keyGeneration) ∧
    (∀ rng b, R.generatePkcs8 rng = some b → KeyPair.new R rng = KeyPair.fromBytes R b) ∧
    (∀ b, R.fromPkcs8 b = none → KeyPair.fromBytes R b = .err .keyRejected) ∧
    (∀ b k, R.fromPkcs8 b = some k → KeyPair.fromBytes R b = .ok ⟨k⟩) ∧
    (∀ (s : FixedBytes 32) (pk : Ed25519PublicKey), R.fromSeedAndPublicKey s.1 pk.1 = none →
      KeyPair.fromSeedChecked R s pk = .err .keyRejected) ∧
    (∀ (s : FixedBytes 32) (pk : Ed25519PublicKey) k, R.fromSeedAndPublicKey s.1 pk.1 = some k →
      KeyPair.fromSeedChecked R s pk = .ok ⟨k⟩) ∧
    (∀ s : FixedBytes 32, R.fromSeedUnchecked s.1 = none →
      KeyPair.fromSeedUnchecked R s = .err .keyRejected) ∧
    (∀ (s : FixedBytes 32) k, R.fromSeedUnchecked s.1 = some k →
      KeyPair.fromSeedUnchecked R s = .ok ⟨k⟩) := by
  refine ⟨?_, ?_, ?_, ?_, ?_, ?_, ?_, ?_⟩ <;> intros <;>
    simp_all [KeyPair.new, KeyPair.fromBytes, KeyPair.fromSeedChecked, KeyPair.fromSeedUnchecked]

/-- C68. A view of the wrong length or alignment is the conversion error. -/
theorem C68_view (data : Bytes) :
    (∀ n, asFixedArray n data = .err .conversion ↔ data.length ≠ n) ∧
    (∀ size align addr, asFixedSize size align addr data = .err .conversion ↔
      data.length ≠ size ∨ addr % align ≠ 0) := by
  constructor
  · intro n
    by_cases h : data.length = n <;> simp [asFixedArray, toFixed, h]
  · intro size align addr
    unfold asFixedSize
    split
    · rename_i h; simp [h]
    · rename_i h
      simp only [true_iff]
      by_cases h1 : data.length = size
      · exact .inr fun h2 => h ⟨h1, h2⟩
      · exact .inl h1

/-! ## Concrete cases -/

example : peekHeader ⟨⟨[0]⟩, 0⟩ = .err .eof ∧
    peekHeader ⟨⟨[0, 1]⟩, 0⟩ = .err (.custom "No valid header type could be determined") ∧
    peekHeader ⟨⟨[0, 2, 3]⟩, 0⟩ = .err .eof := by decide +kernel

/-- A community that answers everything with its own error. -/
example : let c : Community := ⟨0, List.replicate 20 7, fun _ _ _ => .err (.app 5)⟩
    let a : Address := ⟨.v4 127 0 0 1 80⟩
    (registered [c]).forwardMessage ⟨Spec.header (List.replicate 20 7) 1⟩ a =
        (.err (.app 5), [⟨0, Header.ofMid (List.replicate 20 7) 1,
          ⟨⟨Spec.header (List.replicate 20 7) 1⟩, 0⟩, a⟩]) ∧
    (registered [c]).forwardMessage ⟨Spec.header (List.replicate 20 8) 1⟩ a =
        (.err .unknownCommunity, []) ∧
    (registered [c]).forwardMessage ⟨[9, 9]⟩ a =
        (.err (.custom "No valid header type could be determined"), []) ∧
    c.receiveLogged ⟨23, .PyIPV8Header, some [], none⟩ ⟨⟨[]⟩, 0⟩ a = (.err .headerUnwrap, [], []) := by
  decide +kernel

example : (nextPayload BinMemberAuthenticationPayload
      ⟨⟨[0, 10, 1, 2, 3, 4, 5, 6, 7, 8, 9, 10]⟩, 0⟩).1 =
        .err (.custom "Received BinMemberAuthenticationPayload without LibNaclPK: prefix") ∧
    (nextPayload BinMemberAuthenticationPayload ⟨⟨[0, 10, 1]⟩, 0⟩).1 = .err .eof := by decide +kernel

example : (nextPayload (Derived .bool) ⟨⟨[2]⟩, 0⟩).1 = .err .invalidBool := by rfl

example : (⟨[]⟩ : Packet).add (PuncturePayload.mk ⟨.v4 1 2 3 4 5⟩
    ⟨.v6 (FixedBytes.replicate 16 0) 1 0 0⟩ 7) =
      (.err (.custom "ip-v8 does not (yet) support ipv6"), ⟨[]⟩) := by decide +kernel

/-! ## Cases for the theorems above -/

/-- `C68_add`: an IPv6 address. -/
example (e : Error) (h : ((⟨[]⟩ : Packet).add (show Kind.Ty .puncture from PuncturePayload.mk ⟨.v4 1 2 3 4 5⟩
    ⟨.v6 (FixedBytes.replicate 16 0) 1 0 0⟩ 7)).1 = .err e) : e = .custom "ip-v8 does not (yet) support ipv6" := by
  rcases (C68_add ⟨[]⟩ .puncture _ e h).1 with h1 | h1 | h1
  · exact h1
  · subst h1; exact absurd h (by decide +kernel)
  · subst h1; exact absurd h (by decide +kernel)

/-- `C68_auth`: a length of 10 with one byte following; and ten bytes that are no key prefix. -/
example : nextPayload BinMemberAuthenticationPayload ⟨⟨[0, 10, 1]⟩, 0⟩ = (.err .eof, ⟨⟨[0, 10, 1]⟩, 0⟩) ∧
    nextPayload BinMemberAuthenticationPayload ⟨⟨[0, 10, 1, 2, 3, 4, 5, 6, 7, 8, 9, 10]⟩, 0⟩ =
      (.err (.custom "Received BinMemberAuthenticationPayload without LibNaclPK: prefix"),
        ⟨⟨[0, 10, 1, 2, 3, 4, 5, 6, 7, 8, 9, 10]⟩, 0⟩) :=
  ⟨(C68_auth [0, 10, 1] 0 (by decide)).1 (.inl (by decide)),
    (C68_auth [0, 10, 1, 2, 3, 4, 5, 6, 7, 8, 9, 10] 0 (by decide)).2.1 (by decide) (by decide) (by decide) (by decide +kernel)⟩

/-- `C68_new`: a header without a message type. -/
example : Packet.new ⟨23, .PyIPV8Header, some (List.replicate 20 7), none⟩ = .err .header :=
  (C68_new _).1.mpr (.inr rfl)

/-- `C68_read` and `C68_read_derived`: a time that is cut off, and a Boolean that is none. -/
example (e e' : Error) (h : (nextPayload (Kind.Ty .time) ⟨⟨[1, 2, 3]⟩, 0⟩).1 = .err e)
    (h' : (nextPayload (Derived .bool) ⟨⟨[2]⟩, 0⟩).1 = .err e') :
    e = .eof ∧ (e' = .eof ∨ e' = .invalidBool ∨ e' = .invalidTag ∨ e' = .invalidUtf8 ∨ e' = .invalidChar ∨
      e' = .custom "invalid value: expected variant index") :=
  ⟨(C68_read .time (fun h => nomatch h) (fun _ h => nomatch h) _ (by decide) e h).1, C68_read_derived .bool _ (by decide) e' h'⟩

/-- `C68_receive`: the community that answers everything with its own error. -/
example (d : PacketDeserializer) (a : Address) : ∃ c : Community, c.onReceive (Header.pyIpv8Header (FixedBytes.replicate 20 7) 1) d a = .err (.app 5) ∧
    (c.receive (Header.pyIpv8Header (FixedBytes.replicate 20 7) 1) d a).2.length = 1 := by
  have h := (C68_receive ⟨0, List.replicate 20 7, fun _ _ _ => .err (.app 5)⟩
    (Header.pyIpv8Header (FixedBytes.replicate 20 7) 1) d a).2 1 (.app 5) rfl rfl
  exact ⟨_, h.1, by rw [h.2]; rfl⟩

/-- `C68_header`: one byte. -/
example : peekHeader ⟨⟨[0]⟩, 0⟩ = .err .eof := (C68_header [0] 0 (by decide)).1.mpr (.inl (by decide))

end Ipv8
