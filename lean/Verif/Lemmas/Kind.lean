import Verif.Lemmas.Derive
import Verif.Lemmas.Reader
import Verif.Props.Payload
/-!
# The codecs of all payload types together
-/

namespace Ipv8
open PacketDeserializer

theorem Kind.sizeExact : (k : Kind) → k ≠ .auth → SizeExact k.Ty
  | .varlen16, _ => VarLen16.canonical.sizeExact
  | .varlen32, _ => VarLen32.canonical.sizeExact
  | .varlen64, _ => VarLen64.sizeExact
  | .nested, _ => NestedPacket.canonical.sizeExact
  | .time, _ => TimeDistributionPayload.canonical.sizeExact
  | .puncture, _ => PuncturePayload.canonical.sizeExact
  | .punctureRequest, _ => PunctureRequestPayload.canonical.sizeExact
  | .introRequest, _ => IntroductionRequestPayload.sizeExact
  | .introResponse, _ => IntroductionResponsePayload.sizeExact
  | .auth, h => absurd rfl h
  | .derived s, _ => Derived.sizeExact s

/-- Reading inverts writing for one value. -/
def ReadBack {α : Type} [Serialize α] [Deserialize α] (v : α) (w : Bytes) : Prop :=
  ∀ rest, (Deserialize.de .big : De α) (w ++ rest) = .ok (v, rest)

theorem Derived.serialize_eq {s : Sch} {v : Derived s} {w : Bytes}
    (h : Bincode.serialize .big v = .ok w) : ∃ ts, s.ser v.val = .ok ts ∧ w = flat .big ts := by
  rw [Bincode.serialize_eq_ok] at h
  exact h

theorem Kind.readBack : (k : Kind) → k.SelfDelimiting → ∀ (v : k.Ty) (w : Bytes), k.Fits v →
    Bincode.serialize .big v = .ok w → w.length ≤ usizeMax → ReadBack v w
  | .varlen16, _, v, w, _, h, hl => VarLen16.canonical.roundTrip .big v w h hl
  | .varlen32, _, v, w, _, h, hl => VarLen32.canonical.roundTrip .big v w h hl
  | .varlen64, _, v, w, _, h, hl => VarLen64.roundTrip .big v w h hl
  | .nested, _, v, w, _, h, hl => NestedPacket.canonical.roundTrip .big v w h hl
  | .time, _, v, w, _, h, hl => TimeDistributionPayload.canonical.roundTrip .big v w h hl
  | .puncture, _, v, w, _, h, hl => PuncturePayload.canonical.roundTrip .big v w h hl
  | .punctureRequest, _, v, w, _, h, hl => PunctureRequestPayload.canonical.roundTrip .big v w h hl
  | .auth, _, v, w, _, h, hl => BinMemberAuthenticationPayload.roundTrip .big v w h hl
  | .introRequest, hs, _, _, _, _, _ => absurd hs id
  | .introResponse, hs, _, _, _, _, _ => absurd hs id
  | .derived s, hs, v, w, hf, h, _ => by
    intro rest
    obtain ⟨ts, h1, rfl⟩ := Derived.serialize_eq (v := v) h
    exact Derived.de_eq_ok.mpr (Sch.roundtrip .big s hs v.val ts rest hf h1)

theorem IntroductionRequestPayload.readBack_last (v : IntroductionRequestPayload) (w : Bytes)
    (h : Bincode.serialize .big v = .ok w) (hl : w.length ≤ usizeMax) :
    (Deserialize.de .big : De IntroductionRequestPayload) w = .ok (v, []) := by
  simp only [IntroductionRequestPayload.ser_eq, Outcome.bind_eq_ok, Outcome.pure_eq,
    Outcome.ok.injEq] at h
  obtain ⟨a, ha, b, hb, c, hc, rfl⟩ := h
  rw [IntroductionRequestPayload.de_eq_ok]
  have hf : reqFlags v = Spec.requestFlags v.connectionType v.advice := reqFlags_eq v
  refine ⟨_, _, _, v.extraBytes.data, reqFlags v, ha, hb, hc, ?_, ?_, ?_, rfl⟩
  · rw [hf]; exact (flags_decode _ _).2.symm
  · rw [hf]; exact (flags_decode _ _).1.symm
  · apply RawEnd.de_eq
    simp at hl
    omega

theorem IntroductionResponsePayload.readBack_last (v : IntroductionResponsePayload) (w : Bytes)
    (ht : v.tunnel = false)
    (h : Bincode.serialize .big v = .ok w) (hl : w.length ≤ usizeMax) :
    (Deserialize.de .big : De IntroductionResponsePayload) w = .ok (v, []) := by
  simp only [IntroductionResponsePayload.ser_eq, Outcome.bind_eq_ok, Outcome.pure_eq,
    Outcome.ok.injEq] at h
  obtain ⟨a, ha, b, hb, c, hc, d, hd, f, hf, rfl⟩ := h
  rw [IntroductionResponsePayload.de_eq_ok]
  have hq := flags_decode v.connectionType false
  have : Spec.requestFlags v.connectionType false = respFlags v := by
    rw [respFlags_eq]; cases v.connectionType <;> rfl
  rw [this] at hq
  refine ⟨_, _, _, _, _, v.extraBytes.data, respFlags v, ha, hb, hc, hd, hf, ht, hq.1.symm, ?_, rfl⟩
  apply RawEnd.de_eq
  simp at hl
  omega

theorem Kind.readBack_last : (k : Kind) → ∀ (v : k.Ty) (w : Bytes), k.CanBeLast v → k.Fits v →
    Bincode.serialize .big v = .ok w → w.length ≤ usizeMax →
    (Deserialize.de .big : De k.Ty) w = .ok (v, [])
  | .introRequest, v, w, _, _, h, hl => IntroductionRequestPayload.readBack_last v w h hl
  | .introResponse, v, w, ht, _, h, hl => IntroductionResponsePayload.readBack_last v w ht h hl
  | .derived s, v, w, hs, hf, h, hl => by
    obtain ⟨ts, h1, rfl⟩ := Derived.serialize_eq (v := v) h
    exact Derived.de_eq_ok.mpr (Sch.roundtrip_last .big s hs v.val ts hf h1 hl)
  | .varlen16, v, w, _, hf, h, hl => by
    simpa using Kind.readBack .varlen16 trivial v w hf h hl []
  | .varlen32, v, w, _, hf, h, hl => by
    simpa using Kind.readBack .varlen32 trivial v w hf h hl []
  | .varlen64, v, w, _, hf, h, hl => by
    simpa using Kind.readBack .varlen64 trivial v w hf h hl []
  | .nested, v, w, _, hf, h, hl => by simpa using Kind.readBack .nested trivial v w hf h hl []
  | .time, v, w, _, hf, h, hl => by simpa using Kind.readBack .time trivial v w hf h hl []
  | .puncture, v, w, _, hf, h, hl => by simpa using Kind.readBack .puncture trivial v w hf h hl []
  | .punctureRequest, v, w, _, hf, h, hl => by
    simpa using Kind.readBack .punctureRequest trivial v w hf h hl []
  | .auth, v, w, _, hf, h, hl => by simpa using Kind.readBack .auth trivial v w hf h hl []

/-- What was read is what would be written, for everything but authentication payloads and the
introduction messages. -/
theorem Kind.reads_written : (k : Kind) → k.SelfDelimiting → k ≠ .auth → ∀ (r r' : Bytes) (v : k.Ty),
    (Deserialize.de .big : De k.Ty) r = .ok (v, r') →
      ∃ w, Bincode.serialize .big v = .ok w ∧ r = w ++ r'
  | .varlen16, _, _, r, r', v, h => (VarLen16.canonical.exact .big r r' v).mp h
  | .varlen32, _, _, r, r', v, h => (VarLen32.canonical.exact .big r r' v).mp h
  | .varlen64, _, _, r, r', v, h => by
    have h := VarLen64.de_eq_ok.mp h
    exact ⟨_, VarLen64.ser_eq h.1, by rw [h.2, List.append_assoc]⟩
  | .nested, _, _, r, r', v, h => (NestedPacket.canonical.exact .big r r' v).mp h
  | .time, _, _, r, r', v, h => (TimeDistributionPayload.canonical.exact .big r r' v).mp h
  | .puncture, _, _, r, r', v, h => (PuncturePayload.canonical.exact .big r r' v).mp h
  | .punctureRequest, _, _, r, r', v, h =>
    (PunctureRequestPayload.canonical.exact .big r r' v).mp h
  | .auth, _, hk, _, _, _, _ => absurd rfl hk
  | .introRequest, hs, _, _, _, _, _ => absurd hs id
  | .introResponse, hs, _, _, _, _, _ => absurd hs id
  | .derived s, _, _, r, r', v, h => by
    obtain ⟨ts, h1, h2⟩ := Sch.de_exact .big s r r' _ (Derived.de_eq_ok.mp h)
    exact ⟨_, Bincode.serialize_of_ser .big (α := Derived s) h1, h2⟩

theorem Kind.fits_of_read : (k : Kind) → ∀ (r r' : Bytes) (v : k.Ty),
    (Deserialize.de .big : De k.Ty) r = .ok (v, r') → k.Fits v
  | .derived s, r, r', _, h => Sch.de_fits .big s r r' _ (Derived.de_eq_ok.mp h)
  | .varlen16, _, _, _, _ => trivial
  | .varlen32, _, _, _, _ => trivial
  | .varlen64, _, _, _, _ => trivial
  | .nested, _, _, _, _ => trivial
  | .time, _, _, _, _ => trivial
  | .puncture, _, _, _, _ => trivial
  | .punctureRequest, _, _, _, _ => trivial
  | .introRequest, _, _, _, _ => trivial
  | .introResponse, _, _, _, _ => trivial
  | .auth, _, _, _, _ => trivial

/-! ## Writing never panics -/

theorem Address.ser_ne_panic (a : Address) : (Serialize.ser a : Outcome (List Tok)) ≠ .panic := by
  cases a with
  | mk sock => cases sock <;> simp [Serialize.ser]

theorem serSeq_ne_panic {α : Type} {f : α → Outcome (List Tok)} (hf : ∀ x, f x ≠ .panic) :
    ∀ l, serSeq f l ≠ .panic
  | [] => by simp [serSeq]
  | x :: xs => by
    simp only [serSeq]
    cases h : f x with
    | panic => exact absurd h (hf x)
    | err e => simp
    | ok a =>
      cases h2 : serSeq f xs with
      | panic => exact absurd h2 (serSeq_ne_panic hf xs)
      | err e => simp
      | ok b => simp

theorem VarLen16.ser_ne_panic (v : VarLen16) : (Serialize.ser v : Outcome (List Tok)) ≠ .panic := by
  simp only [Serialize.ser]
  split <;> simp

theorem VarLen32.ser_ne_panic (v : VarLen32) : (Serialize.ser v : Outcome (List Tok)) ≠ .panic := by
  simp only [Serialize.ser]
  split <;> simp

theorem Outcome.bind_ne_panic {α β : Type} {m : Outcome α} {f : α → Outcome β} (h1 : m ≠ .panic)
    (h2 : ∀ a, f a ≠ .panic) : (m >>= f) ≠ .panic := by
  cases m with
  | ok a => exact h2 a
  | err e => simp
  | panic => exact absurd rfl h1

theorem Sch.ser_ne_panic (s : Sch) : ∀ v : s.Ty, s.ser v ≠ .panic := by
  induction s with
  | option s ih =>
    intro v
    cases v with
    | none => simp [Sch.ser]
    | some x => exact Outcome.bind_ne_panic (ih x) (by simp)
  | vec s ih => intro v; exact Outcome.bind_ne_panic (serSeq_ne_panic ih v) (by simp)
  | array n s ih => intro v; exact serSeq_ne_panic ih v.val
  | cons a b iha ihb =>
    intro v
    exact Outcome.bind_ne_panic (iha v.1) (fun _ => Outcome.bind_ne_panic (ihb v.2) (by simp))
  | enum n f ih => intro v; exact Outcome.bind_ne_panic (ih v.1 v.2) (by simp)
  | address => intro v; exact Address.ser_ne_panic v
  | varlen16 => intro v; exact VarLen16.ser_ne_panic v
  | varlen32 => intro v; exact VarLen32.ser_ne_panic v
  | nested => intro v; exact VarLen16.ser_ne_panic _
  | _ => intro v; simp [Sch.ser, Serialize.ser, serVec]

theorem Kind.ser_ne_panic : (k : Kind) → ∀ v : k.Ty, (Serialize.ser v : Outcome (List Tok)) ≠ .panic
  | .varlen16, v => VarLen16.ser_ne_panic v
  | .varlen32, v => VarLen32.ser_ne_panic v
  | .varlen64, _ => fun h => Outcome.noConfusion rfl (heq_of_eq h)
  | .nested, v => VarLen16.ser_ne_panic ⟨NestedPacket.packet v |>.bytes⟩
  | .time, _ => fun h => Outcome.noConfusion rfl (heq_of_eq h)
  | .puncture, v => Outcome.bind_ne_panic (Address.ser_ne_panic _) (fun _ =>
      Outcome.bind_ne_panic (Address.ser_ne_panic _) (by simp))
  | .punctureRequest, v => Outcome.bind_ne_panic (Address.ser_ne_panic _) (fun _ =>
      Outcome.bind_ne_panic (Address.ser_ne_panic _) (by simp))
  | .introRequest, v => Outcome.bind_ne_panic (Address.ser_ne_panic _) (fun _ =>
      Outcome.bind_ne_panic (Address.ser_ne_panic _) (fun _ =>
      Outcome.bind_ne_panic (Address.ser_ne_panic _) (by simp [Serialize.ser])))
  | .introResponse, v => Outcome.bind_ne_panic (Address.ser_ne_panic _) (fun _ =>
      Outcome.bind_ne_panic (Address.ser_ne_panic _) (fun _ =>
      Outcome.bind_ne_panic (Address.ser_ne_panic _) (fun _ =>
      Outcome.bind_ne_panic (Address.ser_ne_panic _) (fun _ =>
      Outcome.bind_ne_panic (Address.ser_ne_panic _) (by simp [Serialize.ser])))))
  | .auth, _ => fun h => Outcome.noConfusion rfl (heq_of_eq h)
  | .derived s, v => Sch.ser_ne_panic s v.val

/-! ## Cursor and reads -/

theorem nextPayload_sizeExact {α : Type} [Ipv8Payload α] [Serialize α] [Deserialize α]
    (hs : SizeExact α) {d d' : PacketDeserializer} {v : α} (hl : d.pntr.bytes.length ≤ usizeMax)
    (h : d.nextPayload α = (.ok v, d')) :
    d.index ≤ d'.index ∧ d'.index ≤ d.pntr.bytes.length ∧ d'.pntr = d.pntr ∧
      (Deserialize.de .big : De α) (d.pntr.bytes.drop d.index) =
        .ok (v, d.pntr.bytes.drop d'.index) := by
  have hi : d.index ≤ d.pntr.bytes.length := by
    unfold nextPayload sliceFrom at h
    by_cases hx : d.index ≤ d.pntr.bytes.length
    · exact hx
    · simp [hx] at h
  rw [nextPayload_inside hi] at h
  cases hd : (Deserialize.de .big : De α) (d.pntr.bytes.drop d.index) with
  | err e => simp [hd] at h
  | panic => simp [hd] at h
  | ok x =>
    obtain ⟨v', r'⟩ := x
    obtain ⟨bs, h1, h2⟩ := hs.size .big _ _ _ (by simp; omega) hd
    simp only [hd, h2, Prod.mk.injEq, Outcome.ok.injEq] at h
    obtain ⟨rfl, rfl⟩ := h
    have hlen : (d.pntr.bytes.drop d.index).length = bs.length + r'.length := by
      rw [h1, List.length_append]
    rw [List.length_drop] at hlen
    refine ⟨by simp, by simp only; omega, rfl, ?_⟩
    simp only
    rw [← List.drop_drop, h1]
    simp

end Ipv8
