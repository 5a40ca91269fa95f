import Verif.Lemmas.Types
import Verif.Spec
/-!
# Lemmas connecting the packet API with the codecs
-/

namespace Ipv8
open PacketDeserializer

theorem be16_eq (n : Nat) : intBytes .big 2 n = Spec.be16 n := by
  simp [intBytes, leBytes, Spec.be16]

theorem be32_eq (n : Nat) : intBytes .big 4 n = Spec.be32 n := by
  simp [intBytes, leBytes, Spec.be32, Nat.div_div_eq_div_mul]

theorem be64_eq (n : Nat) : intBytes .big 8 n = Spec.be64 n := by
  simp [intBytes, leBytes, Spec.be64, Nat.div_div_eq_div_mul]

theorem fromBE_eq (l : Bytes) : Spec.fromBE l = ofInt .big l := by
  have h : ∀ (l : Bytes), l.foldr (fun b n => n * 256 + b.toNat) 0 = ofLE l := by
    intro l
    induction l with
    | nil => rfl
    | cons b l ih => simp only [List.foldr_cons, ofLE, ih]; omega
  simp only [Spec.fromBE, ofInt, ← h, List.foldr_reverse]

@[simp] theorem be16_length (n : Nat) : (Spec.be16 n).length = 2 := rfl
@[simp] theorem be32_length (n : Nat) : (Spec.be32 n).length = 4 := rfl
@[simp] theorem be64_length (n : Nat) : (Spec.be64 n).length = 8 := rfl

theorem sliceFrom_ok {s : Bytes} {i : Nat} (h : i ≤ s.length) : sliceFrom s i = .ok (s.drop i) := by
  simp [sliceFrom, h]

theorem nextPayload_inside {α : Type} [Ipv8Payload α] [Serialize α] [Deserialize α]
    {d : PacketDeserializer} (h : d.index ≤ d.pntr.bytes.length) :
    d.nextPayload α =
      match (Deserialize.de .big : De α) (d.pntr.bytes.drop d.index) with
      | .ok (v, _) =>
        (match Bincode.serializedSize v with
        | .ok n => (.ok v, { d with index := d.index + n })
        | .err e => (.err e, d)
        | .panic => (.panic, d))
      | .err e => (.err e, d)
      | .panic => (.panic, d) := by
  unfold nextPayload
  rw [sliceFrom_ok h]
  simp only [Bincode.deserialize]
  cases (Deserialize.de .big : De α) (d.pntr.bytes.drop d.index) <;> rfl

theorem nextPayload_of_de {α : Type} [Ipv8Payload α] [Serialize α] [Deserialize α]
    {d : PacketDeserializer} (h : d.index ≤ d.pntr.bytes.length) {v : α} {r' : Bytes} {n : Nat}
    (hd : (Deserialize.de .big : De α) (d.pntr.bytes.drop d.index) = .ok (v, r'))
    (hs : Bincode.serializedSize v = .ok n) :
    d.nextPayload α = (.ok v, { d with index := d.index + n }) := by
  rw [nextPayload_inside h, hd]; simp only [hs]

theorem nextPayload_of_err {α : Type} [Ipv8Payload α] [Serialize α] [Deserialize α]
    {d : PacketDeserializer} (h : d.index ≤ d.pntr.bytes.length) {e : Error}
    (hd : (Deserialize.de .big : De α) (d.pntr.bytes.drop d.index) = .err e) :
    d.nextPayload α = (.err e, d) := by
  rw [nextPayload_inside h, hd]

theorem nextPayload_of_panic {α : Type} [Ipv8Payload α] [Serialize α] [Deserialize α]
    {d : PacketDeserializer} (h : d.index ≤ d.pntr.bytes.length)
    (hd : (Deserialize.de .big : De α) (d.pntr.bytes.drop d.index) = .panic) :
    d.nextPayload α = (.panic, d) := by
  rw [nextPayload_inside h, hd]

theorem drop_pre (pre x : Bytes) : (pre ++ x).drop pre.length = x := by simp

theorem writes_of_serialize {α : Type} [Ipv8Payload α] [Serialize α] {v : α} {w : Bytes}
    (h : Bincode.serialize .big v = .ok w) : Spec.Writes v w := by
  intro p; simp [Packet.add, h]

theorem serialize_of_writes {α : Type} [Ipv8Payload α] [Serialize α] {v : α} {w : Bytes}
    (h : Spec.Writes v w) : Bincode.serialize .big v = .ok w := by
  have := h ⟨[]⟩
  unfold Packet.add at this
  cases hs : Bincode.serialize .big v with
  | ok i => simpa [hs] using this
  | err e => simp [hs] at this
  | panic => simp [hs] at this

theorem refused_of_err {α : Type} [Ipv8Payload α] [Serialize α] {v : α}
    (h : (Bincode.serialize .big v).isErr = true) : Spec.Refused v := by
  intro p
  unfold Packet.add
  cases hs : Bincode.serialize .big v with
  | ok i => simp [hs, Outcome.isErr] at h
  | err e => simp [Outcome.isErr]
  | panic => simp [hs, Outcome.isErr] at h

theorem add_ok_iff {α : Type} [Ipv8Payload α] [Serialize α] {p q : Packet} {v : α} :
    p.add v = (.ok (), q) ↔ ∃ w, Bincode.serialize .big v = .ok w ∧ q = ⟨p.bytes ++ w⟩ := by
  unfold Packet.add
  cases Bincode.serialize .big v with
  | ok i => simp [eq_comm]
  | err e => simp
  | panic => simp

theorem readsAs_of_roundTrip {α : Type} [Ipv8Payload α] [Serialize α] [Deserialize α]
    (hr : RoundTrip α) {v : α} {w : Bytes} (h : Bincode.serialize .big v = .ok w) :
    Spec.ReadsAs w v := by
  intro pre post hl
  refine nextPayload_of_de (r' := post) (by simp) ?_ (Bincode.size_of_serialize h)
  simp only [List.append_assoc, drop_pre]
  refine hr .big v w h ?_ post
  simp at hl; omega

end Ipv8
