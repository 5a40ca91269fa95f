import Verif.Props.Wire
/-!
# Property C25 continued: payloads of the crate as fields of user-defined structs
-/

namespace Ipv8
open PacketDeserializer

/-- The derived struct with the same fields as a puncture payload. -/
def punctureSch : Sch := .cons .address (.cons .address (.cons .u16 .unit))

/-- Change the type of what was read. -/
def Outcome.mapTo {α β : Type} (f : α → β) : Outcome α → Outcome β
  | .ok a => .ok (f a)
  | .err e => .err e
  | .panic => .panic

theorem De.bind_apply {α β : Type} (d : De α) (f : α → De β) (r : Bytes) :
    (d >>= f) r = match d r with
      | .ok (a, r') => f a r'
      | .err e => .err e
      | .panic => .panic := by rfl
theorem De.pure_apply {α : Type} (a : α) (r : Bytes) : (pure a : De α) r = .ok (a, r) := rfl

/-- Two payload types that are written and read alike behave alike in packets. -/
theorem alike {α β : Type} [Ipv8Payload α] [Serialize α] [Deserialize α] [Ipv8Payload β] [Serialize β]
    [Deserialize β] (f : α → β) (hs : ∀ v, Serialize.ser v = Serialize.ser (f v))
    (hd : ∀ r, (Deserialize.de .big : De β) r = Outcome.mapTo (fun x => (f x.1, x.2)) ((Deserialize.de .big : De α) r)) :
    (∀ (p : Packet) v, p.add v = p.add (f v)) ∧
    (∀ d : PacketDeserializer, d.nextPayload β = (Outcome.mapTo f (d.nextPayload α).1, (d.nextPayload α).2)) := by
  constructor
  · intro p v
    simp [Packet.add, Bincode.serialize, hs v]
  · intro d
    unfold nextPayload
    cases sliceFrom d.pntr.bytes d.index with
    | err e => rfl
    | panic => rfl
    | ok s =>
      simp only [Bincode.deserialize, hd]
      cases h : (Deserialize.de .big : De α) s with
      | err e => rfl
      | panic => rfl
      | ok x =>
        obtain ⟨v, r⟩ := x
        have : Bincode.serializedSize (f v) = Bincode.serializedSize v := by
          simp [Bincode.serializedSize, hs v]
        simp only [Outcome.mapTo, this]
        cases Bincode.serializedSize v <;> rfl

/-- C25. The puncture, puncture request and time payloads of the crate are written and read in packets just
like derived structs with the same fields; so a struct with fields of these types is covered too: as field
type take the struct's schema. -/
theorem C25_crate_fields :
    (∀ (p : Packet) (v : PuncturePayload),
      p.add v = p.add (Derived.mk (s := punctureSch) (v.lanWalkerAddress, v.wanWalkerAddress, v.identifier, ()))) ∧
    (∀ d : PacketDeserializer, d.nextPayload (Derived punctureSch) =
      (((d.nextPayload PuncturePayload).1.mapTo fun v =>
        ⟨(v.lanWalkerAddress, v.wanWalkerAddress, v.identifier, ())⟩), (d.nextPayload PuncturePayload).2)) ∧
    (∀ (p : Packet) (v : PunctureRequestPayload),
      p.add v = p.add (Derived.mk (s := punctureSch) (v.lanWalkerAddress, v.wanWalkerAddress, v.identifier, ()))) ∧
    (∀ d : PacketDeserializer, d.nextPayload (Derived punctureSch) =
      (((d.nextPayload PunctureRequestPayload).1.mapTo fun v =>
        ⟨(v.lanWalkerAddress, v.wanWalkerAddress, v.identifier, ())⟩), (d.nextPayload PunctureRequestPayload).2)) ∧
    (∀ (p : Packet) (v : TimeDistributionPayload),
      p.add v = p.add (Derived.mk (s := .cons .u64 .unit) (v.globalTime, ()))) ∧
    (∀ d : PacketDeserializer, d.nextPayload (Derived (.cons .u64 .unit)) =
      (((d.nextPayload TimeDistributionPayload).1.mapTo fun v => ⟨(v.globalTime, ())⟩),
        (d.nextPayload TimeDistributionPayload).2)) := by
  have f3 {α : Type} (d : De α) (e : Error) (n : Nat) (r : Bytes) : field d e (n + 1) r =
      match d r with
      | .ok (a, r') => .ok ((a, n), r')
      | .err e => .err e
      | .panic => .panic := by
    simp only [field, nextElement, De.bind_apply]
    cases d r <;> rfl
  have hser {a b : Address} {i : UInt16} :
      (do
        let a ← Serialize.ser a
        let b ← Serialize.ser b
        pure (a ++ b ++ [Tok.u16 i]) : Outcome (List Tok)) = punctureSch.ser (a, b, i, ()) := by
    simp only [punctureSch, Sch.ser]
    cases Serialize.ser a <;> simp
    cases Serialize.ser b <;> simp
  have hde (r : Bytes) : (punctureSch.de .big) r =
      match (Deserialize.de .big : De Address) r with
      | .ok (a, r1) =>
        match (Deserialize.de .big : De Address) r1 with
        | .ok (b, r2) =>
          match deU16 .big r2 with
          | .ok (i, r3) => .ok ((a, b, i, ()), r3)
          | .err e => .err e
          | .panic => .panic
        | .err e => .err e
        | .panic => .panic
      | .err e => .err e
      | .panic => .panic := by
    simp only [punctureSch, Sch.de, De.bind_apply]
    cases (Deserialize.de .big : De Address) r with
    | err e => rfl
    | panic => rfl
    | ok x =>
      obtain ⟨a, r1⟩ := x
      simp only
      cases (Deserialize.de .big : De Address) r1 with
      | err e => rfl
      | panic => rfl
      | ok x =>
        obtain ⟨b, r2⟩ := x
        simp only
        cases deU16 .big r2 <;> rfl
  have h1 := alike (α := PuncturePayload) (β := Derived punctureSch)
    (fun v => ⟨(v.lanWalkerAddress, v.wanWalkerAddress, v.identifier, ())⟩) (fun v => hser)
    (by
      intro r
      show ((punctureSch.de .big >>= fun v => pure ⟨v⟩ : De (Derived punctureSch)) r) = _
      rw [De.bind_apply, hde]
      show _ = Outcome.mapTo _ ((field (Deserialize.de .big : De Address) (.invalidLength 0) 3 >>= fun x =>
        field (Deserialize.de .big : De Address) (.invalidLength 1) x.2 >>= fun y =>
        field (deU16 .big) (.invalidLength 2) y.2 >>= fun z => pure ⟨x.1, y.1, z.1⟩ : De PuncturePayload) r)
      simp only [De.bind_apply, f3]
      cases (Deserialize.de .big : De Address) r with
      | err e => rfl
      | panic => rfl
      | ok x =>
        obtain ⟨a, r1⟩ := x
        simp only [f3]
        cases (Deserialize.de .big : De Address) r1 with
        | err e => rfl
        | panic => rfl
        | ok x =>
          obtain ⟨b, r2⟩ := x
          simp only [f3]
          cases deU16 .big r2 <;> rfl)
  have h2 := alike (α := PunctureRequestPayload) (β := Derived punctureSch)
    (fun v => ⟨(v.lanWalkerAddress, v.wanWalkerAddress, v.identifier, ())⟩) (fun v => hser)
    (by
      intro r
      show ((punctureSch.de .big >>= fun v => pure ⟨v⟩ : De (Derived punctureSch)) r) = _
      rw [De.bind_apply, hde]
      show _ = Outcome.mapTo _ ((field (Deserialize.de .big : De Address) (.invalidLength 0) 3 >>= fun x =>
        field (Deserialize.de .big : De Address) (.invalidLength 1) x.2 >>= fun y =>
        field (deU16 .big) (.invalidLength 2) y.2 >>= fun z => pure ⟨x.1, y.1, z.1⟩ : De PunctureRequestPayload) r)
      simp only [De.bind_apply, f3]
      cases (Deserialize.de .big : De Address) r with
      | err e => rfl
      | panic => rfl
      | ok x =>
        obtain ⟨a, r1⟩ := x
        simp only [f3]
        cases (Deserialize.de .big : De Address) r1 with
        | err e => rfl
        | panic => rfl
        | ok x =>
          obtain ⟨b, r2⟩ := x
          simp only [f3]
          cases deU16 .big r2 <;> rfl)
  have h3 := alike (α := TimeDistributionPayload) (β := Derived (.cons .u64 .unit))
    (fun v => ⟨(v.globalTime, ())⟩)
    (fun v => by simp [Serialize.ser, Sch.ser])
    (by
      intro r
      show (((Sch.cons .u64 .unit).de .big >>= fun v => pure ⟨v⟩ : De (Derived (.cons .u64 .unit))) r) = _
      show _ = Outcome.mapTo _ ((field (deU64 .big) (.invalidLength 0) 1 >>= fun x => pure ⟨x.1⟩ :
        De TimeDistributionPayload) r)
      simp only [Sch.de, De.bind_apply, f3]
      cases deU64 .big r <;> rfl)
  exact ⟨h1.1, h1.2, h2.1, h2.2, h3.1, h3.2⟩
end Ipv8
