import Verif.Lemmas.Reader
/-!
# Properties C10 – C13: packet headers
-/

namespace Ipv8
open Spec PacketDeserializer

/-! ## Helper lemmas -/

theorem Header.serialize_eq (h : Header) :
    Bincode.serialize .big h = match h.midHash, h.messageType with
      | some mid, some t => .ok ([0, 2] ++ mid ++ [t.toUInt8])
      | none, _ => .err (.custom "mid_hash was empty and this wasn't expected")
      | some _, none => .err (.custom "Message type was empty and this wasn't expected") := by
  rcases h with ⟨size, ⟨⟩, _ | mid, _ | t⟩
  · rfl
  · rfl
  · rfl
  · simp only [Bincode.serialize, Serialize.ser, Outcome.ofOption_some, Outcome.ok_bind,
      Outcome.pure_eq, List.flatMap_cons, List.flatMap_append, flatMap_u8, List.flatMap_nil]
    rfl

theorem peekHeader_of_de {d : PacketDeserializer} (h : d.index ≤ d.pntr.bytes.length) :
    d.peekHeader = match (Deserialize.de .big : De Header) (d.pntr.bytes.drop d.index) with
      | .ok (x, _) => .ok x
      | .err e => .err e
      | .panic => .panic := by
  unfold peekHeader
  rw [sliceFrom_ok h, Outcome.ok_bind]
  unfold Bincode.deserialize
  cases (Deserialize.de .big : De Header) (d.pntr.bytes.drop d.index) <;> rfl

/-! ## C10 -/

/-- C10. `Packet::new` of a PyIPv8 header is `0, 2, mid, type`. -/
theorem C10_wire (mid : FixedBytes 20) (t : UInt8) :
    Packet.new (Header.pyIpv8Header mid t) = .ok ⟨Spec.header mid.1 t⟩ := by
  unfold Packet.new
  rw [Header.serialize_eq]
  simp [Header.pyIpv8Header, Header.ofMid, Spec.header]

/-- C10. It is 23 bytes long. -/
theorem C10_length (mid : FixedBytes 20) (t : UInt8) : (Spec.header mid.1 t).length = 23 := by
  simp [Spec.header, mid.2]

/-- C10. With anything before and behind it, peeking at the header gives it back, popping it gives it
back and moves the cursor 23 bytes, and skipping it moves the cursor 23 bytes. -/
theorem C10_read (mid : FixedBytes 20) (t : UInt8) (pre post : Bytes) :
    let d : PacketDeserializer := ⟨⟨pre ++ Spec.header mid.1 t ++ post⟩, pre.length⟩
    let d' : PacketDeserializer := ⟨⟨pre ++ Spec.header mid.1 t ++ post⟩, pre.length + 23⟩
    d.peekHeader = .ok (Header.pyIpv8Header mid t) ∧
    d.popHeader = (.ok (Header.pyIpv8Header mid t), d') ∧
    d.skipHeader = .ok d' := by
  intro d d'
  have hd : (Deserialize.de .big : De Header) (d.pntr.bytes.drop d.index) =
      .ok (Header.pyIpv8Header mid t, post) := by
    rw [Header.de_eq_ok]
    exact ⟨mid.1, t, mid.2, rfl, by simp [d, Spec.header]⟩
  have hp : d.peekHeader = .ok (Header.pyIpv8Header mid t) := by
    rw [peekHeader_of_de (by simp [d]), hd]
  have hq : d.popHeader = (.ok (Header.pyIpv8Header mid t), d') := by
    unfold popHeader; rw [hp]; rfl
  refine ⟨hp, hq, ?_⟩
  unfold skipHeader; rw [hq]

/-- C10. The documented fields of such a header. -/
theorem C10_fields (mid : FixedBytes 20) (t : UInt8) :
    (Header.pyIpv8Header mid t).size = 23 ∧ (Header.pyIpv8Header mid t).midHash = some mid.1 ∧
    (Header.pyIpv8Header mid t).messageType = some t.toUInt64 := ⟨rfl, rfl, rfl⟩

example : Packet.new (Header.pyIpv8Header (FixedBytes.replicate 20 7) 246) =
    .ok ⟨[0, 2, 7, 7, 7, 7, 7, 7, 7, 7, 7, 7, 7, 7, 7, 7, 7, 7, 7, 7, 7, 7, 246]⟩ := by decide

/-! ## C11 -/

/-- C11. Peeking at a header in arbitrary bytes: `Ok` exactly when at least 23 bytes are left and they
start with `0, 2`, and then bytes 2..22 are the mid and byte 22 the type; otherwise `Err`. -/
theorem C11_peek (s : Bytes) (i : Nat) (hi : i ≤ s.length) :
    let r := s.drop i
    (23 ≤ r.length ∧ r.take 2 = [0, 2] →
      ∃ t, r[22]? = some t ∧ peekHeader ⟨⟨s⟩, i⟩ =
        .ok ⟨23, .PyIPV8Header, some ((r.drop 2).take 20), some t.toUInt64⟩) ∧
    (¬ (23 ≤ r.length ∧ r.take 2 = [0, 2]) → (peekHeader ⟨⟨s⟩, i⟩).isErr = true) := by
  intro r
  constructor
  · rintro ⟨hl, h2⟩
    have hlt : 22 < r.length := by omega
    refine ⟨r[22], by simp [hlt], ?_⟩
    rw [peekHeader_of_de hi]
    have : (Deserialize.de .big : De Header) r =
        .ok (⟨23, .PyIPV8Header, some ((r.drop 2).take 20), some (r[22]).toUInt64⟩, r.drop 23) := by
      rw [Header.de_eq_ok]
      refine ⟨(r.drop 2).take 20, r[22], by simp; omega, rfl, ?_⟩
      have h3 : r = r.take 2 ++ ((r.drop 2).take 20 ++ (r.drop 2).drop 20) := by
        rw [List.take_append_drop, List.take_append_drop]
      have h4 : (r.drop 2).drop 20 = r[22] :: r.drop 23 := by
        rw [List.drop_drop]
        exact List.drop_eq_getElem_cons hlt
      rw [h4, h2] at h3
      exact h3
    simp only [r] at this
    simp only [this, r]
  · intro hn
    apply Outcome.isErr_of_ne
    · rw [peekHeader_of_de hi]
      have := Header.de_ne_panic .big r
      simp only
      cases hx : (Deserialize.de .big : De Header) (s.drop i) <;> simp_all [r]
    · intro a ha
      rw [peekHeader_of_de hi] at ha
      simp only at ha
      cases hx : (Deserialize.de .big : De Header) (s.drop i) with
      | ok y =>
        obtain ⟨v, r'⟩ := y
        rw [Header.de_eq_ok] at hx
        obtain ⟨mid, t, hm, _, hr⟩ := hx
        apply hn
        constructor
        · simp only [r, hr, List.length_cons, List.length_append, hm]; omega
        · simp [r, hr]
      | err e => simp [hx] at ha
      | panic => simp [hx] at ha

/-- C11. Every header that can be read has a 20-byte mid, a type below 256 and size 23. -/
theorem C11_shape (d : PacketDeserializer) (h : Header) (hp : d.peekHeader = .ok h) :
    h.size = 23 ∧ (∃ mid, h.midHash = some mid ∧ mid.length = 20) ∧
      ∃ t, h.messageType = some t ∧ t.toNat < 256 := by
  have hi : d.index ≤ d.pntr.bytes.length := by
    unfold peekHeader sliceFrom at hp
    by_cases hx : d.index ≤ d.pntr.bytes.length
    · exact hx
    · simp [hx] at hp
  rw [peekHeader_of_de hi] at hp
  cases hx : (Deserialize.de .big : De Header) (d.pntr.bytes.drop d.index) with
  | ok y =>
    obtain ⟨v, r'⟩ := y
    rw [hx] at hp
    simp only [Outcome.ok.injEq] at hp
    subst hp
    rw [Header.de_eq_ok] at hx
    obtain ⟨mid, t, hm, rfl, _⟩ := hx
    exact ⟨rfl, ⟨mid, rfl, hm⟩, t.toUInt64, rfl, by simpa using t.toNat_lt⟩
  | err e => simp [hx] at hp
  | panic => simp [hx] at hp

/-- C11. Popping is peeking plus moving 23 bytes, and on `Err` nothing moves. -/
theorem C11_pop (d : PacketDeserializer) :
    (d.popHeader).1 = d.peekHeader ∧
    (∀ h, d.peekHeader = .ok h → (d.popHeader).2 = { d with index := d.index + 23 }) ∧
    (∀ e, d.peekHeader = .err e → (d.popHeader).2 = d) := by
  refine ⟨?_, ?_, ?_⟩
  · unfold popHeader; cases d.peekHeader <;> rfl
  · intro h hp
    have := (C11_shape d h hp).1
    unfold popHeader; rw [hp]; simp [this]
  · intro e hp
    unfold popHeader; rw [hp]

-- both sides of C11 occur: an accepted buffer of 24 bytes, a wrong version, a short buffer
example : 23 ≤ ([0, 2] ++ List.replicate 22 (5 : UInt8)).length ∧
    ([0, 2] ++ List.replicate 22 (5 : UInt8)).take 2 = [0, 2] := by decide
example : (peekHeader ⟨⟨[0, 1] ++ List.replicate 22 5⟩, 0⟩).isErr = true := by decide
example : (peekHeader ⟨⟨[0, 2] ++ List.replicate 20 5⟩, 0⟩).isErr = true := by decide

/-! ## C12 -/

/-- C12 is false of the code: `Packet::new` accepts headers that read back differently. Witnesses: a
mid of 21 bytes (read back with a 20-byte mid and the last mid byte as type), a type of 256 (read back
as 0), a size other than 23. -/
theorem C12_false :
    (∃ h p, Packet.new h = .ok p ∧ p.startDeserialize.peekHeader ≠ .ok h) ∧
    (∃ p, Packet.new (Header.ofMid (List.replicate 21 9) 4) = .ok p ∧
      p.startDeserialize.peekHeader = .ok (Header.ofMid (List.replicate 20 9) 9)) ∧
    (∃ p, Packet.new ⟨23, .PyIPV8Header, some (List.replicate 20 9), some 256⟩ = .ok p ∧
      p.startDeserialize.peekHeader = .ok (Header.ofMid (List.replicate 20 9) 0)) := by
  refine ⟨⟨Header.ofMid (List.replicate 21 9) 4, ⟨Spec.header (List.replicate 21 9) 4⟩, ?_, ?_⟩,
    ⟨⟨Spec.header (List.replicate 21 9) 4⟩, ?_, ?_⟩,
    ⟨⟨Spec.header (List.replicate 20 9) 0⟩, ?_, ?_⟩⟩ <;> decide

/-- C12, what holds: a header accepted by `Packet::new` reads back unchanged exactly when its mid has 20
bytes, its type is below 256 and its size is 23.  Missing from C12: all other headers, for which
`Packet::new` should fail and does not. -/
theorem C12_partial (h : Header) (p : Packet) (hn : Packet.new h = .ok p) :
    p.startDeserialize.peekHeader = .ok h ↔
      h.size = 23 ∧ (∃ mid, h.midHash = some mid ∧ mid.length = 20) ∧
        ∃ t, h.messageType = some t ∧ t.toNat < 256 := by
  constructor
  · exact C11_shape _ h
  · rintro ⟨hs, ⟨mid, hm, hl⟩, t, ht, hlt⟩
    rcases h with ⟨size, ⟨⟩, midHash, messageType⟩
    simp only at hs hm ht
    subst hs hm ht
    have ht' : t.toUInt8.toUInt64 = t := by
      apply UInt64.toNat_inj.mp
      simp; omega
    have h1 : (⟨23, .PyIPV8Header, some mid, some t⟩ : Header) =
        Header.pyIpv8Header ⟨mid, hl⟩ t.toUInt8 := by
      simp [Header.pyIpv8Header, Header.ofMid, ht', PY_IPV8_HEADER_SIZE]
    rw [h1] at hn ⊢
    rw [C10_wire] at hn
    cases hn
    have := (C10_read ⟨mid, hl⟩ t.toUInt8 [] []).1
    simpa [Packet.startDeserialize] using this

example : ∃ p, Packet.new (Header.pyIpv8Header (FixedBytes.replicate 20 3) 255) = .ok p :=
  ⟨_, C10_wire _ _⟩

/-! ## C13 -/

/-- C13. `Packet::new` succeeds exactly when mid and type are present; the bytes are `0, 2`, the mid as
given (whatever its length) and the type modulo 256. -/
theorem C13 (h : Header) :
    (∀ mid t, h.midHash = some mid → h.messageType = some t →
      Packet.new h = .ok ⟨[0, 2] ++ mid ++ [UInt8.ofNat (t.toNat % 256)]⟩) ∧
    (h.midHash = none ∨ h.messageType = none → Packet.new h = .err .header) := by
  constructor
  · intro mid t hm ht
    unfold Packet.new
    rw [Header.serialize_eq, hm, ht]
    have : t.toUInt8 = UInt8.ofNat (t.toNat % 256) := by
      apply UInt8.toNat_inj.mp; simp
    simp [this]
  · intro h'
    unfold Packet.new
    rw [Header.serialize_eq]
    cases hm : h.midHash <;> cases ht : h.messageType <;> simp_all

example : Packet.new ⟨23, .PyIPV8Header, some [1, 2], some 511⟩ = .ok ⟨[0, 2, 1, 2, 255]⟩ := by decide
example : Packet.new ⟨23, .PyIPV8Header, none, some 5⟩ = .err .header := by decide

/-! ## Cases for the theorems above -/

/-- `C11_shape`, `C12_partial`: the header of a received message. -/
example := C11_shape ⟨⟨Spec.header (List.replicate 20 7) 246 ++ [1, 2]⟩, 0⟩ (Header.ofMid (List.replicate 20 7) 246)
  (by decide)
example := C12_partial (Header.ofMid (List.replicate 20 7) 246) ⟨Spec.header (List.replicate 20 7) 246⟩ (by decide)

/-- `C11_peek`: a header after one byte. -/
example := C11_peek ([9, 0, 2] ++ List.replicate 20 7 ++ [246]) 1 (by decide)

/-- `C13`: a header without a message type. -/
example : Packet.new ⟨23, .PyIPV8Header, some (List.replicate 20 7), none⟩ = .err .header := (C13 _).2 (.inr rfl)

end Ipv8
