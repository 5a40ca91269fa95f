import Verif.Props.Packet
/-!
# Properties C30 – C38: signatures and keys

`R : Ring` is the signature library.  Theorems that need it to be a working signature scheme assume
`R.Correct`; `toyRing` shows that this can be satisfied.
-/

namespace Ipv8
open Spec PacketDeserializer

/-! ## A signature scheme that satisfies `Ring.Correct` -/

/-- First `n` bytes of a message padded with zeros: a stand-in for a hash. -/
def toyDigest (n : Nat) (m : Bytes) : Bytes := (m ++ List.replicate n 0).take n

/-- A (worthless, but correct) signature scheme, used only to show that hypotheses are satisfiable. -/
def toyRing : Ring where
  Key := FixedBytes 32
  generatePkcs8 := fun n => if n = 0 then none else some (List.replicate 32 (UInt8.ofNat n))
  fromPkcs8 := toFixed 32
  fromSeedAndPublicKey := fun s p => if s = p then toFixed 32 p else none
  fromSeedUnchecked := toFixed 32
  publicKey := fun k => k.1
  sign := fun k m => k.1 ++ toyDigest 32 m
  verify := fun pk m s => s = pk ++ toyDigest 32 m
  sha1 := toyDigest 20

theorem toyDigest_length (n : Nat) (m : Bytes) : (toyDigest n m).length = n := by
  simp [toyDigest]

theorem toyRing_correct : toyRing.Correct where
  publicKey_length k := k.2
  sign_length k m := by
    have := k.2
    simp only [toyRing, List.length_append, toyDigest_length]
    omega
  verify_sign k m := by simp [toyRing]
  seed_public s p k h := by
    simp only [toyRing, toFixed] at h
    split at h
    · split at h
      · cases h; rfl
      · simp at h
    · simp at h
  sha1_length m := toyDigest_length _ _

/-! ## C30: signing -/

/-- C30. Signing appends exactly 64 bytes, the signature of everything before. -/
theorem C30 (R : Ring) (hR : R.Correct) (kp : KeyPair R) (p : Packet) :
    p.sign kp = .ok ⟨p.bytes ++ R.sign kp.key p.bytes⟩ ∧ (R.sign kp.key p.bytes).length = 64 := by
  have h := hR.sign_length kp.key p.bytes
  refine ⟨?_, h⟩
  simp [Packet.sign, signPacket, Ipv8.sign, Packet.raw, toFixed, h, Outcome.ofOption, Packet.add,
    Bincode.serialize, Serialize.ser]

/-- C30. Signing never panics, and fails only when the library returns something that is not 64 bytes. -/
theorem C30_total (R : Ring) (kp : KeyPair R) (p : Packet) :
    ((R.sign kp.key p.bytes).length = 64 → p.sign kp = .ok ⟨p.bytes ++ R.sign kp.key p.bytes⟩) ∧
    ((R.sign kp.key p.bytes).length ≠ 64 → p.sign kp = .err .signing) := by
  constructor <;> intro h <;>
  simp [Packet.sign, signPacket, Ipv8.sign, Packet.raw, toFixed, h, Outcome.ofOption, Packet.add,
    Bincode.serialize, Serialize.ser]

example : (Packet.mk [1, 2]).sign (R := toyRing) ⟨FixedBytes.replicate 32 9⟩ =
    .ok ⟨[1, 2] ++ List.replicate 32 9 ++ [1, 2] ++ List.replicate 30 0⟩ := by decide

/-! ## C31: a signed packet verifies -/

theorem verifyWith_append (R : Ring) (m sig : Bytes) (i : Nat) (pk : Ed25519PublicKey)
    (h : sig.length = 64) :
    verifyWith R ⟨⟨m ++ sig⟩, i⟩ pk = (.ok (R.verify pk.1 m sig), ⟨⟨m⟩, i⟩) := by
  have hn : m.length + 64 - 64 = m.length := by omega
  have hlt : ¬ m.length + 64 < 64 := by omega
  simp [verifyWith, ED25519_SIGNATURE_BYTES, PacketDeserializer.len, Packet.len, h, hn, verifyRaw,
    Ipv8.verify]

/-- C31. A packet signed with a key pair verifies with the public key of that key pair, and what is
left to read is the packet as it was before signing, with the cursor untouched. -/
theorem C31 (R : Ring) (hR : R.Correct) (kp : KeyPair R) (pk : Ed25519PublicKey)
    (hpk : kp.publicKey = .ok pk) (p q : Packet) (hq : p.sign kp = .ok q) (i : Nat) :
    verifyWith R ⟨q, i⟩ pk = (.ok true, ⟨p, i⟩) := by
  obtain ⟨h1, h2⟩ := C30 R hR kp p
  rw [h1] at hq
  cases hq
  have hk : pk.1 = R.publicKey kp.key := by
    unfold KeyPair.publicKey toFixed at hpk
    rw [dif_pos (hR.publicKey_length kp.key)] at hpk
    simp only [Outcome.ofOption, Outcome.ok.injEq] at hpk
    rw [← hpk]
  rw [verifyWith_append R p.bytes _ i pk h2, hk, hR.verify_sign]

example : ∃ kp : KeyPair toyRing, ∃ pk, kp.publicKey = .ok pk ∧
    ((Packet.mk [1, 2]).sign kp).isOk = true :=
  ⟨⟨FixedBytes.replicate 32 9⟩, FixedBytes.replicate 32 9, by decide, by decide⟩

/-! ## C69: detached signatures -/

/-- C69. A detached signature of a packet is 64 bytes and verifies, as a packet and as raw bytes, under
the public key of the key pair. -/
theorem C69 (R : Ring) (hR : R.Correct) (kp : KeyPair R) (pk : Ed25519PublicKey)
    (hpk : kp.publicKey = .ok pk) (p : Packet) :
    ∃ sig : Signature, signPacket kp p = .ok sig ∧ sign kp p.bytes = .ok sig ∧
      p.sign kp = .ok ⟨p.bytes ++ sig.bytes.1⟩ ∧
      verifyPacket R pk p sig = true ∧ verifyRaw R pk p.bytes sig.bytes.1 = true := by
  have hl := hR.sign_length kp.key p.bytes
  have hk : pk.1 = R.publicKey kp.key := by
    unfold KeyPair.publicKey toFixed at hpk
    rw [dif_pos (hR.publicKey_length kp.key)] at hpk
    simp only [Outcome.ofOption, Outcome.ok.injEq] at hpk
    rw [← hpk]
  have hv := hR.verify_sign kp.key p.bytes
  rw [← hk] at hv
  have hs : sign kp p.bytes = .ok ⟨⟨R.sign kp.key p.bytes, hl⟩⟩ := by
    simp [Ipv8.sign, toFixed, hl, Outcome.ofOption]
  exact ⟨⟨⟨R.sign kp.key p.bytes, hl⟩⟩, hs, hs, (C30 R hR kp p).1, hv, hv⟩

/-- C69. For every key, packet and signature, right or wrong: checking the detached signature gives the
same answer as adding it to the packet and verifying that, and the same answer as checking the raw
bytes. -/
theorem C69_agrees (R : Ring) (pk : Ed25519PublicKey) (p : Packet) (sig : Signature) :
    ∃ q : Packet, p.add sig = (.ok (), q) ∧
      q.startDeserialize.verifyWith R pk = (.ok (verifyPacket R pk p sig), p.startDeserialize) ∧
      verifyPacket R pk p sig = R.verify pk.1 p.bytes sig.bytes.1 ∧
      verifyRaw R pk p.bytes sig.bytes.1 = R.verify pk.1 p.bytes sig.bytes.1 := by
  refine ⟨⟨p.bytes ++ sig.bytes.1⟩, ?_, ?_, rfl, rfl⟩
  · simp [Packet.add, Bincode.serialize, Serialize.ser]
  · exact verifyWith_append R p.bytes sig.bytes.1 0 pk sig.bytes.2

example : let kp : KeyPair toyRing := ⟨FixedBytes.replicate 32 9⟩
    ∃ sig, signPacket kp ⟨[1, 2]⟩ = .ok sig ∧
      verifyPacket toyRing (FixedBytes.replicate 32 9) ⟨[1, 2]⟩ sig = true ∧
      verifyPacket toyRing (FixedBytes.replicate 32 9) ⟨[1, 3]⟩ sig = false ∧
      verifyPacket toyRing (FixedBytes.replicate 32 8) ⟨[1, 2]⟩ sig = false :=
  ⟨⟨⟨List.replicate 32 9 ++ [1, 2] ++ List.replicate 30 0, by decide⟩⟩, by decide, by decide, by decide,
    by decide⟩

/-! ## C32: authenticated messages -/

theorem readAll_cons {d d' : PacketDeserializer} {k : Kind} {ks : List Kind} {v : k.Ty}
    {vs : List AnyPayload} {d'' : PacketDeserializer}
    (h : readAll d (k :: ks) = .ok (⟨k, v⟩ :: vs, d'')) (hn : d.nextPayload k.Ty = (.ok v, d')) :
    readAll d' ks = .ok (vs, d'') := by
  simp only [readAll, hn] at h
  cases hr : readAll d' ks with
  | err e => simp [hr] at h
  | panic => simp [hr] at h
  | ok x =>
    obtain ⟨us, d3⟩ := x
    simp only [hr, Outcome.ok.injEq, Prod.mk.injEq, List.cons.injEq, true_and] at h
    rw [h.1, h.2]

theorem auth_after_header (mid : FixedBytes 20) (t : UInt8) (a : BinMemberAuthenticationPayload)
    (vs : List AnyPayload) (q : Packet)
    (hq : addAll ⟨Spec.header mid.1 t⟩ (⟨.auth, a⟩ :: vs) = .ok q) (post : Bytes)
    (hl : (q.bytes ++ post).length ≤ usizeMax) :
    nextPayload BinMemberAuthenticationPayload ⟨⟨q.bytes ++ post⟩, 23⟩ =
      (.ok a, ⟨⟨q.bytes ++ post⟩, 99⟩) := by
  obtain ⟨m, hm, hq'⟩ := addAll_append (vs := [⟨.auth, a⟩]).mp hq
  have hadd : addAll ⟨Spec.header mid.1 t⟩ [⟨.auth, a⟩] =
      .ok ⟨Spec.header mid.1 t ++ authentication a⟩ := by
    have := C14_wire a ⟨Spec.header mid.1 t⟩
    have h2 : Packet.add (α := Kind.Ty .auth) ⟨Spec.header mid.1 t⟩ a =
      (.ok (), ⟨Spec.header mid.1 t ++ authentication a⟩) := this
    simp only [addAll, h2]
  rw [hadd] at hm
  cases hm
  obtain ⟨w, hw⟩ := addAll_prefix hq'
  simp only at hw
  have := C14_read a (Spec.header mid.1 t) (w ++ post) (by rw [hw] at hl; simpa using hl)
  rw [C10_length, C14_length] at this
  rw [hw]
  simpa using this

/-- C32. A message made of a header, the sender's authentication payload, self-delimiting payloads and a
signature: its header pops, it verifies, and then exactly the payloads can be read. -/
theorem C32 (R : Ring) (hR : R.Correct) (kp : KeyPair R) (pk : Ed25519PublicKey)
    (hpk : kp.publicKey = .ok pk) (mid : FixedBytes 20) (t : UInt8) (enc : FixedBytes 32)
    (vs : List AnyPayload) (hsd : ∀ x ∈ vs, x.1.SelfDelimiting) (hf : ∀ x ∈ vs, x.1.Fits x.2)
    (p q s : Packet) (hp : Packet.new (Header.pyIpv8Header mid t) = .ok p)
    (hq : addAll p (⟨.auth, BinMemberAuthenticationPayload.mk pk enc⟩ :: vs) = .ok q)
    (hs : q.sign kp = .ok s) (hl : s.bytes.length ≤ usizeMax) :
    ∃ d d', s.startDeserialize.popHeader = (.ok (Header.pyIpv8Header mid t), d) ∧
      d.verify R = (.ok true, d') ∧
      readAll d' (vs.map (·.1)) = .ok (vs, ⟨q, q.bytes.length⟩) := by
  have hsig := C30 R hR kp q
  have hs' := hs
  rw [hsig.1] at hs
  cases hs
  simp only [List.length_append] at hl
  obtain ⟨d, h1, h2⟩ := C24 mid t _ (by simpa [Kind.SelfDelimiting] using hsd)
    (by simpa [Kind.Fits] using hf) p q hp hq (by omega)
  rw [C10_wire] at hp
  cases hp
  obtain ⟨w, hw⟩ := addAll_prefix hq
  have hn := auth_after_header mid t _ vs q hq (R.sign kp.key q.bytes) (by simp; omega)
  have hn0 := auth_after_header mid t _ vs q hq [] (by simp; omega)
  have hpop := (C10_read mid t [] w).2.1
  have hpops := (C10_read mid t [] (w ++ R.sign kp.key q.bytes)).2.1
  simp only [List.nil_append, List.length_nil, Nat.zero_add, ← List.append_assoc, ← hw] at hpop hpops
  have hd : d = ⟨q, 23⟩ := by
    have : q.startDeserialize.popHeader = (.ok (Header.pyIpv8Header mid t), ⟨q, 23⟩) := hpop
    rw [h1] at this
    exact (Prod.mk.inj this).2
  subst hd
  refine ⟨⟨⟨q.bytes ++ R.sign kp.key q.bytes⟩, 23⟩, ⟨q, 99⟩, hpops, ?_, ?_⟩
  · unfold PacketDeserializer.verify
    rw [hn]
    exact C31 R hR kp pk hpk q _ hs' 99
  · rw [List.append_nil] at hn0
    exact readAll_cons h2 hn0

/-- C32. The same with a last payload that extends to the end of the packet: it does not contain the
signature. -/
theorem C32_last (R : Ring) (hR : R.Correct) (kp : KeyPair R) (pk : Ed25519PublicKey)
    (hpk : kp.publicKey = .ok pk) (mid : FixedBytes 20) (t : UInt8) (enc : FixedBytes 32)
    (vs : List AnyPayload) (last : AnyPayload)
    (hsd : ∀ x ∈ vs, x.1.SelfDelimiting) (hf : ∀ x ∈ vs, x.1.Fits x.2)
    (hlast : last.1.CanBeLast last.2) (hfl : last.1.Fits last.2)
    (p q s : Packet) (hp : Packet.new (Header.pyIpv8Header mid t) = .ok p)
    (hq : addAll p (⟨.auth, BinMemberAuthenticationPayload.mk pk enc⟩ :: (vs ++ [last])) = .ok q)
    (hs : q.sign kp = .ok s) (hl : s.bytes.length ≤ usizeMax) :
    ∃ d d', s.startDeserialize.popHeader = (.ok (Header.pyIpv8Header mid t), d) ∧
      d.verify R = (.ok true, d') ∧
      readAll d' ((vs ++ [last]).map (·.1)) = .ok (vs ++ [last], ⟨q, q.bytes.length⟩) := by
  have hsig := C30 R hR kp q
  have hs' := hs
  rw [hsig.1] at hs
  cases hs
  simp only [List.length_append] at hl
  obtain ⟨d, h1, h2⟩ := C24_last mid t (⟨.auth, BinMemberAuthenticationPayload.mk pk enc⟩ :: vs) last
    (by simpa [Kind.SelfDelimiting] using hsd)
    (by simpa [Kind.Fits] using hf) hlast hfl p q hp hq (by omega)
  rw [C10_wire] at hp
  cases hp
  obtain ⟨w, hw⟩ := addAll_prefix hq
  have hn := auth_after_header mid t _ _ q hq (R.sign kp.key q.bytes) (by simp; omega)
  have hn0 := auth_after_header mid t _ _ q hq [] (by simp; omega)
  have hpop := (C10_read mid t [] w).2.1
  have hpops := (C10_read mid t [] (w ++ R.sign kp.key q.bytes)).2.1
  simp only [List.nil_append, List.length_nil, Nat.zero_add, ← List.append_assoc, ← hw] at hpop hpops
  have hd : d = ⟨q, 23⟩ := by
    have : q.startDeserialize.popHeader = (.ok (Header.pyIpv8Header mid t), ⟨q, 23⟩) := hpop
    rw [h1] at this
    exact (Prod.mk.inj this).2
  subst hd
  refine ⟨⟨⟨q.bytes ++ R.sign kp.key q.bytes⟩, 23⟩, ⟨q, 99⟩, hpops, ?_, ?_⟩
  · unfold PacketDeserializer.verify
    rw [hn]
    exact C31 R hR kp pk hpk q _ hs' 99
  · rw [List.append_nil] at hn0
    exact readAll_cons h2 hn0

example : ∃ q s : Packet, addAll ⟨Spec.header (List.replicate 20 7) 246⟩
      (⟨.auth, BinMemberAuthenticationPayload.mk (FixedBytes.replicate 32 9)
        (FixedBytes.replicate 32 2)⟩ :: ([⟨.time, TimeDistributionPayload.mk 3⟩] ++
          [⟨.introRequest, exampleRequest⟩])) = .ok q ∧
    q.sign (R := toyRing) ⟨FixedBytes.replicate 32 9⟩ = .ok s ∧ s.bytes.length = 195 := by
  refine ⟨_, _, rfl, rfl, by decide +kernel⟩

/-! ## C33: verification is sound -/

/-- The packet ends in a valid signature of all that precedes. -/
def EndsInSignature (R : Ring) (pk : Ed25519PublicKey) (packet : Bytes) : Prop :=
  ∃ m sig, packet = m ++ sig ∧ sig.length = 64 ∧ R.verify pk.1 m sig = true

theorem verifyWith_split (R : Ring) (d : PacketDeserializer) (pk : Ed25519PublicKey)
    (h : 64 ≤ d.pntr.bytes.length) :
    ∃ m sig, d.pntr.bytes = m ++ sig ∧ sig.length = 64 ∧
      verifyWith R d pk = (.ok (R.verify pk.1 m sig), ⟨⟨m⟩, d.index⟩) := by
  refine ⟨d.pntr.bytes.take (d.pntr.bytes.length - 64), d.pntr.bytes.drop (d.pntr.bytes.length - 64),
    (List.take_append_drop _ _).symm, by rw [List.length_drop]; omega, ?_⟩
  have hlt : ¬ d.pntr.bytes.length < 64 := by omega
  simp [verifyWith, ED25519_SIGNATURE_BYTES, PacketDeserializer.len, Packet.len, hlt, verifyRaw,
    Ipv8.verify]

/-- C33. `verify_with` answers true exactly when the packet ends in a valid signature, under the given
key, of all bytes before it. -/
theorem C33 (R : Ring) (d : PacketDeserializer) (pk : Ed25519PublicKey) :
    (d.verifyWith R pk).1 = .ok true ↔ EndsInSignature R pk d.pntr.bytes := by
  constructor
  · intro h
    by_cases hl : 64 ≤ d.pntr.bytes.length
    · obtain ⟨m, sig, h1, h2, h3⟩ := verifyWith_split R d pk hl
      rw [h3] at h
      simp only [Outcome.ok.injEq] at h
      exact ⟨m, sig, h1, h2, h⟩
    · have hlt : d.pntr.bytes.length < 64 := by omega
      simp [verifyWith, ED25519_SIGNATURE_BYTES, PacketDeserializer.len, Packet.len, hlt] at h
  · rintro ⟨m, sig, h1, h2, h3⟩
    have := verifyWith_append R m sig d.index pk h2
    have hd : d = ⟨⟨m ++ sig⟩, d.index⟩ := by
      rw [← h1]
    rw [hd, this, h3]

/-- C33. `verify` answers true exactly when an authentication payload is read at the cursor and the
packet ends in a valid signature under the public key in that payload. -/
theorem C33_verify (R : Ring) (d : PacketDeserializer) :
    (d.verify R).1 = .ok true ↔
      ∃ a d', d.nextPayload BinMemberAuthenticationPayload = (.ok a, d') ∧
        EndsInSignature R a.publicKeyBin d.pntr.bytes := by
  have hp := (C27_next (α := BinMemberAuthenticationPayload) d).2.1
  unfold PacketDeserializer.verify
  rcases hn : d.nextPayload BinMemberAuthenticationPayload with ⟨o, d'⟩
  rw [hn] at hp
  simp only at hp
  cases o with
  | ok a =>
    simp only [C33, hp]
    constructor
    · intro h; exact ⟨a, d', rfl, h⟩
    · rintro ⟨a', d'', h1, h2⟩
      simp only [Prod.mk.injEq, Outcome.ok.injEq] at h1
      rw [h1.1]; exact h2
  | err e => simp
  | panic => simp

/-- C33. If the packet is not a forgery under `pk` (should it end in a valid signature of something, then
of something in `Signed`), an accepted packet is a message in `Signed` and a signature, and the message is
what is left after `verify_with`. -/
theorem C33_unforgeable (R : Ring) (pk : Ed25519PublicKey) (Signed : Bytes → Prop)
    (d d' : PacketDeserializer)
    (hunf : ∀ m sig, d.pntr.bytes = m ++ sig → sig.length = 64 → R.verify pk.1 m sig = true → Signed m)
    (h : d.verifyWith R pk = (.ok true, d')) : Signed d'.pntr.bytes := by
  have h1 : (d.verifyWith R pk).1 = .ok true := by rw [h]
  have hl : 64 ≤ d.pntr.bytes.length := by
    obtain ⟨m, sig, e, e2, _⟩ := (C33 R d pk).mp h1
    rw [e, List.length_append]; omega
  obtain ⟨m, sig, e1, e2, e3⟩ := verifyWith_split R d pk hl
  rw [h] at e3
  simp only [Prod.mk.injEq, Outcome.ok.injEq] at e3
  rw [e3.2]
  exact hunf m sig e1 e2 e3.1.symm

example : EndsInSignature toyRing (FixedBytes.replicate 32 9)
    ([1, 2] ++ (List.replicate 32 9 ++ [1, 2] ++ List.replicate 30 0)) :=
  ⟨[1, 2], _, rfl, by decide, by decide⟩

/-! ## C34: what `verify_with` strips -/

/-- C34. `verify_with` panics exactly when fewer than 64 bytes are there, otherwise it returns a
boolean, removes the last 64 bytes and leaves the cursor alone, valid signature or not. -/
theorem C34 (R : Ring) (d : PacketDeserializer) (pk : Ed25519PublicKey) :
    ((d.verifyWith R pk).1 = .panic ↔ d.pntr.bytes.length < 64) ∧
    (64 ≤ d.pntr.bytes.length → ∃ b, d.verifyWith R pk =
      (.ok b, ⟨⟨d.pntr.bytes.take (d.pntr.bytes.length - 64)⟩, d.index⟩)) := by
  by_cases hl : 64 ≤ d.pntr.bytes.length
  · obtain ⟨m, sig, h1, h2, h3⟩ := verifyWith_split R d pk hl
    rw [h3]
    refine ⟨by simp; omega, fun _ => ⟨R.verify pk.1 m sig, ?_⟩⟩
    rw [h1, List.length_append, h2, Nat.add_sub_cancel, List.take_append_of_le_length (Nat.le_refl _),
      List.take_of_length_le (Nat.le_refl _)]
  · have hlt : d.pntr.bytes.length < 64 := by omega
    simp [verifyWith, ED25519_SIGNATURE_BYTES, PacketDeserializer.len, Packet.len, hlt, hl]

/-- C34. Any number of calls, with any keys: `n` calls remove `64 * n` bytes, and panic if that is more
than there is. -/
theorem C34_repeated (R : Ring) (keys : List Ed25519PublicKey) (d : PacketDeserializer) :
    (64 * keys.length ≤ d.pntr.bytes.length →
      runCalls R (keys.map .verifyWith) d =
        .ok (some ⟨⟨d.pntr.bytes.take (d.pntr.bytes.length - 64 * keys.length)⟩, d.index⟩)) ∧
    (d.pntr.bytes.length < 64 * keys.length → runCalls R (keys.map .verifyWith) d = .panic) := by
  induction keys generalizing d with
  | nil =>
    refine ⟨fun _ => ?_, fun h => by simp at h⟩
    simp only [List.map_nil, runCalls, List.length_nil, Nat.mul_zero, Nat.sub_zero,
      List.take_of_length_le (Nat.le_refl _)]
  | cons k ks ih =>
    simp only [List.map_cons, runCalls, List.length_cons]
    by_cases hl : 64 ≤ d.pntr.bytes.length
    · obtain ⟨b, hb⟩ := (C34 R d k).2 hl
      have hrun : (ReadCall.verifyWith k).run R d = .ok (some
          ⟨⟨d.pntr.bytes.take (d.pntr.bytes.length - 64)⟩, d.index⟩) := by
        simp only [ReadCall.run, hb, ReadCall.run.keep]
      rw [hrun]
      simp only
      have := ih ⟨⟨d.pntr.bytes.take (d.pntr.bytes.length - 64)⟩, d.index⟩
      simp only [List.length_take, List.take_take] at this
      have e1 : min (d.pntr.bytes.length - 64) d.pntr.bytes.length = d.pntr.bytes.length - 64 := by
        omega
      rw [e1] at this
      constructor
      · intro h
        rw [this.1 (by omega)]
        have : min (d.pntr.bytes.length - 64 - 64 * ks.length) (d.pntr.bytes.length - 64) =
          d.pntr.bytes.length - 64 * (ks.length + 1) := by omega
        rw [this]
      · intro h
        exact this.2 (by omega)
    · have hp : (d.verifyWith R k).1 = .panic := (C34 R d k).1.mpr (by omega)
      have hrun : (ReadCall.verifyWith k).run R d = .panic := by
        simp only [ReadCall.run, hp, ReadCall.run.keep]
      rw [hrun]
      exact ⟨fun h => by omega, fun _ => rfl⟩

example : (verifyWith toyRing ⟨⟨List.replicate 63 0⟩, 0⟩ (FixedBytes.replicate 32 9)).1 = .panic ∧
    (verifyWith toyRing ⟨⟨List.replicate 65 0⟩, 0⟩ (FixedBytes.replicate 32 9)).2 =
      ⟨⟨[0]⟩, 0⟩ := by decide +kernel

/-! ## C35: verify, then read -/

/-- A received packet of 99 bytes: a header and an authentication payload, no signature. -/
def unsignedPacket : Bytes :=
  Spec.header (List.replicate 20 7) 246 ++
    authentication ⟨FixedBytes.replicate 32 1, FixedBytes.replicate 32 2⟩

/-- C35 is false: on this packet the header pops, `verify` returns, and any payload read panics. -/
theorem C35_false (R : Ring) (k : Kind) :
    ∃ h d b d', (Packet.startDeserialize ⟨unsignedPacket⟩).popHeader = (.ok h, d) ∧
      d.verify R = (.ok b, d') ∧ (d'.nextPayload k.Ty).1 = .panic ∧ d'.peekHeader = .panic := by
  have hpop : (Packet.startDeserialize ⟨unsignedPacket⟩).popHeader =
      (.ok (Header.pyIpv8Header (FixedBytes.replicate 20 7) 246), ⟨⟨unsignedPacket⟩, 23⟩) := by
    decide +kernel
  have hn : nextPayload BinMemberAuthenticationPayload ⟨⟨unsignedPacket⟩, 23⟩ =
      (.ok ⟨FixedBytes.replicate 32 1, FixedBytes.replicate 32 2⟩, ⟨⟨unsignedPacket⟩, 99⟩) := by
    decide +kernel
  have hl : unsignedPacket.length = 99 := by decide +kernel
  obtain ⟨b, hb⟩ := (C34 R ⟨⟨unsignedPacket⟩, 99⟩ (FixedBytes.replicate 32 1)).2 (by simp only; omega)
  refine ⟨_, _, b, ⟨⟨unsignedPacket.take (unsignedPacket.length - 64)⟩, 99⟩, hpop, ?_, ?_, ?_⟩
  · unfold PacketDeserializer.verify
    rw [hn]
    exact hb
  · simp [nextPayload, sliceFrom, hl]
  · simp [peekHeader, sliceFrom, hl]

theorem read_outside {d : PacketDeserializer} (h : d.pntr.bytes.length < d.index) (k : Kind) :
    d.nextPayload k.Ty = (.panic, d) ∧ d.peekHeader = .panic := by
  have : ¬ d.index ≤ d.pntr.bytes.length := by omega
  simp [nextPayload, peekHeader, sliceFrom, this]

/-- C35, what holds, for a cursor inside a received packet of length `n`.
* `verify` panics exactly when reading the authentication payload panics (see `C15_partial`).
* If there is no readable authentication payload, `verify` answers false and changes nothing.
* Otherwise the cursor moves 76 bytes to `i` and 64 bytes are removed; then every read panics if
  `n < i + 64`, and if `i + 64 ≤ n` no sequence of reads (of anything but authentication payloads)
  panics.
Missing from C35: the panicking cases should be errors. -/
theorem C35_partial (R : Ring) (d : PacketDeserializer) (hi : d.index ≤ d.pntr.bytes.length)
    (hl : d.pntr.bytes.length ≤ usizeMax) :
    ((d.verify R).1 = .panic ↔ (d.nextPayload BinMemberAuthenticationPayload).1 = .panic) ∧
    ((d.nextPayload BinMemberAuthenticationPayload).1.isErr = true → d.verify R = (.ok false, d)) ∧
    ((d.nextPayload BinMemberAuthenticationPayload).1.isOk = true → ∃ b d',
      d.verify R = (.ok b, d') ∧ d'.index = d.index + 76 ∧
      d'.pntr.bytes.length = d.pntr.bytes.length - 64 ∧
      (d.pntr.bytes.length < d.index + 76 + 64 → ∀ k : Kind,
        (d'.nextPayload k.Ty).1 = .panic ∧ d'.peekHeader = .panic) ∧
      (d.index + 76 + 64 ≤ d.pntr.bytes.length → ∀ cs : List ReadCall, (∀ c ∈ cs, c.PlainRead) →
        (runCalls R cs d').isOk = true)) := by
  have hc27 := C27_next (α := BinMemberAuthenticationPayload) d
  rcases hn : d.nextPayload BinMemberAuthenticationPayload with ⟨o, d1⟩
  rw [hn] at hc27
  cases o with
  | err e =>
    have : d1 = d := hc27.1 rfl
    subst this
    simp [PacketDeserializer.verify, hn, Outcome.isErr, Outcome.isOk]
  | panic => simp [PacketDeserializer.verify, hn, Outcome.isErr, Outcome.isOk]
  | ok a =>
    obtain ⟨n, _, hn74, rfl, hin, _⟩ := C17_auth d d1 a hn
    simp only at hin
    obtain ⟨b, hb⟩ := (C34 R ⟨d.pntr, d.index + 76⟩ a.publicKeyBin).2 (by simp only; omega)
    have hv : d.verify R = (.ok b, ⟨⟨d.pntr.bytes.take (d.pntr.bytes.length - 64)⟩, d.index + 76⟩) := by
      unfold PacketDeserializer.verify
      rw [hn]
      exact hb
    refine ⟨by simp [hv], by simp [Outcome.isErr], fun _ => ⟨b, _, hv, rfl, ?_, ?_, ?_⟩⟩
    · simp only [List.length_take]; omega
    · intro h k
      have := read_outside (d := ⟨⟨d.pntr.bytes.take (d.pntr.bytes.length - 64)⟩, d.index + 76⟩)
        (by simp only [List.length_take]; omega) k
      exact ⟨by rw [this.1], this.2⟩
    · intro h cs hcs
      obtain ⟨o, h1, _⟩ := runCalls_safe R cs hcs
        ⟨⟨d.pntr.bytes.take (d.pntr.bytes.length - 64)⟩, d.index + 76⟩
        (by simp only [List.length_take]; omega) (by simp only [List.length_take]; omega)
      rw [h1]; rfl

/-- C35. In particular for the usual sequence header, `verify`, payloads on a packet of at least 163
bytes whose header and authentication payload are readable. -/
theorem C35_long_enough_partial (R : Ring) (received : Bytes) (hl : received.length ≤ usizeMax)
    (h163 : 163 ≤ received.length) (h : Header) (d : PacketDeserializer)
    (hpop : (Packet.startDeserialize ⟨received⟩).popHeader = (.ok h, d))
    (ha : (d.nextPayload BinMemberAuthenticationPayload).1.isOk = true)
    (cs : List ReadCall) (hcs : ∀ c ∈ cs, c.PlainRead) :
    ∃ b d', d.verify R = (.ok b, d') ∧ (runCalls R cs d').isOk = true := by
  have hpk := C27_header (Packet.startDeserialize ⟨received⟩)
  rw [hpop] at hpk
  have hd := (C11_pop (Packet.startDeserialize ⟨received⟩)).2.1 h hpk.2.2.symm
  rw [hpop] at hd
  simp only [Packet.startDeserialize] at hd
  subst hd
  obtain ⟨b, d', h1, _, _, _, h5⟩ := (C35_partial R ⟨⟨received⟩, 0 + 23⟩ (by simp only; omega) hl).2.2 ha
  exact ⟨b, d', h1, h5 (by simp only; omega) cs hcs⟩

/-! ## C36: adding after signing -/

/-- C36. Whatever is added after signing (at least one byte), verification looks at a split `m ++ sig`
of the extended packet in which `m` is strictly longer than the signed content. -/
theorem C36 (R : Ring) (hR : R.Correct) (kp : KeyPair R) (pk : Ed25519PublicKey) (p s q : Packet)
    (hs : p.sign kp = .ok s) {α : Type} [Ipv8Payload α] [Serialize α] (v : α) (w : Bytes)
    (hw : Writes v w) (hne : w ≠ []) (hq : s.add v = (.ok (), q)) (i : Nat) :
    ∃ m sig, q.bytes = m ++ sig ∧ sig.length = 64 ∧ p.bytes <+: m ∧ p.bytes.length < m.length ∧
      verifyWith R ⟨q, i⟩ pk = (.ok (R.verify pk.1 m sig), ⟨⟨m⟩, i⟩) := by
  obtain ⟨h1, h2⟩ := C30 R hR kp p
  rw [h1] at hs
  cases hs
  have hq' := hw ⟨p.bytes ++ R.sign kp.key p.bytes⟩
  rw [hq] at hq'
  simp only [Prod.mk.injEq, true_and] at hq'
  subst hq'
  have hwl : 0 < w.length := List.length_pos_iff.mpr hne
  obtain ⟨m, sig, e1, e2, e3⟩ := verifyWith_split R ⟨⟨p.bytes ++ R.sign kp.key p.bytes ++ w⟩, i⟩ pk
    (by simp [h2]; omega)
  simp only at e1
  have hlen := congrArg List.length e1
  simp only [List.length_append, h2, e2] at hlen
  refine ⟨m, sig, e1, e2, ?_, by omega, e3⟩
  rw [List.append_assoc] at e1
  exact List.prefix_of_prefix_length_le (List.prefix_append _ _)
    (e1 ▸ List.prefix_append m sig) (by omega)

example : Writes (VarLen16.mk [1]) [0, 1, 1] := fun _ => rfl

/-! ## C37: fixed-size views -/

/-- C37. Exactly the byte strings of the right length are accepted, unchanged. -/
theorem C37 (n : Nat) (data : Bytes) :
    (data.length = n → ∃ a : FixedBytes n, asFixedArray n data = .ok a ∧ a.1 = data) ∧
    (data.length ≠ n → (asFixedArray n data).isErr = true) := by
  constructor
  · intro h; exact ⟨⟨data, h⟩, by simp [asFixedArray, toFixed, h, Outcome.ofOption], rfl⟩
  · intro h; simp [asFixedArray, toFixed, h, Outcome.ofOption, Outcome.isErr]

/-- C37. For a target type with an alignment, also the memory address matters; never a panic, and what is
returned is always the whole input. -/
theorem C37_aligned (size align addr : Nat) (data : Bytes) :
    asFixedSize size align addr data ≠ .panic ∧
    (∀ out, asFixedSize size align addr data = .ok out ↔
      out = data ∧ data.length = size ∧ addr % align = 0) := by
  unfold asFixedSize
  split
  · rename_i h; simp [h, eq_comm]
  · rename_i h; simp; intro h1 h2; exact h ⟨h1, h2⟩

example : asFixedArray 3 [1, 2, 3] = .ok ⟨[1, 2, 3], rfl⟩ ∧ (asFixedArray 3 [1, 2]).isErr = true := by
  decide

/-! ## C38: keys -/

/-- C38. Every key pair has a public key (32 bytes by its type). -/
theorem C38_publicKey (R : Ring) (hR : R.Correct) (kp : KeyPair R) :
    ∃ pk : Ed25519PublicKey, kp.publicKey = .ok pk ∧ pk.1 = R.publicKey kp.key ∧ pk.1.length = 32 := by
  refine ⟨⟨R.publicKey kp.key, hR.publicKey_length kp.key⟩, ?_, rfl, hR.publicKey_length kp.key⟩
  simp [KeyPair.publicKey, toFixed, hR.publicKey_length kp.key, Outcome.ofOption]

/-- C38. A key pair from `from_seed_checked` has the public key that was given, and what it signs
verifies under that key. -/
theorem C38_checked (R : Ring) (hR : R.Correct) (seed : FixedBytes 32) (pk : Ed25519PublicKey)
    (kp : KeyPair R) (h : KeyPair.fromSeedChecked R seed pk = .ok kp) :
    kp.publicKey = .ok pk ∧ ∀ m, ∃ sig, sign kp m = .ok sig ∧ verifyRaw R pk m sig.bytes.1 = true := by
  have hk : R.publicKey kp.key = pk.1 := by
    unfold KeyPair.fromSeedChecked at h
    cases hs : R.fromSeedAndPublicKey seed.1 pk.1 with
    | none => simp [hs, Outcome.ofOption] at h
    | some k =>
      simp [hs, Outcome.ofOption] at h
      rw [← h]
      exact hR.seed_public _ _ _ hs
  constructor
  · obtain ⟨pk', h1, h2, _⟩ := C38_publicKey R hR kp
    rw [h1]
    rw [hk] at h2
    exact congrArg Outcome.ok (Subtype.ext h2)
  · intro m
    have hl := hR.sign_length kp.key m
    refine ⟨⟨⟨R.sign kp.key m, hl⟩⟩, by simp [sign, toFixed, hl, Outcome.ofOption], ?_⟩
    simp only [verifyRaw, Ipv8.verify, ← hk, hR.verify_sign]

/-- C38. Constructors return a key pair or an error, for every input and every state of the random
generator; they never panic. -/
theorem C38_no_panic (R : Ring) (rng : Nat) (pkcs8 : Bytes) (seed : FixedBytes 32)
    (pk : Ed25519PublicKey) (kp : KeyPair R) :
    KeyPair.new R rng ≠ .panic ∧ KeyPair.fromBytes R pkcs8 ≠ .panic ∧
    KeyPair.fromSeedChecked R seed pk ≠ .panic ∧ KeyPair.fromSeedUnchecked R seed ≠ .panic ∧
    kp.publicKey ≠ .panic := by
  have hb : ∀ b, KeyPair.fromBytes R b ≠ .panic := by
    intro b; unfold KeyPair.fromBytes; cases R.fromPkcs8 b <;> simp [Outcome.ofOption]
  refine ⟨?_, hb _, ?_, ?_, ?_⟩
  · unfold KeyPair.new
    cases R.generatePkcs8 rng with
    | none => simp [Outcome.ofOption]
    | some b => simpa [Outcome.ofOption] using hb b
  · unfold KeyPair.fromSeedChecked; cases R.fromSeedAndPublicKey seed.1 pk.1 <;> simp [Outcome.ofOption]
  · unfold KeyPair.fromSeedUnchecked; cases R.fromSeedUnchecked seed.1 <;> simp [Outcome.ofOption]
  · unfold KeyPair.publicKey; cases toFixed 32 (R.publicKey kp.key) <;> simp [Outcome.ofOption]

/-- C38. `new` succeeds exactly when generation succeeds and the generated document is accepted, and
then the key pair is the one in that document. -/
theorem C38_new (R : Ring) (rng : Nat) (kp : KeyPair R) :
    KeyPair.new R rng = .ok kp ↔ ∃ b, R.generatePkcs8 rng = some b ∧ R.fromPkcs8 b = some kp.key := by
  unfold KeyPair.new KeyPair.fromBytes
  cases R.generatePkcs8 rng with
  | none => simp [Outcome.ofOption]
  | some b =>
    simp only [Outcome.ofOption, Outcome.ok_bind, Option.some.injEq, exists_eq_left']
    cases R.fromPkcs8 b with
    | none => simp
    | some k =>
      cases kp
      simp

example : (KeyPair.fromSeedChecked toyRing (FixedBytes.replicate 32 9) (FixedBytes.replicate 32 9)).isOk =
    true ∧ (KeyPair.fromSeedChecked toyRing (FixedBytes.replicate 32 9)
      (FixedBytes.replicate 32 8)).isErr = true ∧ (KeyPair.new toyRing 0).isErr = true ∧
    (KeyPair.new toyRing 5).isOk = true := by decide

/-! ## Cases for the theorems above -/

/-- `C35_long_enough_partial`: the packet of `C35_false` followed by 64 bytes, then reading a header and a length-prefixed
string. -/
example : ∃ b d', PacketDeserializer.verify toyRing ⟨⟨unsignedPacket ++ List.replicate 64 0⟩, 23⟩ = (.ok b, d') ∧
    (runCalls toyRing [.popHeader, .next .varlen16] d').isOk = true :=
  C35_long_enough_partial toyRing (unsignedPacket ++ List.replicate 64 0) (by decide +kernel) (by decide +kernel)
    (Header.pyIpv8Header (FixedBytes.replicate 20 7) 246) _ (by decide +kernel) (by decide +kernel) _
    (by simp [ReadCall.PlainRead])

/-- `C38_checked`: with the toy scheme a seed is its own public key. -/
example : ∃ sig, sign (R := toyRing) ⟨FixedBytes.replicate 32 9⟩ [1, 2, 3] = .ok sig ∧
    verifyRaw toyRing (FixedBytes.replicate 32 9) [1, 2, 3] sig.bytes.1 = true :=
  (C38_checked toyRing toyRing_correct (FixedBytes.replicate 32 9) (FixedBytes.replicate 32 9) ⟨FixedBytes.replicate 32 9⟩
    (by rfl)).2 _

/-- `C31`: a signed packet of three bytes. -/
example := C31 toyRing toyRing_correct ⟨FixedBytes.replicate 32 9⟩ (FixedBytes.replicate 32 9) (by rfl) ⟨[1, 2, 3]⟩ _ rfl 0

/-- `C32`, `C32_last`: a signed message with a time, and one with an introduction request behind it. -/
example := C32 toyRing toyRing_correct ⟨FixedBytes.replicate 32 9⟩ (FixedBytes.replicate 32 9) (by rfl) (FixedBytes.replicate 20 7)
  246 (FixedBytes.replicate 32 2) [⟨.time, TimeDistributionPayload.mk 3⟩] (by simp [Kind.SelfDelimiting]) (by simp [Kind.Fits])
  ⟨Spec.header (List.replicate 20 7) 246⟩ _ _ (by decide) rfl rfl (by decide +kernel)
example := C32_last toyRing toyRing_correct ⟨FixedBytes.replicate 32 9⟩ (FixedBytes.replicate 32 9) (by rfl)
  (FixedBytes.replicate 20 7) 246 (FixedBytes.replicate 32 2) [⟨.time, TimeDistributionPayload.mk 3⟩]
  ⟨.introRequest, exampleRequest⟩ (by simp [Kind.SelfDelimiting]) (by simp [Kind.Fits]) trivial trivial
  ⟨Spec.header (List.replicate 20 7) 246⟩ _ _ (by decide) rfl rfl (by decide +kernel)

/-- `C33_unforgeable`: somebody has signed one message only, and that is the one received. -/
example (q : Packet) (hq : (⟨[1, 2, 3]⟩ : Packet).sign (R := toyRing) ⟨FixedBytes.replicate 32 9⟩ = .ok q) :=
  C33_unforgeable toyRing (FixedBytes.replicate 32 9) (· = [1, 2, 3]) ⟨q, 0⟩ ⟨⟨[1, 2, 3]⟩, 0⟩
    (by
      cases hq
      intro m sig e hl _
      exact (List.append_inj_left' (s₁ := [1, 2, 3]) e (by rw [hl]; decide)).symm)
    (C31 toyRing toyRing_correct ⟨FixedBytes.replicate 32 9⟩ (FixedBytes.replicate 32 9) (by rfl) ⟨[1, 2, 3]⟩ q hq 0)

/-- `C35_partial`: a message that is not signed. -/
example := C35_partial toyRing ⟨⟨unsignedPacket⟩, 23⟩ (by decide +kernel) (by decide +kernel)

/-- `C36`: a string is added behind the signature. -/
example := C36 toyRing toyRing_correct ⟨FixedBytes.replicate 32 9⟩ (FixedBytes.replicate 32 9) ⟨[1, 2, 3]⟩ _ _ rfl
  (VarLen16.mk [4]) [0, 1, 4] (fun _ => rfl) (by decide) rfl 0

/-- `C69`: signing three bytes. -/
example := C69 toyRing toyRing_correct ⟨FixedBytes.replicate 32 9⟩ (FixedBytes.replicate 32 9) (by rfl) ⟨[1, 2, 3]⟩

/-- `C38_publicKey`: the toy scheme. -/
example := C38_publicKey toyRing toyRing_correct

end Ipv8
