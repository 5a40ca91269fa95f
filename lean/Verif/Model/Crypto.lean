import Verif.Model.Packet
/-!
# Signatures, keys and reading packets

`crypto/signature.rs`, `util.rs`, and `PacketDeserializer` / `Packet::sign` of `serialization/mod.rs`.
-/

namespace Ipv8

/-- The part of the `ring` crate (a dependency) that is called.  The functions are parameters of the
model; no behaviour is assumed here.  The laws some theorems need are the hypotheses
`Ring.Correct` below.
`generatePkcs8` takes the state of `ring::rand::SystemRandom` as an argument. -/
structure Ring where
  /-- `ring::signature::Ed25519KeyPair` -/
  Key : Type
  /-- `Ed25519KeyPair::generate_pkcs8` -/
  generatePkcs8 : Nat → Option Bytes
  /-- `Ed25519KeyPair::from_pkcs8` -/
  fromPkcs8 : Bytes → Option Key
  /-- `Ed25519KeyPair::from_seed_and_public_key` -/
  fromSeedAndPublicKey : Bytes → Bytes → Option Key
  /-- `Ed25519KeyPair::from_seed_unchecked` -/
  fromSeedUnchecked : Bytes → Option Key
  /-- `KeyPair::public_key(..).as_ref()` -/
  publicKey : Key → Bytes
  /-- `Ed25519KeyPair::sign(..).as_ref()` -/
  sign : Key → Bytes → Bytes
  /-- `ring::signature::verify(&ED25519, public_key, msg, sig).is_ok()` -/
  verify : Bytes → Bytes → Bytes → Bool
  /-- `ring::digest::digest(&SHA1, ..).as_ref()` -/
  sha1 : Bytes → Bytes

/-- What ring documents about Ed25519 and SHA-1 and what some theorems assume of it. -/
structure Ring.Correct (R : Ring) : Prop where
  /-- Ed25519 public keys are 32 bytes. -/
  publicKey_length : ∀ k, (R.publicKey k).length = 32
  /-- Ed25519 signatures are 64 bytes. -/
  sign_length : ∀ k m, (R.sign k m).length = 64
  /-- A signature verifies under the signer's public key. -/
  verify_sign : ∀ k m, R.verify (R.publicKey k) m (R.sign k m) = true
  /-- `from_seed_and_public_key` only returns a key pair with the given public key. -/
  seed_public : ∀ s p k, R.fromSeedAndPublicKey s p = some k → R.publicKey k = p
  /-- SHA-1 digests are 20 bytes. -/
  sha1_length : ∀ m, (R.sha1 m).length = 20

/-- `crypto/signature.rs:23`. -/
abbrev Ed25519PublicKey := FixedBytes 32

/-- `crypto/signature.rs:26`: newtype around ring's key pair. -/
structure KeyPair (R : Ring) where
  key : R.Key

/-- `crypto/signature.rs:31`. -/
structure Signature where
  bytes : FixedBytes 64
  deriving DecidableEq, Repr

/-- `crypto/signature.rs:35`. -/
def ED25519_SIGNATURE_BYTES : Nat := 64

/-- `crypto/signature.rs:38`. -/
instance : Ipv8Payload Signature := ⟨⟩

/-- `crypto/signature.rs:40-51`. -/
instance : Serialize Signature where
  ser s := .ok (s.bytes.1.map .u8)

namespace KeyPair

/-- `crypto/signature.rs:65-70`. -/
def fromBytes (R : Ring) (bytes : Bytes) : Outcome (KeyPair R) := do
  let ringKey ← Outcome.ofOption .keyRejected (R.fromPkcs8 bytes)
  pure ⟨ringKey⟩

/-- `crypto/signature.rs:55-61`; `rng` is the state of the system random generator. -/
def new (R : Ring) (rng : Nat) : Outcome (KeyPair R) := do
  let pkcs8Bytes ← Outcome.ofOption .keyGeneration (R.generatePkcs8 rng)
  fromBytes R pkcs8Bytes

/-- `crypto/signature.rs:73-83`. -/
def fromSeedChecked (R : Ring) (seed : FixedBytes 32) (publickey : Ed25519PublicKey) :
    Outcome (KeyPair R) := do
  let ringKey ← Outcome.ofOption .keyRejected (R.fromSeedAndPublicKey seed.1 publickey.1)
  pure ⟨ringKey⟩

/-- `crypto/signature.rs:86-92`. -/
def fromSeedUnchecked (R : Ring) (seed : FixedBytes 32) : Outcome (KeyPair R) := do
  let ringKey ← Outcome.ofOption .keyRejected (R.fromSeedUnchecked seed.1)
  pure ⟨ringKey⟩

/-- `crypto/signature.rs:95-101`. -/
def publicKey {R : Ring} (kp : KeyPair R) : Outcome Ed25519PublicKey :=
  Outcome.ofOption .keyRejected (toFixed 32 (R.publicKey kp.key))

end KeyPair

/-- `crypto/signature.rs:110-115`. -/
def sign {R : Ring} (keypair : KeyPair R) (message : Bytes) : Outcome Signature := do
  let sig ← Outcome.ofOption .signing (toFixed 64 (R.sign keypair.key message))
  pure ⟨sig⟩

/-- `crypto/signature.rs:105-107`. -/
def signPacket {R : Ring} (keypair : KeyPair R) (message : Packet) : Outcome Signature :=
  sign keypair message.raw

/-- `crypto/signature.rs:134-136`. -/
def verify (R : Ring) (publicKey msg sig : Bytes) : Bool := R.verify publicKey msg sig

/-- `crypto/signature.rs:118-123`. -/
def verifyPacket (R : Ring) (publicKey : Ed25519PublicKey) (msg : Packet) (sig : Signature) : Bool :=
  verify R publicKey.1 msg.raw sig.bytes.1

/-- `crypto/signature.rs:126-131`. -/
def verifyRaw (R : Ring) (publicKey : Ed25519PublicKey) (msg sig : Bytes) : Bool :=
  verify R publicKey.1 msg sig

/-- `util.rs:9-17` for a target type of the given size and alignment and data at the given memory
address: `LayoutVerified::new` wants the exact size and an aligned address.  The result is the same
memory, i.e. the same bytes. -/
def asFixedSize (size align addr : Nat) (data : Bytes) : Outcome Bytes :=
  if data.length = size ∧ addr % align = 0 then .ok data else .err .conversion

/-- `util.rs:9-17` at `T = [u8; n]` (alignment 1), the instance the crate and its Python binding use. -/
def asFixedArray (n : Nat) (data : Bytes) : Outcome (FixedBytes n) :=
  Outcome.ofOption .conversion (toFixed n data)

/-- `serialization/mod.rs:154-161`: sign, then add the signature as a payload. -/
def Packet.sign {R : Ring} (self : Packet) (keypair : KeyPair R) : Outcome Packet := do
  let signature ← signPacket keypair self
  match self.add signature with
  | (.ok (), p) => .ok p
  | (.err e, _) => .err e
  | (.panic, _) => .panic

/-! ## `PacketDeserializer` -/

/-- `serialization/mod.rs:34-39`. -/
structure PacketDeserializer where
  pntr : Packet
  index : Nat
  deriving DecidableEq, Repr

/-- `serialization/mod.rs:164-169`. -/
def Packet.startDeserialize (self : Packet) : PacketDeserializer := ⟨self, 0⟩

namespace PacketDeserializer

/-- `serialization/mod.rs:45-69`: read a value at the cursor, then advance the cursor by the serialized
size of that value.  `&mut self`: the state afterwards is returned.  (`usize` addition modelled as
unbounded: for the payload types of the crate and derived ones a read never moves the cursor past the end, see
C28 and C83; only a hand-written codec can, see `C64_overshoot`.) -/
def nextPayload (α : Type) [Ipv8Payload α] [Serialize α] [Deserialize α] (d : PacketDeserializer) :
    Outcome α × PacketDeserializer :=
  match sliceFrom d.pntr.bytes d.index with
  | .ok s =>
    match (Bincode.deserialize .big s : Outcome α) with
    | .ok res =>
      match Bincode.serializedSize res with
      | .ok n => (.ok res, { d with index := d.index + n })
      | .err e => (.err e, d)
      | .panic => (.panic, d)
    | .err e => (.err e, d)
    | .panic => (.panic, d)
  | .err e => (.err e, d)
  | .panic => (.panic, d)

/-- `serialization/mod.rs:72-77`. -/
def peekHeader (d : PacketDeserializer) : Outcome Header := do
  let s ← sliceFrom d.pntr.bytes d.index
  Bincode.deserialize .big s

/-- `serialization/mod.rs:80-84`. -/
def popHeader (d : PacketDeserializer) : Outcome Header × PacketDeserializer :=
  match d.peekHeader with
  | .ok res => (.ok res, { d with index := d.index + res.size })
  | .err e => (.err e, d)
  | .panic => (.panic, d)

/-- `serialization/mod.rs:87-90`. -/
def skipHeader (d : PacketDeserializer) : Outcome PacketDeserializer :=
  match d.popHeader with
  | (.ok _, d') => .ok d'
  | (.err e, _) => .err e
  | (.panic, _) => .panic

/-- `serialization/mod.rs:93-95`. -/
def len (d : PacketDeserializer) : Nat := d.pntr.len

/-- `serialization/mod.rs:113-124`.  `datalen - keylength` underflows when the packet is shorter than a
signature: that panics in debug builds, and in release builds the wrapped value makes `split_at`
panic. -/
def verifyWith (R : Ring) (d : PacketDeserializer) (pkey : Ed25519PublicKey) :
    Outcome Bool × PacketDeserializer :=
  let keylength := ED25519_SIGNATURE_BYTES
  let datalen := d.len
  if datalen < keylength then (.panic, d)
  else
    let packet := d.pntr.bytes.take (datalen - keylength)
    let signature := d.pntr.bytes.drop (datalen - keylength)
    let status := verifyRaw R pkey packet signature
    (.ok status, { d with pntr := ⟨d.pntr.bytes.take (datalen - keylength)⟩ })

/-- `serialization/mod.rs:103-109`: an unreadable authentication payload counts as "not verified". -/
def verify (R : Ring) (d : PacketDeserializer) : Outcome Bool × PacketDeserializer :=
  match d.nextPayload BinMemberAuthenticationPayload with
  | (.ok authpayload, d') => d'.verifyWith R authpayload.publicKeyBin
  | (.err _, d') => (.ok false, d')
  | (.panic, d') => (.panic, d')

end PacketDeserializer
end Ipv8
