import Verif.Props.Community
import Verif.Model.Python
/-!
# Properties C50, C51: the Python binding
-/

namespace Ipv8
open Spec PacketDeserializer

/-! ## C50: verifying from Python -/

theorem skip_of_hasHeader {p : Packet} {mid : Bytes} {t : UInt8} (h : HasHeader p mid t) :
    p.startDeserialize.skipHeader = .ok ⟨p, 23⟩ := by
  unfold skipHeader popHeader
  rw [peek_of_hasHeader h]
  rfl

theorem skip_of_no_header {p : Packet} (h : ∀ mid t, ¬ HasHeader p mid t) :
    ∃ e, p.startDeserialize.skipHeader = .err e := by
  rcases hasHeader_or p with ⟨mid, t, hh⟩ | ⟨e, he⟩
  · exact absurd hh (h mid t)
  · refine ⟨e, ?_⟩
    unfold skipHeader popHeader
    rw [he]

theorem hasHeader_length {p : Packet} {mid : Bytes} {t : UInt8} (h : HasHeader p mid t) :
    23 ≤ p.bytes.length := by
  obtain ⟨hl, rest, hb⟩ := h
  rw [hb]
  simp [Spec.header, hl]
  omega

/-- C50. The complete behaviour of the binding on a message `data` (of any content), in terms of the
outcome of reading an authentication payload at byte 23:
* no header: `ValueError`;
* no authentication payload: `(False, everything behind the header)`;
* an authentication payload and at least 163 bytes: whether the last 64 bytes are a signature of the rest
  under the key in it, and the bytes between byte 99 and the signature;
* an authentication payload and less than 163 bytes, or one whose reading panics: panic. -/
theorem C50 (R : Ring) (auth data : Bytes) (hl : data.length ≤ usizeMax) :
    ((∀ mid t, ¬ HasHeader ⟨data⟩ mid t) →
      borrowedVerifySignature R auth data = .raise (.valueError "Could not ignore the header")) ∧
    (∀ mid t, HasHeader ⟨data⟩ mid t →
      ((nextPayload BinMemberAuthenticationPayload ⟨⟨data⟩, 23⟩).1.isErr = true →
        borrowedVerifySignature R auth data = .ok (false, data.drop 23)) ∧
      (∀ a d, nextPayload BinMemberAuthenticationPayload ⟨⟨data⟩, 23⟩ = (.ok a, d) →
        (163 ≤ data.length → ∃ b, (b = true ↔ EndsInSignature R a.publicKeyBin data) ∧
          borrowedVerifySignature R auth data =
            .ok (b, (data.take (data.length - 64)).drop 99)) ∧
        (data.length < 163 → borrowedVerifySignature R auth data = .panic)) ∧
      ((nextPayload BinMemberAuthenticationPayload ⟨⟨data⟩, 23⟩).1 = .panic →
        borrowedVerifySignature R auth data = .panic)) := by
  constructor
  · intro hno
    obtain ⟨e, he⟩ := skip_of_no_header hno
    unfold borrowedVerifySignature
    simp only [he, PyOutcome.orRaise]
  · intro mid t hh
    have hs := skip_of_hasHeader hh
    have h23 := hasHeader_length hh
    simp only at h23
    unfold borrowedVerifySignature
    simp only [hs, PyOutcome.orRaise]
    refine ⟨?_, ?_, ?_⟩
    · intro herr
      have := (C35_partial R ⟨⟨data⟩, 23⟩ h23 hl).2.1 herr
      rw [this]
      simp only [sliceFrom, h23, if_true]
    · intro a d hn
      obtain ⟨b, d', h1, h2, h3, h4, h5⟩ := (C35_partial R ⟨⟨data⟩, 23⟩ h23 hl).2.2
        (by rw [hn]; rfl)
      have hb : b = true ↔ EndsInSignature R a.publicKeyBin data := by
        have := C33_verify R ⟨⟨data⟩, 23⟩
        rw [h1] at this
        simp only [Outcome.ok.injEq] at this
        rw [this]
        constructor
        · rintro ⟨a', d'', e1, e2⟩
          rw [hn] at e1
          simp only [Prod.mk.injEq, Outcome.ok.injEq] at e1
          rw [e1.1]; exact e2
        · intro e; exact ⟨a, d, hn, e⟩
      simp only at h2 h3
      have hbytes : 64 ≤ data.length → d'.pntr.bytes = data.take (data.length - 64) := by
        intro h64
        unfold PacketDeserializer.verify at h1
        rw [hn] at h1
        simp only at h1
        have hp : d.pntr = ⟨data⟩ := by
          have := (C27_next (α := BinMemberAuthenticationPayload) ⟨⟨data⟩, 23⟩).2.1
          rwa [hn] at this
        obtain ⟨b', hb'⟩ := (C34 R d a.publicKeyBin).2 (by rw [hp]; exact h64)
        rw [hb', hp] at h1
        rw [← (Prod.mk.inj h1).2]
      rw [h1]
      simp only
      constructor
      · intro h163
        refine ⟨b, hb, ?_⟩
        rw [hbytes (by omega), h2]
        have : 23 + 76 ≤ (data.take (data.length - 64)).length := by
          rw [List.length_take]; omega
        simp only [sliceFrom, this, if_true]
      · intro h163
        have : ¬ d'.index ≤ d'.pntr.bytes.length := by rw [h2, h3]; omega
        simp only [sliceFrom, this, if_false]
    · intro hp
      have := (C35_partial R ⟨⟨data⟩, 23⟩ h23 hl).1.mpr hp
      rcases hv : PacketDeserializer.verify R ⟨⟨data⟩, 23⟩ with ⟨o, d⟩
      rw [hv] at this
      simp only at this
      subst this
      rfl

/-- C50. `ValueError` is raised exactly when there is no valid header, and nothing else is raised. -/
theorem C50_raises (R : Ring) (auth data : Bytes) (hl : data.length ≤ usizeMax) (e : PyErr) :
    borrowedVerifySignature R auth data = .raise e ↔
      e = .valueError "Could not ignore the header" ∧ ∀ mid t, ¬ HasHeader ⟨data⟩ mid t := by
  obtain ⟨h1, h2⟩ := C50 R auth data hl
  constructor
  · intro h
    have hno : ∀ mid t, ¬ HasHeader ⟨data⟩ mid t := by
      intro mid t hh
      obtain ⟨g1, g2, g3⟩ := h2 mid t hh
      rcases hn : nextPayload BinMemberAuthenticationPayload ⟨⟨data⟩, 23⟩ with ⟨o, d⟩
      cases o with
      | ok a =>
        obtain ⟨k1, k2⟩ := g2 a d hn
        by_cases h163 : 163 ≤ data.length
        · obtain ⟨b, _, hb⟩ := k1 h163
          rw [hb] at h; cases h
        · rw [k2 (by omega)] at h; cases h
      | err e' => rw [g1 (by rw [hn]; rfl)] at h; cases h
      | panic => rw [g3 (by rw [hn])] at h; cases h
    refine ⟨?_, hno⟩
    rw [h1 hno] at h
    cases h; rfl
  · rintro ⟨rfl, hno⟩; exact h1 hno

/-- C50. What is returned is a contiguous part of the input. -/
theorem C50_infix (R : Ring) (auth data : Bytes) (hl : data.length ≤ usizeMax) (b : Bool) (out : Bytes)
    (h : borrowedVerifySignature R auth data = .ok (b, out)) : out <:+: data := by
  obtain ⟨h1, h2⟩ := C50 R auth data hl
  by_cases hno : ∀ mid t, ¬ HasHeader ⟨data⟩ mid t
  · rw [h1 hno] at h; cases h
  · simp only [Classical.not_forall, Classical.not_not] at hno
    obtain ⟨mid, t, hh⟩ := hno
    obtain ⟨g1, g2, g3⟩ := h2 mid t hh
    rcases hn : nextPayload BinMemberAuthenticationPayload ⟨⟨data⟩, 23⟩ with ⟨o, d⟩
    cases o with
    | ok a =>
      obtain ⟨k1, k2⟩ := g2 a d hn
      by_cases h163 : 163 ≤ data.length
      · obtain ⟨b', _, hb⟩ := k1 h163
        rw [hb] at h
        cases h
        exact (List.drop_suffix _ _).isInfix.trans (List.take_prefix _ _).isInfix
      · rw [k2 (by omega)] at h; cases h
    | err e' =>
      rw [g1 (by rw [hn]; rfl)] at h
      cases h
      exact (List.drop_suffix _ _).isInfix
    | panic => rw [g3 (by rw [hn])] at h; cases h

/-- The wire form of a message with header, authentication payload and arbitrary further bytes. -/
def authenticated (mid : FixedBytes 20) (t : UInt8) (pk enc : FixedBytes 32) (body : Bytes) : Bytes :=
  Spec.header mid.1 t ++ authentication ⟨pk, enc⟩ ++ body

/-- C50. A message signed by the key in its authentication payload: `(True, body)`. -/
theorem C50_signed (R : Ring) (hR : R.Correct) (kp : KeyPair R) (pk : Ed25519PublicKey)
    (hpk : kp.publicKey = .ok pk) (mid : FixedBytes 20) (t : UInt8) (enc : FixedBytes 32) (body : Bytes)
    (s : Packet) (hs : Packet.sign ⟨authenticated mid t pk enc body⟩ kp = .ok s)
    (hl : s.bytes.length ≤ usizeMax) (auth : Bytes) :
    borrowedVerifySignature R auth s.bytes = .ok (true, body) := by
  obtain ⟨hsig, hsl⟩ := C30 R hR kp ⟨authenticated mid t pk enc body⟩
  rw [hsig] at hs
  cases hs
  simp only at hsl hl ⊢
  have hh : HasHeader ⟨authenticated mid t pk enc body ++ R.sign kp.key (authenticated mid t pk enc body)⟩
      mid.1 t := ⟨mid.2, authentication ⟨pk, enc⟩ ++ body ++
        R.sign kp.key (authenticated mid t pk enc body), by simp [authenticated]⟩
  have hn := C14_read ⟨pk, enc⟩ (Spec.header mid.1 t)
    (body ++ R.sign kp.key (authenticated mid t pk enc body)) (by
      simpa [authenticated] using hl)
  have hd : Spec.header mid.1 t ++ authentication ⟨pk, enc⟩ ++
      (body ++ R.sign kp.key (authenticated mid t pk enc body)) =
      authenticated mid t pk enc body ++ R.sign kp.key (authenticated mid t pk enc body) := by
    simp [authenticated]
  rw [C10_length, C14_length, hd] at hn
  have hlen : (authenticated mid t pk enc body).length = 99 + body.length := by
    simp only [authenticated, List.length_append, C10_length, C14_length]
  obtain ⟨b, hb, hres⟩ := (((C50 R auth _ hl).2 mid.1 t hh).2.1 _ _ hn).1 (by
    rw [List.length_append, hsl, hlen]; omega)
  have hk : pk.1 = R.publicKey kp.key := by
    unfold KeyPair.publicKey toFixed at hpk
    rw [dif_pos (hR.publicKey_length kp.key)] at hpk
    simp only [Outcome.ofOption, Outcome.ok.injEq] at hpk
    rw [← hpk]
  have : b = true := hb.mpr ⟨_, _, rfl, hsl, by rw [hk]; exact hR.verify_sign _ _⟩
  rw [hres, this]
  congr 2
  rw [List.length_append, hsl, Nat.add_sub_cancel, List.take_left' rfl]
  have h99 : (Spec.header mid.1 t ++ authentication ⟨pk, enc⟩).length = 99 := by
    rw [List.length_append, C10_length, C14_length]
  rw [authenticated, List.drop_left' h99]

/-- C50. A Rust panic crosses into Python for a well-formed, unsigned message: header and authentication
payload with less than 64 bytes behind them. -/
theorem C50_panics (R : Ring) (mid : FixedBytes 20) (t : UInt8) (pk enc : FixedBytes 32) (body auth : Bytes)
    (hb : body.length < 64) :
    borrowedVerifySignature R auth (authenticated mid t pk enc body) = .panic := by
  have hlen : (authenticated mid t pk enc body).length = 99 + body.length := by
    simp only [authenticated, List.length_append, C10_length, C14_length]
  have hl : (authenticated mid t pk enc body).length ≤ usizeMax := by
    rw [hlen]; have : (163 : Nat) ≤ usizeMax := by decide
    omega
  have hn := C14_read ⟨pk, enc⟩ (Spec.header mid.1 t) body hl
  rw [C10_length, C14_length] at hn
  exact (((C50 R auth _ hl).2 mid.1 t ⟨mid.2, authentication ⟨pk, enc⟩ ++ body, by
    simp [authenticated]⟩).2.1 _ _ hn).2 (by omega)

/-! ## C51: signing from Python -/

/-- C51. The complete behaviour of the binding. -/
theorem C51 (R : Ring) (hR : R.Correct) (seed key data : Bytes) :
    (key.length ≠ 32 → borrowedCreateSignature R seed key data = .raise (.keyError "Key length was wrong")) ∧
    (key.length = 32 → seed.length ≠ 32 →
      borrowedCreateSignature R seed key data = .raise (.keyError "Seed length was wrong")) ∧
    (key.length = 32 → seed.length = 32 → R.fromSeedAndPublicKey seed key = none →
      borrowedCreateSignature R seed key data = .raise (.keyError "Invalid key given")) ∧
    (key.length = 32 → seed.length = 32 → ∀ k, R.fromSeedAndPublicKey seed key = some k →
      borrowedCreateSignature R seed key data = .ok (data ++ R.sign k data) ∧
      (R.sign k data).length = 64 ∧ R.verify key data (R.sign k data) = true) := by
  refine ⟨?_, ?_, ?_, ?_⟩
  · intro h
    simp [borrowedCreateSignature, asFixedArray, toFixed, h, Outcome.ofOption, PyOutcome.orRaise]
  · intro h1 h2
    simp [borrowedCreateSignature, asFixedArray, toFixed, h1, h2, Outcome.ofOption, PyOutcome.orRaise]
  · intro h1 h2 h3
    simp [borrowedCreateSignature, asFixedArray, toFixed, h1, h2, h3, Outcome.ofOption, PyOutcome.orRaise,
      KeyPair.fromSeedChecked]
  · intro h1 h2 k h3
    have hs := (C30 R hR ⟨k⟩ ⟨data⟩).1
    simp only at hs
    refine ⟨?_, hR.sign_length k data, ?_⟩
    · simp [borrowedCreateSignature, asFixedArray, toFixed, h1, h2, h3, Outcome.ofOption,
        PyOutcome.orRaise, KeyPair.fromSeedChecked, hs]
    · rw [← hR.seed_public _ _ _ h3]; exact hR.verify_sign k data

/-- C51. It never panics, and an exception is a `KeyError` and means that key or seed have the wrong
length or do not belong together. -/
theorem C51_raises (R : Ring) (hR : R.Correct) (seed key data : Bytes) :
    borrowedCreateSignature R seed key data ≠ .panic ∧
    (∀ e, borrowedCreateSignature R seed key data = .raise e → ∃ msg, e = .keyError msg) ∧
    ((∃ e, borrowedCreateSignature R seed key data = .raise e) ↔
      key.length ≠ 32 ∨ seed.length ≠ 32 ∨ R.fromSeedAndPublicKey seed key = none) := by
  obtain ⟨h1, h2, h3, h4⟩ := C51 R hR seed key data
  by_cases hk : key.length = 32
  · by_cases hs : seed.length = 32
    · cases hf : R.fromSeedAndPublicKey seed key with
      | none => rw [h3 hk hs hf]; simp
      | some k => rw [(h4 hk hs k hf).1]; simp [hk, hs]
    · rw [h2 hk hs]; simp [hs]
  · rw [h1 hk]; simp [hk]

/-- C51. What one binding signs the other verifies: a message with the key in its authentication payload
comes back as `(True, body)`. -/
theorem C51_agrees (R : Ring) (hR : R.Correct) (seed : Bytes) (key : Ed25519PublicKey)
    (mid : FixedBytes 20) (t : UInt8) (enc : FixedBytes 32) (body signed auth : Bytes)
    (h : borrowedCreateSignature R seed key.1 (authenticated mid t key enc body) = .ok signed)
    (hl : signed.length ≤ usizeMax) :
    borrowedVerifySignature R auth signed = .ok (true, body) := by
  obtain ⟨h1, h2, h3, h4⟩ := C51 R hR seed key.1 (authenticated mid t key enc body)
  by_cases hs : seed.length = 32
  · cases hf : R.fromSeedAndPublicKey seed key.1 with
    | none => rw [h3 key.2 hs hf] at h; cases h
    | some k =>
      obtain ⟨g1, g2, g3⟩ := h4 key.2 hs k hf
      rw [g1] at h
      cases h
      have hpk : (KeyPair.mk (R := R) k).publicKey = .ok key := by
        obtain ⟨pk, e1, e2, _⟩ := C38_publicKey R hR ⟨k⟩
        rw [e1]
        congr 1
        exact Subtype.ext (e2.trans (hR.seed_public _ _ _ hf))
      exact C50_signed R hR ⟨k⟩ key hpk mid t enc body _ (C30 R hR ⟨k⟩ _).1 hl auth
  · rw [h2 key.2 hs] at h; cases h

-- with the toy scheme (seed = public key) the binding signs, and the hypotheses of C50/C51 are met
example : (borrowedCreateSignature toyRing (List.replicate 32 9) (List.replicate 32 9) [1, 2]) =
    .ok ([1, 2] ++ List.replicate 32 9 ++ [1, 2] ++ List.replicate 30 0) := by decide
example : borrowedCreateSignature toyRing (List.replicate 32 8) (List.replicate 32 9) [1, 2] =
    .raise (.keyError "Invalid key given") := by decide
example : (match borrowedCreateSignature toyRing (List.replicate 32 9) (List.replicate 32 9)
      (authenticated (FixedBytes.replicate 20 7) 246 (FixedBytes.replicate 32 9)
        (FixedBytes.replicate 32 2) [5, 6, 7]) with
    | .ok signed => borrowedVerifySignature toyRing [] signed
    | _ => .panic) = .ok (true, [5, 6, 7]) := by decide +kernel

/-! ## Cases for the theorems above -/

/-- `C50_infix`: the answer of the example above. -/
example : [5, 6, 7] <:+: (authenticated (FixedBytes.replicate 20 7) 246 (FixedBytes.replicate 32 9)
    (FixedBytes.replicate 32 2) [5, 6, 7] ++ List.replicate 64 (0 : UInt8)) :=
  C50_infix toyRing [] (authenticated (FixedBytes.replicate 20 7) 246 (FixedBytes.replicate 32 9)
    (FixedBytes.replicate 32 2) [5, 6, 7] ++ List.replicate 64 (0 : UInt8)) (by decide +kernel) false [5, 6, 7]
    (by decide +kernel)

/-- `C50_panics`: a message without the signature. -/
example : borrowedVerifySignature toyRing [1] (authenticated (FixedBytes.replicate 20 7) 246 (FixedBytes.replicate 32 9)
    (FixedBytes.replicate 32 2) [5, 6, 7]) = .panic :=
  C50_panics toyRing _ _ _ _ _ _ (by decide)

/-- `C50_raises`: a message that is no IPv8 message. -/
example : borrowedVerifySignature toyRing [1] [0, 1, 5, 6] = .raise (.valueError "Could not ignore the header") :=
  (C50_raises toyRing [1] [0, 1, 5, 6] (by decide) _).mpr ⟨rfl, by
    rintro mid t ⟨-, rest, h⟩
    simp [Spec.header] at h⟩

/-- `C51_raises`: a key that is too short. -/
example : ∃ e, borrowedCreateSignature toyRing (List.replicate 32 9) [9, 9] [1, 2] = .raise e :=
  (C51_raises toyRing toyRing_correct (List.replicate 32 9) [9, 9] [1, 2]).2.2.mpr (.inl (by decide))

/-- `C50_signed`, `C51_agrees`: a message with three bytes behind the authentication payload. -/
example := C50_signed toyRing toyRing_correct ⟨FixedBytes.replicate 32 9⟩ (FixedBytes.replicate 32 9) (by rfl)
  (FixedBytes.replicate 20 7) 246 (FixedBytes.replicate 32 2) [5, 6, 7] _
  (C30 toyRing toyRing_correct ⟨FixedBytes.replicate 32 9⟩ _).1 (by decide +kernel) []
example (signed : Bytes) (h : borrowedCreateSignature toyRing (List.replicate 32 9) (List.replicate 32 9)
    (authenticated (FixedBytes.replicate 20 7) 246 (FixedBytes.replicate 32 9) (FixedBytes.replicate 32 2) [5, 6, 7]) =
    .ok signed) (hl : signed.length = 166) :=
  C51_agrees toyRing toyRing_correct (List.replicate 32 9) (FixedBytes.replicate 32 9) (FixedBytes.replicate 20 7) 246
    (FixedBytes.replicate 32 2) [5, 6, 7] signed [] h (by rw [hl]; decide)

end Ipv8
