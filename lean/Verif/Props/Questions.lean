import Verif.Props.Python
import Verif.Props.Authentic
/-!
# C98: what is asked of the cryptography library, and what becomes of the answer
-/

namespace Ipv8
open Spec PacketDeserializer

/-! ## Specification -/

/-- A question to `ring::signature::verify`: is this a signature of this message under this key? -/
structure Question where
  key : Bytes
  message : Bytes
  signature : Bytes

/-- What the library `R` answers. -/
def Question.answer (q : Question) (R : Ring) : Bool := R.verify q.key q.message q.signature

/-- The question about the last 64 bytes of `w` being a signature of everything before them. -/
def Question.about (key : Ed25519PublicKey) (w : Bytes) : Question :=
  ⟨key.1, w.take (w.length - 64), w.drop (w.length - 64)⟩

/-- Two libraries give the same answers to these questions. -/
def AgreeOn (R R' : Ring) (qs : List Question) : Prop := ∀ q ∈ qs, q.answer R = q.answer R'

/-- A receiver that looks at a packet, choosing what to do from all it has learned so far. -/
inductive Inspection (α : Type) : Type 1
  | done (a : α)
  | header (next : Outcome Header → Inspection α)
  | read (κ : Kind) (next : Outcome κ.Ty → Inspection α)
  | verify (next : Bool → Inspection α)
  | verifyWith (key : Ed25519PublicKey) (next : Bool → Inspection α)

/-- What it comes to, and how many signatures it has had checked; a panic ends it. -/
def Inspection.run {α : Type} (R : Ring) : Inspection α → PacketDeserializer → Outcome α × Nat
  | .done a, _ => (.ok a, 0)
  | .header next, d =>
    match d.popHeader with
    | (.panic, _) => (.panic, 0)
    | (o, d') => (next o).run R d'
  | .read κ next, d =>
    match d.nextPayload κ.Ty with
    | (.panic, _) => (.panic, 0)
    | (o, d') => (next o).run R d'
  | .verify next, d =>
    match d.verify R with
    | (.ok b, d') => (((next b).run R d').1, ((next b).run R d').2 + 1)
    | (.err e, _) => (.err e, 1)
    | (.panic, _) => (.panic, 1)
  | .verifyWith key next, d =>
    match d.verifyWith R key with
    | (.ok b, d') => (((next b).run R d').1, ((next b).run R d').2 + 1)
    | (.err e, _) => (.err e, 1)
    | (.panic, _) => (.panic, 1)

/-! ## Theorems -/

/-- **C98.**  `verify_with` asks one question, about the whole packet and the given key, and gives the answer to
it; for a packet shorter than a signature it asks none. -/
theorem C98_with (d : PacketDeserializer) (key : Ed25519PublicKey) :
    (64 ≤ d.pntr.bytes.length →
      ∀ R, (d.verifyWith R key) =
        (.ok ((Question.about key d.pntr.bytes).answer R), ⟨⟨d.pntr.bytes.take (d.pntr.bytes.length - 64)⟩, d.index⟩)) ∧
    (d.pntr.bytes.length < 64 → ∀ R, d.verifyWith R key = (.panic, d)) := by
  constructor
  · intro h R
    simp [PacketDeserializer.verifyWith, PacketDeserializer.len, Packet.len, ED25519_SIGNATURE_BYTES,
      Question.answer, Question.about, verifyRaw, verify, Nat.not_lt.mpr h]
  · intro h R
    simp [PacketDeserializer.verifyWith, PacketDeserializer.len, Packet.len, ED25519_SIGNATURE_BYTES, h]

/-- **C98.**  `verify` asks at most one question, about the whole packet and the key in the authentication payload at
the cursor, and gives the answer to it; if there is no such payload or the packet is shorter than a signature, it asks
none: all libraries lead to the same. -/
theorem C98 (d : PacketDeserializer) :
    (∀ auth d', d.nextPayload BinMemberAuthenticationPayload = (.ok auth, d') → 64 ≤ d.pntr.bytes.length →
      ∀ R, d.verify R = (.ok ((Question.about auth.publicKeyBin d.pntr.bytes).answer R),
        ⟨⟨d.pntr.bytes.take (d.pntr.bytes.length - 64)⟩, d'.index⟩)) ∧
    ((d.nextPayload BinMemberAuthenticationPayload).1.isOk = false ∨ d.pntr.bytes.length < 64 →
      ∀ R R', d.verify R = d.verify R' ∧ (d.verify R).1 ≠ .ok true) := by
  have hp := (C27_next (α := BinMemberAuthenticationPayload) d).2.1
  constructor
  · intro auth d' h hl R
    rw [h] at hp
    simp only at hp
    have := (C98_with d' auth.publicKeyBin).1 (by rw [hp]; exact hl) R
    simp only [PacketDeserializer.verify, h, this, hp]
  · intro h R R'
    rcases hn : d.nextPayload BinMemberAuthenticationPayload with ⟨o, d'⟩
    rw [hn] at h hp
    simp only at h hp
    cases o with
    | ok auth =>
      have hl : d'.pntr.bytes.length < 64 := by
        rw [hp]
        exact h.resolve_left (by simp [Outcome.isOk])
      simp [PacketDeserializer.verify, hn, (C98_with d' auth.publicKeyBin).2 hl]
    | err e => simp [PacketDeserializer.verify, hn]
    | panic => simp [PacketDeserializer.verify, hn]

/-- **C98.**  Whether signatures are valid is told to the caller and has no other effect: after any history of calls the
packet and the cursor are the same, whatever the library answered; also whether a call panics does not depend on it.
So a receiver that does not look at the answer of `verify` reads a forged message just like a genuine one. -/
theorem C98_advisory (R R' : Ring) (cs : List ReadCall) (d : PacketDeserializer) : runCalls R cs d = runCalls R' cs d := by
  have hw : ∀ d key, (verifyWith R d key).2 = (verifyWith R' d key).2 ∧
      ((verifyWith R d key).1 = .panic ↔ (verifyWith R' d key).1 = .panic) := by
    intro d key
    by_cases h : 64 ≤ d.pntr.bytes.length
    · simp [(C98_with d key).1 h]
    · simp [(C98_with d key).2 (by omega)]
  have hkeep : ∀ (o o' : Outcome Bool) (d d' : PacketDeserializer), d = d' → (o = .panic ↔ o' = .panic) →
      ReadCall.run.keep o d = ReadCall.run.keep o' d' := by
    intro o o' d d' hd ho
    subst hd
    cases o <;> cases o' <;> simp [ReadCall.run.keep] at ho ⊢
  have hone : ∀ (c : ReadCall) d, c.run R d = c.run R' d := by
    intro c d
    cases c with
    | verify =>
      simp only [ReadCall.run]
      refine hkeep _ _ _ _ ?_ ?_
      · unfold PacketDeserializer.verify
        rcases d.nextPayload BinMemberAuthenticationPayload with ⟨o, d'⟩
        cases o <;> simp [hw]
      · unfold PacketDeserializer.verify
        rcases d.nextPayload BinMemberAuthenticationPayload with ⟨o, d'⟩
        cases o <;> simp [hw]
    | verifyWith key => exact hkeep _ _ _ _ (hw d key).1 (hw d key).2
    | _ => rfl
  induction cs generalizing d with
  | nil => rfl
  | cons c cs ih =>
    simp only [runCalls, hone]
    cases c.run R' d with
    | ok o => cases o <;> simp [ih]
    | err e => rfl
    | panic => rfl

/-- **C98.**  However a receiver goes about a packet: what it comes to depends on at most as many answers of the library
as it has called `verify` and `verify_with`; each is about a message that, with its 64 bytes of signature, is a prefix
of the packet. -/
theorem C98_questions {α : Type} (i : Inspection α) (R : Ring) (d : PacketDeserializer) :
    ∃ qs : List Question, qs.length ≤ (i.run R d).2 ∧
      (∀ q ∈ qs, (q.message ++ q.signature) <+: d.pntr.bytes ∧ q.signature.length = 64) ∧
      ∀ R', AgreeOn R R' qs → i.run R' d = i.run R d := by
  have hw : ∀ (key : Ed25519PublicKey) (d : PacketDeserializer), (d.verifyWith R key).1 ≠ .panic →
      ∃ q : Question, (q.message ++ q.signature) <+: d.pntr.bytes ∧ q.signature.length = 64 ∧
        (d.verifyWith R key).2.pntr.bytes <+: d.pntr.bytes ∧
        ∀ R', q.answer R = q.answer R' → d.verifyWith R' key = d.verifyWith R key := by
    intro key d h
    have hl : 64 ≤ d.pntr.bytes.length := by
      rcases Nat.lt_or_ge d.pntr.bytes.length 64 with h' | h'
      · exact absurd (by rw [(C98_with d key).2 h' R]) h
      · exact h'
    refine ⟨Question.about key d.pntr.bytes, ?_, ?_, ?_, ?_⟩
    · simp [Question.about]
    · simp [Question.about]; omega
    · rw [(C98_with d key).1 hl R]; exact List.take_prefix _ _
    · intro R' h
      rw [(C98_with d key).1 hl R, (C98_with d key).1 hl R', h]
  have step : ∀ (o : Outcome Bool × PacketDeserializer) (f : Ring → Outcome Bool × PacketDeserializer)
      (next : Bool → Inspection α) (d : PacketDeserializer) (qs0 : List Question),
      f R = o → qs0.length ≤ 1 →
      (∀ q ∈ qs0, (q.message ++ q.signature) <+: d.pntr.bytes ∧ q.signature.length = 64) →
      (∀ b, o.1 = .ok b → o.2.pntr.bytes <+: d.pntr.bytes) →
      (∀ R', AgreeOn R R' qs0 → f R' = o) →
      (∀ b (d : PacketDeserializer), ∃ qs : List Question, qs.length ≤ ((next b).run R d).2 ∧
        (∀ q ∈ qs, (q.message ++ q.signature) <+: d.pntr.bytes ∧ q.signature.length = 64) ∧
        ∀ R', AgreeOn R R' qs → (next b).run R' d = (next b).run R d) →
      ∃ qs : List Question,
        qs.length ≤ (match o with
          | (.ok b, d') => (((next b).run R d').1, ((next b).run R d').2 + 1)
          | (.err e, _) => (.err e, 1)
          | (.panic, _) => (Outcome.panic, 1)).2 ∧
        (∀ q ∈ qs, (q.message ++ q.signature) <+: d.pntr.bytes ∧ q.signature.length = 64) ∧
        ∀ R', AgreeOn R R' qs →
          (match f R' with
          | (.ok b, d') => (((next b).run R' d').1, ((next b).run R' d').2 + 1)
          | (.err e, _) => (.err e, 1)
          | (.panic, _) => (Outcome.panic, 1)) =
          (match o with
          | (.ok b, d') => (((next b).run R d').1, ((next b).run R d').2 + 1)
          | (.err e, _) => (.err e, 1)
          | (.panic, _) => (Outcome.panic, 1)) := by
    intro o f next d qs0 h0 hlen hpre hd hf ih
    obtain ⟨o, d'⟩ := o
    cases o with
    | ok b =>
      obtain ⟨qs, g1, g2, g3⟩ := ih b d'
      refine ⟨qs0 ++ qs, ?_, ?_, ?_⟩
      · simp only [List.length_append]; omega
      · intro q hq
        rcases List.mem_append.mp hq with hq | hq
        · exact hpre q hq
        · exact ⟨(g2 q hq).1.trans (hd b rfl), (g2 q hq).2⟩
      · intro R' ha
        rw [hf R' (fun q hq => ha q (List.mem_append_left _ hq))]
        simp only
        rw [g3 R' (fun q hq => ha q (List.mem_append_right _ hq))]
    | err e =>
      exact ⟨qs0, hlen, hpre, fun R' ha => by rw [hf R' ha]⟩
    | panic =>
      exact ⟨qs0, hlen, hpre, fun R' ha => by rw [hf R' ha]⟩
  induction i generalizing d with
  | done a => exact ⟨[], Nat.le_refl _, by simp, fun _ _ => rfl⟩
  | header next ih =>
    have hpn : d.popHeader.2.pntr = d.pntr := (C27_header d).2.1
    simp only [Inspection.run]
    rcases hh : d.popHeader with ⟨o, d'⟩
    rw [hh] at hpn
    simp only at hpn
    cases o with
    | ok h => obtain ⟨qs, g⟩ := ih (.ok h) d'; rw [hpn] at g; exact ⟨qs, g⟩
    | err e => obtain ⟨qs, g⟩ := ih (.err e) d'; rw [hpn] at g; exact ⟨qs, g⟩
    | panic => exact ⟨[], Nat.le_refl _, by simp, fun _ _ => rfl⟩
  | read κ next ih =>
    have hpn : (d.nextPayload κ.Ty).2.pntr = d.pntr := (C27_next (α := κ.Ty) d).2.1
    simp only [Inspection.run]
    rcases hh : d.nextPayload κ.Ty with ⟨o, d'⟩
    rw [hh] at hpn
    simp only at hpn
    cases o with
    | ok h => obtain ⟨qs, g⟩ := ih (.ok h) d'; rw [hpn] at g; exact ⟨qs, g⟩
    | err e => obtain ⟨qs, g⟩ := ih (.err e) d'; rw [hpn] at g; exact ⟨qs, g⟩
    | panic => exact ⟨[], Nat.le_refl _, by simp, fun _ _ => rfl⟩
  | verify next ih =>
    have hpn := (C27_next (α := BinMemberAuthenticationPayload) d).2.1
    simp only [Inspection.run]
    rcases hn : d.nextPayload BinMemberAuthenticationPayload with ⟨o, d'⟩
    rw [hn] at hpn
    simp only at hpn
    have hv : ∀ R, d.verify R = match o with
        | .ok auth => d'.verifyWith R auth.publicKeyBin
        | .err _ => (.ok false, d')
        | .panic => (.panic, d') := by
      intro R
      simp only [PacketDeserializer.verify, hn]
      cases o <;> rfl
    by_cases hpan : (d.verify R).1 = .panic
    · refine step _ (fun R => d.verify R) next d [] rfl (by simp) (by simp) (by rw [hpan]; simp) ?_ ih
      intro R' _
      by_cases hok : (d.nextPayload BinMemberAuthenticationPayload).1.isOk = false ∨ d.pntr.bytes.length < 64
      · exact ((C98 d).2 hok R' R).1
      · simp only [hn, not_or, Nat.not_lt] at hok
        cases o with
        | ok auth => rw [(C98 d).1 auth d' hn hok.2 R] at hpan; cases hpan
        | err e => simp [Outcome.isOk] at hok
        | panic => simp [Outcome.isOk] at hok
    · cases o with
      | ok auth =>
        have hpan' : (d'.verifyWith R auth.publicKeyBin).1 ≠ .panic := by rw [hv] at hpan; exact hpan
        obtain ⟨q, q1, q2, q3, q4⟩ := hw auth.publicKeyBin d' hpan'
        rw [hpn] at q1 q3
        refine step _ (fun R => d.verify R) next d [q] rfl (by simp) (by simpa using ⟨q1, q2⟩) ?_ ?_ ih
        · intro b _; rw [hv]; exact q3
        · intro R' ha
          simp only [hv]
          exact q4 R' (ha q (by simp))
      | err e =>
        refine step _ (fun R => d.verify R) next d [] rfl (by simp) (by simp) ?_ ?_ ih
        · intro b _; rw [hv]; simp only [hpn]; exact List.prefix_refl _
        · intro R' _; simp only [hv]
      | panic => rw [hv] at hpan; exact absurd rfl hpan
  | verifyWith key next ih =>
    simp only [Inspection.run]
    by_cases hpan : (d.verifyWith R key).1 = .panic
    · refine step _ (fun R => d.verifyWith R key) next d [] rfl (by simp) (by simp) (by rw [hpan]; simp) ?_ ih
      intro R' _
      rcases Nat.lt_or_ge d.pntr.bytes.length 64 with h' | h'
      · simp only [(C98_with d key).2 h']
      · rw [(C98_with d key).1 h' R] at hpan; cases hpan
    · obtain ⟨q, q1, q2, q3, q4⟩ := hw key d hpan
      refine step _ (fun R => d.verifyWith R key) next d [q] rfl (by simp) (by simpa using ⟨q1, q2⟩) ?_ ?_ ih
      · intro b _; exact q3
      · intro R' ha; exact q4 R' (ha q (by simp))

/-- **C98, Python.**  The same of the binding: what `verify_signature` returns besides the answer does not depend on
it. -/
theorem C98_python (R R' : Ring) (auth data : Bytes) :
    (∃ b b' rest, borrowedVerifySignature R auth data = .ok (b, rest) ∧
      borrowedVerifySignature R' auth data = .ok (b', rest)) ∨
    (borrowedVerifySignature R auth data = borrowedVerifySignature R' auth data) := by
  have hv : ∀ d : PacketDeserializer, (∃ b b' d', d.verify R = (.ok b, d') ∧ d.verify R' = (.ok b', d')) ∨
      d.verify R = d.verify R' := by
    intro d
    by_cases hok : (d.nextPayload BinMemberAuthenticationPayload).1.isOk = false ∨ d.pntr.bytes.length < 64
    · exact .inr ((C98 d).2 hok R R').1
    · simp only [not_or, Nat.not_lt] at hok
      rcases hn : d.nextPayload BinMemberAuthenticationPayload with ⟨o, d'⟩
      cases o with
      | ok auth => exact .inl ⟨_, _, _, (C98 d).1 auth d' hn hok.2 R, (C98 d).1 auth d' hn hok.2 R'⟩
      | err e => simp [hn, Outcome.isOk] at hok
      | panic => simp [hn, Outcome.isOk] at hok
  simp only [borrowedVerifySignature]
  cases (Packet.mk data).startDeserialize.skipHeader with
  | ok de =>
    simp only [PyOutcome.orRaise]
    rcases hv de with ⟨b, b', d', h1, h2⟩ | h
    · rw [h1, h2]
      simp only
      cases sliceFrom d'.pntr.bytes d'.index with
      | ok rest => exact .inl ⟨b, b', rest, rfl, rfl⟩
      | err e => exact .inr rfl
      | panic => exact .inr rfl
    · rw [h]; exact .inr rfl
  | err e => exact .inr rfl
  | panic => exact .inr rfl

/-! ## Concrete cases -/

/-- A library that accepts nothing. -/
def strictRing : Ring := { toyRing with verify := fun _ _ _ => false }

/-- Two libraries that differ about the signed message of `Props/Authentic.lean`: the one calls it genuine, the other
forged; the reader is in the same state, and the payload is read all the same. -/
example :
    let d := (Packet.startDeserialize exampleSigned).popHeader.2
    (d.verify toyRing).1 = .ok true ∧ (d.verify strictRing).1 = .ok false ∧
    (d.verify toyRing).2 = (d.verify strictRing).2 ∧
    ((d.verify strictRing).2.nextPayload TimeDistributionPayload).1 = .ok ⟨3⟩ := by decide +kernel

/-- A receiver that reads a payload only if the signature is valid asks one question, and it matters. -/
example :
    let i : Inspection (Option TimeDistributionPayload) := .header fun _ => .verify fun b =>
      if b then .read .time fun o => .done (match o with | .ok t => some t | _ => none) else .done none
    i.run toyRing (Packet.startDeserialize exampleSigned) = (.ok (some ⟨3⟩), 1) ∧
    i.run strictRing (Packet.startDeserialize exampleSigned) = (.ok none, 1) := by decide +kernel

end Ipv8
