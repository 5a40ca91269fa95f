import Verif.Props.Crypto
import Verif.Props.Network
/-!
# C75: signed messages that do not fit the receive buffer
-/

namespace Ipv8
open PacketDeserializer Spec

/-- C75. A datagram longer than the receive buffer is handed over cut off.  If what is handed over is no
forgery under `pk` (should it end in a valid signature, then of something in `Signed`), it verifies under
`pk` only if the holder of `pk` signed exactly what is left of it; with a buffer of less than 64 bytes,
never.  `verify` and `verify_with` alike, with the cursor anywhere. -/
theorem C75 (R : Ring) (pk : Ed25519PublicKey) (Signed : Bytes → Prop) (l : Listener)
    (queued : List Datagram) (ls : List Label) (s : NetState)
    (h : l.run (l.init queued) ls = some s) (i : Nat) (p : Packet) (a : Address) (d : Datagram)
    (hd : (queued ++ arrivals ls)[i]? = some d) (hbig : l.buffersize < d.bytes.length)
    (hi : (takenIn s.trace)[i]? = some (p, a))
    (hunf : ∀ m sig, p.bytes = m ++ sig → sig.length = 64 → R.verify pk.1 m sig = true → Signed m)
    (index : Nat) (haccept : (verifyWith R ⟨p, index⟩ pk).1 = .ok true ∨
      ∃ auth d', nextPayload BinMemberAuthenticationPayload ⟨p, index⟩ = (.ok auth, d') ∧
        auth.publicKeyBin = pk ∧ ((PacketDeserializer.mk p index).verify R).1 = .ok true) :
    64 ≤ l.buffersize ∧ Signed (d.bytes.take (l.buffersize - 64)) := by
  obtain ⟨d2, e1, -, -, e4⟩ := C45 l queued ls s h i p a hi
  rw [hd] at e1
  cases e1
  obtain ⟨hl, hp⟩ := e4 hbig
  have hp := List.prefix_iff_eq_take.mp hp
  have he : EndsInSignature R pk p.bytes := by
    rcases haccept with h1 | ⟨auth, d', h1, h2, h3⟩
    · exact (C33 R _ pk).mp h1
    · obtain ⟨auth', d'', h4, h5⟩ := (C33_verify R _).mp h3
      rw [h1] at h4
      cases h4
      exact h2 ▸ h5
  obtain ⟨m, sig, e, e2, e3⟩ := he
  have hlen : m.length + 64 = l.buffersize := by
    have := congrArg List.length e
    rw [List.length_append, e2, hl] at this
    omega
  refine ⟨by omega, ?_⟩
  have hm : m = d.bytes.take (l.buffersize - 64) := by
    have h1 : m = p.bytes.take m.length := by rw [e]; simp
    rw [h1, hp, List.take_take]
    congr 1
    omega
  exact hm ▸ hunf m sig e e2 e3

/-- C75, for a message of which only the whole was signed: no proper part of the signed packet verifies. -/
theorem C75_part (R : Ring) (hR : R.Correct) (kp : KeyPair R) (pk : Ed25519PublicKey) (q sg : Packet)
    (hs : q.sign kp = .ok sg) (n : Nat) (hn : n < sg.bytes.length)
    (hunf : ∀ m sig, sg.bytes.take n = m ++ sig → sig.length = 64 → R.verify pk.1 m sig = true →
      m = q.bytes) (index : Nat) :
    (verifyWith R ⟨⟨sg.bytes.take n⟩, index⟩ pk).1 ≠ .ok true := by
  intro h
  obtain ⟨m, sig, e, e2, e3⟩ := (C33 R _ pk).mp h
  have hm := hunf m sig e e2 e3
  have h1 := (C30 R hR kp q)
  rw [hs] at h1
  have h2 := congrArg (List.length ∘ Packet.bytes) (Outcome.ok.inj h1.1)
  have h3 := congrArg List.length e
  simp only [Function.comp, List.length_append, List.length_take] at h2 h3
  rw [h1.2] at h2
  rw [e2, hm] at h3
  omega

/-- A message signed in the toy scheme. -/
def exampleWhole : Bytes := [1, 2] ++ toyRing.sign (FixedBytes.replicate 32 9) [1, 2]

/-- The hypotheses of `C75` can be met, and then the conclusion is not empty: a buffer of 66 bytes cuts a
datagram of 67 bytes down to a message that was signed, and it is accepted. -/
example : ∃ s, (Listener.mk [] 66).run (Listener.init ⟨[], 66⟩ [])
      [.arrive ⟨exampleWhole ++ [7], .v4 1 2 3 4 5⟩, .pollEvent, .recv] = some s ∧
    66 < (exampleWhole ++ [7]).length ∧
    (takenIn s.trace)[0]? = some (⟨exampleWhole⟩, ⟨.v4 1 2 3 4 5⟩) ∧
    (verifyWith toyRing ⟨⟨exampleWhole⟩, 0⟩ (FixedBytes.replicate 32 9)).1 = .ok true :=
  ⟨_, rfl, by decide +kernel, by decide +kernel, by decide +kernel⟩

/-- The hypothesis of `C75_part` holds for that message cut to 65 bytes. -/
example : ∀ m sig, exampleWhole.take 65 = m ++ sig → sig.length = 64 →
    toyRing.verify (FixedBytes.replicate 32 9).1 m sig = true → m = [1, 2] := by
  intro m sig e hl hv
  have h1 : exampleWhole.take 65 = [1] ++ (exampleWhole.drop 1).take 64 := by decide +kernel
  rw [h1] at e
  obtain ⟨rfl, rfl⟩ := List.append_inj' e (by rw [hl]; decide +kernel)
  revert hv
  decide +kernel

end Ipv8
