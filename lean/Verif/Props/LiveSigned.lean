import Verif.Props.LiveWorld
import Verif.Props.Authentic
/-!
# C91, signed messages: what is signed and repeated is called, verified and read
-/

namespace Ipv8
open Spec

/-- **C91, signed messages.**  A message of a header, the sender's authentication payload and self-delimiting payloads,
signed and sent again and again to a node whose communities do not panic: the community with its mid is called with it
as often as you like; whenever it is, popping the header, `verify` and reading the payloads give the header, true and
exactly the payloads that were added. -/
theorem C91_signed (W : WorldLife) (n0 k : Nat) (host : Host) (hk : (W.state n0).hosts[k]? = some host)
    (cs : List Community) (size : Nat) (hnode : host.listener = node cs size)
    (hcs : ∀ c ∈ cs, ∀ h d a, c.onReceive h d a ≠ .panic) (hf : W.FairTo k) (hs : W.SmoothAt k)
    (R : Ring) (hR : R.Correct) (kp : KeyPair R) (pk : Ed25519PublicKey) (hpk : kp.publicKey = .ok pk)
    (mid : FixedBytes 20) (t : UInt8) (enc : FixedBytes 32) (vs : List AnyPayload)
    (hsd : ∀ x ∈ vs, x.1.SelfDelimiting) (hfit : ∀ x ∈ vs, x.1.Fits x.2) (p q message : Packet)
    (hp : Packet.new (Header.pyIpv8Header mid t) = .ok p)
    (hq : addAll p (⟨.auth, BinMemberAuthenticationPayload.mk pk enc⟩ :: vs) = .ok q)
    (hsig : q.sign kp = .ok message) (hl : message.bytes.length ≤ usizeMax)
    (ht : reserved t = false) (hsize : message.bytes.length ≤ size)
    (c : Community) (hc : lastWith mid.1 cs = some c)
    (sender : SocketAddr) (hrep : W.Repeats sender host.address message)
    (hnet : W.FairLossy host.address ⟨message.bytes, sender⟩) :
    ∃ call : Call, call.community = c.id ∧ call.header = Header.pyIpv8Header mid t ∧ call.address = ⟨sender⟩ ∧
      (∀ n, ∃ m s, n0 ≤ m ∧ (W.state m).hosts[k]? = some ⟨host.address, host.listener, s⟩ ∧
        n ≤ (host.listener.communityCalls s.trace).count call) ∧
      ∃ d d', call.deserializer.popHeader = (.ok (Header.pyIpv8Header mid t), d) ∧ d.verify R = (.ok true, d') ∧
        readAll d' (vs.map (·.1)) = .ok (vs, ⟨q, q.bytes.length⟩) := by
  obtain ⟨d, d', h1, h2, h3⟩ := C32 R hR kp pk hpk mid t enc vs hsd hfit p q message hp hq hsig hl
  have hh : HasHeader message mid.1 t := by
    rw [C10_wire] at hp
    cases hp
    obtain ⟨w, hw⟩ := addAll_prefix hq
    rw [(C30 R hR kp q).1] at hsig
    cases hsig
    exact ⟨mid.2, w ++ R.sign kp.key q.bytes, by simp [hw]⟩
  exact ⟨⟨c.id, Header.pyIpv8Header mid t, ⟨message, 0⟩, ⟨sender⟩⟩, rfl, rfl, rfl,
    fun n => C91_community W n0 k host hk cs size hnode hcs hf hs sender message hrep hnet mid t hh ht hsize c hc n,
    d, d', h1, h2, h3⟩

/-- The hypotheses of `C91_signed` can be met: with the toy signature scheme, the signed message of `Props/Authentic.lean`, and a
network that never stops losing. -/
example : ∃ (W : WorldLife) (kp : KeyPair toyRing) (pk : Ed25519PublicKey) (p q : Packet) (v : TimeDistributionPayload),
    W.FairTo 0 ∧ W.SmoothAt 0 ∧ W.Repeats (.v4 1 2 3 4 5) (.v4 9 9 9 9 9) exampleSigned ∧
    W.FairLossy (.v4 9 9 9 9 9) ⟨exampleSigned.bytes, .v4 1 2 3 4 5⟩ ∧
    (∃ s, (W.state 1).hosts[0]? = some ⟨.v4 9 9 9 9 9, node exampleNode 2048, s⟩) ∧ kp.publicKey = .ok pk ∧
    Packet.new (Header.pyIpv8Header (FixedBytes.replicate 20 8) 246) = .ok p ∧
    addAll p [⟨.auth, BinMemberAuthenticationPayload.mk pk (FixedBytes.replicate 32 2)⟩, ⟨.time, v⟩] = .ok q ∧
    q.sign kp = .ok exampleSigned := by
  obtain ⟨h1, h2, h3, h4, -⟩ :=
    lossyLife_hypotheses (.v4 9 9 9 9 9) (node exampleNode 2048) rfl ⟨exampleSigned.bytes, .v4 1 2 3 4 5⟩
  exact ⟨_, ⟨FixedBytes.replicate 32 9⟩, FixedBytes.replicate 32 9, ⟨Spec.header (List.replicate 20 8) 246⟩, ⟨exampleBody⟩, ⟨3⟩, h1, h2, h3, h4,
    ⟨_, rfl⟩, rfl, by decide +kernel, by decide +kernel, by decide +kernel⟩

end Ipv8
