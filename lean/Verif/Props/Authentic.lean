import Verif.Props.World
/-!
# C63: authenticity from sender to receiver
-/

namespace Ipv8
open PacketDeserializer Spec

/-- What a key holder signs: the contents of a message. -/
structure Message where
  mid : FixedBytes 20
  type : UInt8
  encryptionKey : FixedBytes 32
  payloads : List AnyPayload

/-- `b` is this message as the holder of `pk` builds it: header, authentication payload, payloads. -/
def Message.Body (m : Message) (pk : Ed25519PublicKey) (b : Bytes) : Prop :=
  ∃ p, Packet.new (Header.pyIpv8Header m.mid m.type) = .ok p ∧
    addAll p (⟨.auth, BinMemberAuthenticationPayload.mk pk m.encryptionKey⟩ :: m.payloads) = .ok ⟨b⟩

/-- Payload lists that determine where each payload ends: all self-delimiting, but for the last one, which
may extend to the end of the message. -/
def Delimited (vs : List AnyPayload) : Prop :=
  (∀ x ∈ vs, x.1.Fits x.2) ∧
  ((∀ x ∈ vs, x.1.SelfDelimiting) ∨
    ∃ front last, vs = front ++ [last] ∧ (∀ x ∈ front, x.1.SelfDelimiting) ∧ last.1.CanBeLast last.2)

/-- The message follows the protocol: its payloads have the types that `types` gives for its mid and message
type. -/
def Message.Conforms (m : Message) (types : Bytes → UInt8 → List Kind) : Prop :=
  m.payloads.map (·.1) = types m.mid.1 m.type ∧ Delimited m.payloads

/-- The packet is no forgery under `pk`: if it ends in a valid signature, then of a message in `Signed`. -/
def NotForged (R : Ring) (pk : Ed25519PublicKey) (Signed : Message → Prop) (packet : Bytes) : Prop :=
  ∀ b sig, packet = b ++ sig → sig.length = 64 → R.verify pk.1 b sig = true →
    ∃ m, Signed m ∧ m.Body pk b

theorem signed_reads (R : Ring) (pk : Ed25519PublicKey) (m : Message) (hd : Delimited m.payloads)
    (b : Bytes) (hb : m.Body pk b) (sig : Bytes) (hsig : sig.length = 64)
    (hv : R.verify pk.1 b sig = true) (hl : (b ++ sig).length ≤ usizeMax) :
    popHeader ⟨⟨b ++ sig⟩, 0⟩ = (.ok (Header.pyIpv8Header m.mid m.type), ⟨⟨b ++ sig⟩, 23⟩) ∧
    nextPayload BinMemberAuthenticationPayload ⟨⟨b ++ sig⟩, 23⟩ =
      (.ok ⟨pk, m.encryptionKey⟩, ⟨⟨b ++ sig⟩, 99⟩) ∧
    PacketDeserializer.verify R ⟨⟨b ++ sig⟩, 23⟩ = (.ok true, ⟨⟨b⟩, 99⟩) ∧
    readAll ⟨⟨b⟩, 99⟩ (m.payloads.map (·.1)) = .ok (m.payloads, ⟨⟨b⟩, b.length⟩) := by
  obtain ⟨p, hp, hq⟩ := hb
  have hlb : b.length ≤ usizeMax := by simp at hl; omega
  have hread : ∃ d, (Packet.mk b).startDeserialize.popHeader =
      (.ok (Header.pyIpv8Header m.mid m.type), d) ∧
      readAll d ((⟨.auth, BinMemberAuthenticationPayload.mk pk m.encryptionKey⟩ :: m.payloads).map (·.1)) =
        .ok (⟨.auth, BinMemberAuthenticationPayload.mk pk m.encryptionKey⟩ :: m.payloads,
          ⟨⟨b⟩, b.length⟩) := by
    obtain ⟨hf, hsd | ⟨front, last, e, hsd, hlast⟩⟩ := hd
    · exact C24 m.mid m.type _ (by simpa [Kind.SelfDelimiting] using hsd)
        (by simpa [Kind.Fits] using hf) p ⟨b⟩ hp hq hlb
    · rw [e] at hq hf ⊢
      exact C24_last m.mid m.type (⟨.auth, BinMemberAuthenticationPayload.mk pk m.encryptionKey⟩ :: front)
        last (by simpa [Kind.SelfDelimiting] using hsd)
        (by
          intro x hx
          rcases List.mem_cons.mp hx with rfl | hx
          · simp [Kind.Fits]
          · exact hf x (by simp [hx])) hlast (hf last (by simp)) p ⟨b⟩ hp hq hlb
  obtain ⟨d, h1, h2⟩ := hread
  rw [C10_wire] at hp
  cases hp
  obtain ⟨w, hw⟩ := addAll_prefix hq
  have hn := auth_after_header m.mid m.type _ _ ⟨b⟩ hq sig hl
  have hn0 := auth_after_header m.mid m.type _ _ ⟨b⟩ hq [] (by simpa using hlb)
  have hpop := (C10_read m.mid m.type [] w).2.1
  have hpops := (C10_read m.mid m.type [] (w ++ sig)).2.1
  simp only at hw
  simp only [List.nil_append, List.length_nil, Nat.zero_add, ← List.append_assoc, ← hw] at hpop hpops
  have hd : d = ⟨⟨b⟩, 23⟩ := by
    have : (Packet.mk b).startDeserialize.popHeader =
      (.ok (Header.pyIpv8Header m.mid m.type), ⟨⟨b⟩, 23⟩) := hpop
    rw [h1] at this
    exact (Prod.mk.inj this).2
  subst hd
  refine ⟨hpops, hn, ?_, ?_⟩
  · unfold PacketDeserializer.verify
    rw [hn]
    simp only [verifyWith_append R b sig 99 pk hsig, hv]
  · rw [List.append_nil] at hn0
    exact readAll_cons h2 hn0

/-- **C63, authenticity.**  Parties agree on the payload types of each message (`types`), and the holder of
`pk` signs only messages that follow that.  A receiver of any packet that is not a forgery pops the header,
finds the key `pk` in the authentication payload, and `verify` answers true.  Then the holder of `pk` has
signed a message with exactly that header, that authentication payload, and the payloads that the receiver
reads when it goes on with the types agreed for that header; it reads them to the end. -/
theorem C63 (R : Ring) (pk : Ed25519PublicKey) (types : Bytes → UInt8 → List Kind)
    (Signed : Message → Prop) (hconf : ∀ m, Signed m → m.Conforms types)
    (packet : Packet) (hl : packet.bytes.length ≤ usizeMax) (hunf : NotForged R pk Signed packet.bytes)
    (header : Header) (d d' d'' : PacketDeserializer)
    (hpop : packet.startDeserialize.popHeader = (.ok header, d))
    (a : BinMemberAuthenticationPayload)
    (hauth : d.nextPayload BinMemberAuthenticationPayload = (.ok a, d''))
    (hkey : a.publicKeyBin = pk) (hver : d.verify R = (.ok true, d')) :
    ∃ m, Signed m ∧ header = Header.pyIpv8Header m.mid m.type ∧ a = ⟨pk, m.encryptionKey⟩ ∧
      readAll d' (types m.mid.1 m.type) = .ok (m.payloads, ⟨d'.pntr, d'.pntr.bytes.length⟩) := by
  have hv : (d.verify R).1 = .ok true := by rw [hver]
  obtain ⟨a', d3, h1, b, sig, h2, h3, h4⟩ := (C33_verify R d).mp hv
  rw [hauth] at h1
  simp only [Prod.mk.injEq, Outcome.ok.injEq] at h1
  rw [← h1.1, hkey] at h4
  have hsame : d.pntr = packet := by
    have := (C27_header packet.startDeserialize).2.1
    rw [hpop] at this
    exact this
  rw [hsame] at h2
  obtain ⟨m, hm, hbody⟩ := hunf b sig h2 h3 h4
  obtain ⟨hty, hdel⟩ := hconf m hm
  obtain ⟨g1, g2, g3, g4⟩ := signed_reads R pk m hdel b hbody sig h3 h4 (h2 ▸ hl)
  have hpk : packet = ⟨b ++ sig⟩ := by cases packet; simp_all
  subst hpk
  have hpop' : popHeader ⟨⟨b ++ sig⟩, 0⟩ = (.ok header, d) := hpop
  rw [g1] at hpop'
  simp only [Prod.mk.injEq, Outcome.ok.injEq] at hpop'
  obtain ⟨e1, e2⟩ := hpop'
  subst e2
  rw [g2] at hauth
  rw [g3] at hver
  simp only [Prod.mk.injEq, Outcome.ok.injEq, true_and] at hauth hver
  refine ⟨m, hm, e1.symm, hauth.1.symm, ?_⟩
  rw [← hty, ← hver]
  exact g4

/-- **C63, in a network.**  The same for a community of a node in a network with arbitrary foreign traffic,
loss, duplication and reordering: if it is called, and the deserializer it got pops its header and verifies
under `pk`, and none of the datagrams sent to the node is (cut to the buffer) a forgery, then the holder of
`pk` has signed a message with the mid under which this community is registered, with the message type of
the call, and with the payloads the community reads.  In particular a message signed for one community
is never accepted by another. -/
theorem C63_network (R : Ring) (pk : Ed25519PublicKey) (types : Bytes → UInt8 → List Kind)
    (Signed : Message → Prop) (hconf : ∀ m, Signed m → m.Conforms types)
    (ls : List WLabel) (w : World) (h : World.init.run ls = some w) (k : Nat)
    (host : Host) (hk : w.hosts[k]? = some host) (cs : List Community) (n : Nat) (hn : n ≤ usizeMax)
    (hnode : host.listener = node cs n)
    (hforg : ∀ d ∈ sentTo host.address ls, NotForged R pk Signed (d.bytes.take n)) (call : Call)
    (hc : call ∈ host.listener.communityCalls host.state.trace)
    (header : Header) (d d' d'' : PacketDeserializer)
    (hpop : call.deserializer.popHeader = (.ok header, d))
    (a : BinMemberAuthenticationPayload)
    (hauth : d.nextPayload BinMemberAuthenticationPayload = (.ok a, d''))
    (hkey : a.publicKeyBin = pk) (hver : d.verify R = (.ok true, d')) :
    ∃ m c, Signed m ∧ lastWith m.mid.1 cs = some c ∧ call.community = c.id ∧ reserved m.type = false ∧
      call.header = Header.pyIpv8Header m.mid m.type ∧ header = call.header ∧
      readAll d' (types m.mid.1 m.type) = .ok (m.payloads, ⟨d'.pntr, d'.pntr.bytes.length⟩) := by
  obtain ⟨dg, hdg, mid, t, c, hh, hres, hl, hid, hdes, -, hhead⟩ :=
    C62_community ls w h k host hk cs n hnode call hc
  rw [hdes] at hpop
  have hlen : (dg.bytes.take n).length ≤ usizeMax := by rw [List.length_take]; omega
  obtain ⟨m, hm, e1, -, e3⟩ := C63 R pk types Signed hconf ⟨dg.bytes.take n⟩ hlen (hforg dg hdg) header d
    d' d'' hpop a hauth hkey hver
  have hpeek := (C27_header ⟨⟨dg.bytes.take n⟩, 0⟩).2.2
  have := peek_of_hasHeader hh
  rw [hpop] at hpeek
  have he : header = Header.ofMid mid t := by
    have h2 : (Packet.mk (dg.bytes.take n)).startDeserialize.peekHeader = .ok header := hpeek.symm
    rw [this] at h2
    simp only [Outcome.ok.injEq] at h2
    exact h2.symm
  rw [e1] at he
  have hmid : m.mid.1 = mid := by
    have := congrArg Header.midHash he
    simpa [Header.pyIpv8Header, Header.ofMid] using this
  have hty : m.type = t := by
    have := congrArg Header.messageType he
    simp only [Header.pyIpv8Header, Header.ofMid, Option.some.injEq] at this
    exact UInt8.toNat_inj.mp (by simpa using congrArg UInt64.toNat this)
  refine ⟨m, c, hm, hmid ▸ hl, hid, hty ▸ hres, ?_, ?_, e3⟩
  · rw [hhead, ← he]
  · rw [hhead, e1, he]

/-! ## A concrete case -/

/-- A message with one payload. -/
def exampleAuthentic : Message :=
  ⟨FixedBytes.replicate 20 8, 246, FixedBytes.replicate 32 2, [⟨.time, TimeDistributionPayload.mk 3⟩]⟩

/-- Its bytes. -/
def exampleBody : Bytes :=
  Spec.header (List.replicate 20 8) 246 ++
    authentication ⟨FixedBytes.replicate 32 9, FixedBytes.replicate 32 2⟩ ++ [0, 0, 0, 0, 0, 0, 0, 3]

/-- The packet: the bytes and their signature in the toy scheme. -/
def exampleSigned : Packet := ⟨exampleBody ++ toyRing.sign (FixedBytes.replicate 32 9) exampleBody⟩

theorem exampleAuthentic_body : exampleAuthentic.Body (FixedBytes.replicate 32 9) exampleBody :=
  ⟨⟨Spec.header (List.replicate 20 8) 246⟩, by decide +kernel, by decide +kernel⟩

/-- It follows the protocol in which message 246 carries a time. -/
example : exampleAuthentic.Conforms (fun _ t => if t = 246 then [.time] else []) :=
  ⟨rfl, by simp [exampleAuthentic, Kind.Fits], .inl (by simp [exampleAuthentic, Kind.SelfDelimiting])⟩

/-- The packet is no forgery if that message was signed. -/
example : NotForged toyRing (FixedBytes.replicate 32 9) (· = exampleAuthentic) exampleSigned.bytes := by
  intro b sig e hl _
  have hlen : (toyRing.sign (FixedBytes.replicate 32 9) exampleBody).length = 64 := by decide +kernel
  have := List.append_inj_left' (s₁ := exampleBody) (s₂ := b) e (by rw [hlen, hl])
  exact ⟨_, rfl, this ▸ exampleAuthentic_body⟩

/-- And it is accepted. -/
example : (exampleSigned.startDeserialize.popHeader).1 = .ok (Header.pyIpv8Header (FixedBytes.replicate 20 8) 246) ∧
    ((exampleSigned.startDeserialize.popHeader).2.nextPayload BinMemberAuthenticationPayload).1 =
      .ok ⟨FixedBytes.replicate 32 9, FixedBytes.replicate 32 2⟩ ∧
    ((exampleSigned.startDeserialize.popHeader).2.verify toyRing).1 = .ok true := by
  decide +kernel

/-- A node receives it twice, together with a changed copy. -/
def exampleNetwork : List WLabel :=
  let here : SocketAddr := .v4 9 9 9 9 9
  [.boot here (node exampleNode 2048),
   .send (.v4 1 2 3 4 5) ⟨here⟩ exampleSigned (.ok exampleSigned.bytes.length),
   .inject here ⟨0 :: exampleSigned.bytes, .v4 6 6 6 6 6⟩,
   .duplicate 0, .deliver 2 0, .deliver 1 0, .lose 0,
   .at 0 .pollEvent, .at 0 .recv, .at 0 (.start 0), .at 0 (.finish 0), .at 0 .join]

example : ((World.init.run exampleNetwork).map fun w => w.hosts.map fun h =>
    (h.listener.communityCalls h.state.trace).map (·.community)) = some [[2]] := by
  decide +kernel

/-! ## Cases for the theorems above -/

theorem exampleAuthentic_conforms : exampleAuthentic.Conforms (fun _ t => if t = 246 then [.time] else []) :=
  ⟨rfl, by simp [exampleAuthentic, Kind.Fits], .inl (by simp [exampleAuthentic, Kind.SelfDelimiting])⟩

theorem exampleAuthentic_notForged : NotForged toyRing (FixedBytes.replicate 32 9) (· = exampleAuthentic) exampleSigned.bytes := by
  intro b sig e hl _
  have hlen : (toyRing.sign (FixedBytes.replicate 32 9) exampleBody).length = 64 := by decide +kernel
  have := List.append_inj_left' (s₁ := exampleBody) (s₂ := b) e (by rw [hlen, hl])
  exact ⟨_, rfl, this ▸ exampleAuthentic_body⟩

/-- `C63`: the packet above. -/
example := C63 toyRing (FixedBytes.replicate 32 9) (fun _ t => if t = 246 then [.time] else []) (· = exampleAuthentic)
  (by rintro _ rfl; exact exampleAuthentic_conforms) exampleSigned (by decide +kernel) exampleAuthentic_notForged
  (Header.pyIpv8Header (FixedBytes.replicate 20 8) 246) ⟨exampleSigned, 23⟩ ⟨⟨exampleBody⟩, 99⟩ ⟨exampleSigned, 99⟩ (by decide +kernel)
  ⟨FixedBytes.replicate 32 9, FixedBytes.replicate 32 2⟩ (by decide +kernel) rfl (by decide +kernel)

/-- `C63_network`: the call in `exampleNetwork`. The changed copy is no forgery either: its signature is wrong. -/
example (w : World) (h : World.init.run exampleNetwork = some w) (host : Host) (hk : w.hosts[0]? = some host) (call : Call)
    (hc : call ∈ host.listener.communityCalls host.state.trace) (hd : call.deserializer = exampleSigned.startDeserialize)
    (hh : host.address = .v4 9 9 9 9 9 ∧ host.listener = node exampleNode 2048) :=
  C63_network toyRing (FixedBytes.replicate 32 9) (fun _ t => if t = 246 then [.time] else []) (· = exampleAuthentic)
    (by rintro _ rfl; exact exampleAuthentic_conforms) exampleNetwork w h 0 host hk exampleNode 2048 (by decide) hh.2
    (by
      rw [hh.1]
      have : sentTo (.v4 9 9 9 9 9) exampleNetwork =
        [⟨exampleSigned.bytes, .v4 1 2 3 4 5⟩, ⟨0 :: exampleSigned.bytes, .v4 6 6 6 6 6⟩] := by decide +kernel
      rw [this]
      intro d hd
      simp only [List.mem_cons, List.not_mem_nil, or_false] at hd
      rcases hd with rfl | rfl
      · rw [show (exampleSigned.bytes.take 2048) = exampleSigned.bytes by decide +kernel]
        exact exampleAuthentic_notForged
      · intro b sig e hl hv
        have h1 : (0 :: exampleSigned.bytes).take 2048 = (0 :: exampleBody) ++ toyRing.sign (FixedBytes.replicate 32 9) exampleBody := by
          decide +kernel
        have hlen : (toyRing.sign (FixedBytes.replicate 32 9) exampleBody).length = 64 := by decide +kernel
        rw [h1] at e
        obtain ⟨e1, e2⟩ := List.append_inj' e (by rw [hlen, hl])
        rw [← e1, ← e2] at hv
        exact absurd hv (by decide +kernel)) call hc
    (Header.pyIpv8Header (FixedBytes.replicate 20 8) 246) ⟨exampleSigned, 23⟩ ⟨⟨exampleBody⟩, 99⟩ ⟨exampleSigned, 99⟩
    (by rw [hd]; decide +kernel) ⟨FixedBytes.replicate 32 9, FixedBytes.replicate 32 2⟩ (by decide +kernel) rfl (by decide +kernel)

/-- `C62_community`: the same call. -/
example (w : World) (h : World.init.run exampleNetwork = some w) (host : Host) (hk : w.hosts[0]? = some host) (call : Call)
    (hc : call ∈ host.listener.communityCalls host.state.trace) (hh : host.listener = node exampleNode 2048) :=
  C62_community exampleNetwork w h 0 host hk exampleNode 2048 hh call hc

end Ipv8
