import Verif.Props.Meaning
import Verif.Props.Relay
/-!
# C115: which packets read as the same message
-/

namespace Ipv8
open PacketDeserializer Spec

/-- A receiver pops this header from the packet and reads these payloads, and is then at `position`. -/
def PacketReads (packet : Bytes) (header : Header) (vs : List AnyPayload) (position : Nat) : Prop :=
  ∃ d, (Packet.startDeserialize ⟨packet⟩).popHeader = (.ok header, d) ∧
    readAll d (vs.map (·.1)) = .ok (vs, ⟨⟨packet⟩, position⟩)

/-- **C115.**  For all payload types but authentication and introduction: two packets in which a receiver reads
the same header and the same payloads agree byte for byte as far as it has read, which is equally far.  So
if it has read both to the end they are the same packet. -/
theorem C115 (packet packet' : Bytes) (hl : packet.length ≤ usizeMax) (hl' : packet'.length ≤ usizeMax)
    (header : Header) (vs : List AnyPayload) (hk : ∀ x ∈ vs, x.1.Faithful) (n n' : Nat)
    (h : PacketReads packet header vs n) (h' : PacketReads packet' header vs n') :
    packet.take n = packet'.take n' ∧ (n = packet.length → n' = packet'.length → packet = packet') := by
  obtain ⟨d, h1, h2⟩ := h
  obtain ⟨d', h1', h2'⟩ := h'
  have hf : ∀ k ∈ vs.map (·.1), k.Faithful := by
    intro k hm
    obtain ⟨x, hx, rfl⟩ := List.mem_map.mp hm
    exact hk x hx
  obtain ⟨p, hp, hq⟩ := C56_packet packet hl header d _ _ vs hf h1 h2
  obtain ⟨p', hp', hq'⟩ := C56_packet packet' hl' header d' _ _ vs hf h1' h2'
  rw [hp] at hp'
  cases hp'
  rw [hq] at hq'
  simp only [Outcome.ok.injEq, Packet.mk.injEq] at hq'
  refine ⟨hq', ?_⟩
  rintro rfl rfl
  simpa using hq'

/-- **C115, introduction requests.**  Two requests read the same exactly if they agree in all bytes but the flag
byte, and in the flag byte in bit 7 and in the connection type that bits 0 and 1 mean. -/
theorem C115_request (pre a b c i rest pre' a' b' c' i' rest' : Bytes) (f f' : UInt8)
    (ha : a.length = 6) (hb : b.length = 6) (hc : c.length = 6) (hi : i.length = 2)
    (ha' : a'.length = 6) (hb' : b'.length = 6) (hc' : c'.length = 6) (hi' : i'.length = 2)
    (hs : (pre ++ (a ++ b ++ c ++ [f] ++ i ++ rest)).length ≤ usizeMax)
    (hs' : (pre' ++ (a' ++ b' ++ c' ++ [f'] ++ i' ++ rest')).length ≤ usizeMax) :
    (nextPayload IntroductionRequestPayload
      ⟨⟨pre ++ (a ++ b ++ c ++ [f] ++ i ++ rest)⟩, pre.length⟩).1 =
    (nextPayload IntroductionRequestPayload
      ⟨⟨pre' ++ (a' ++ b' ++ c' ++ [f'] ++ i' ++ rest')⟩, pre'.length⟩).1 ↔
    (a, b, c, i, rest) = (a', b', c', i', rest') ∧ bit f 7 = bit f' 7 ∧
      connectionOf (bit f 0) (bit f 1) = connectionOf (bit f' 0) (bit f' 1) := by
  obtain ⟨v, hv, e1, e2, e3, e5, e6, e7, e8⟩ := C20_request_decode pre a b c i rest f ha hb hc hi hs
  obtain ⟨v', hv', e1', e2', e3', e5', e6', e7', e8'⟩ := C20_request_decode pre' a' b' c' i' rest' f' ha' hb' hc' hi' hs'
  constructor
  · intro h
    rw [hv, hv'] at h
    simp only [Outcome.ok.injEq] at h
    subst h
    simp only [Prod.mk.injEq]
    exact ⟨⟨e1.symm.trans e1', e2.symm.trans e2', e3.symm.trans e3', e7.symm.trans e7', e8.symm.trans e8'⟩,
      e5.symm.trans e5', e6.symm.trans e6'⟩
  · rintro ⟨h, h7, h01⟩
    simp only [Prod.mk.injEq] at h
    obtain ⟨rfl, rfl, rfl, rfl, rfl⟩ := h
    rw [hv, hv']
    have hr : rest.length ≤ usizeMax := by simp at hs; omega
    obtain ⟨w, hd, h4, g1, g2, g3, g5, g6, g7, g8⟩ := request_decode a b c i rest f ha hb hc hi hr
    obtain ⟨w', hd', h4', g1', g2', g3', g5', g6', g7', g8'⟩ := request_decode a b c i rest f' ha hb hc hi hr
    have hw : w = w' := by
      rw [C02_decode] at g6 g6'
      rw [h7] at g5
      rw [h01] at g6
      simp only [addressesIReq, List.mem_cons, List.not_mem_nil, or_false, forall_eq_or_imp,
        forall_eq] at h4 h4'
      rcases w with ⟨x, y, z, ad, t, j, r⟩
      rcases w' with ⟨x', y', z', ad', t', j', r'⟩
      simp only at *
      have hx := addressBytes_inj h4.1 h4'.1 (g1.trans g1'.symm)
      have hy := addressBytes_inj h4.2.1 h4'.2.1 (g2.trans g2'.symm)
      have hz := addressBytes_inj h4.2.2 h4'.2.2 (g3.trans g3'.symm)
      have hj : j = j' := by
        have := deU16_tok .big j []
        have h2 := deU16_tok .big j' []
        simp only [Tok.bytes, be16_eq, g7, g7'] at this h2
        simpa using this.symm.trans h2
      rcases r with ⟨r⟩
      rcases r' with ⟨r'⟩
      simp only at g8 g8'
      rw [hx, hy, hz, hj, g5, g5', g6, g6', g8, g8']
    subst hw
    have k : ∀ (pre : Bytes) (f : UInt8) (v : IntroductionRequestPayload),
        (nextPayload IntroductionRequestPayload ⟨⟨pre ++ (a ++ b ++ c ++ [f] ++ i ++ rest)⟩, pre.length⟩).1 = .ok v →
        (Deserialize.de .big : De IntroductionRequestPayload) (a ++ (b ++ (c ++ (f :: (i ++ rest))))) = .ok (w, []) →
        v = w := by
      intro pre f v h1 h2
      rw [nextPayload_inside (by simp)] at h1
      simp only [List.append_assoc, List.cons_append, List.nil_append, drop_pre, h2] at h1
      cases hz : Bincode.serializedSize w <;> simp [hz] at h1
      exact h1.symm
    rw [k pre f v (by rw [hv]) hd, k pre' f' v' (by rw [hv']) hd']

/-- **C115, introduction responses.**  The same, but bit 7 does not count. -/
theorem C115_response (pre a b c d g i rest pre' a' b' c' d' g' i' rest' : Bytes) (f f' : UInt8)
    (ha : a.length = 6) (hb : b.length = 6) (hc : c.length = 6) (hd : d.length = 6) (hg : g.length = 6)
    (hi : i.length = 2)
    (ha' : a'.length = 6) (hb' : b'.length = 6) (hc' : c'.length = 6) (hd' : d'.length = 6) (hg' : g'.length = 6)
    (hi' : i'.length = 2)
    (hs : (pre ++ (a ++ b ++ c ++ d ++ g ++ [f] ++ i ++ rest)).length ≤ usizeMax)
    (hs' : (pre' ++ (a' ++ b' ++ c' ++ d' ++ g' ++ [f'] ++ i' ++ rest')).length ≤ usizeMax) :
    (nextPayload IntroductionResponsePayload
      ⟨⟨pre ++ (a ++ b ++ c ++ d ++ g ++ [f] ++ i ++ rest)⟩, pre.length⟩).1 =
    (nextPayload IntroductionResponsePayload
      ⟨⟨pre' ++ (a' ++ b' ++ c' ++ d' ++ g' ++ [f'] ++ i' ++ rest')⟩, pre'.length⟩).1 ↔
    (a, b, c, d, g, i, rest) = (a', b', c', d', g', i', rest') ∧
      connectionOf (bit f 0) (bit f 1) = connectionOf (bit f' 0) (bit f' 1) := by
  obtain ⟨v, hv, e1, e2, e3, e4, e5, e5t, e6, e7, e8⟩ :=
    C20_response_decode pre a b c d g i rest f ha hb hc hd hg hi hs
  obtain ⟨v', hv', e1', e2', e3', e4', e5', e5t', e6', e7', e8'⟩ :=
    C20_response_decode pre' a' b' c' d' g' i' rest' f' ha' hb' hc' hd' hg' hi' hs'
  constructor
  · intro h
    rw [hv, hv'] at h
    simp only [Outcome.ok.injEq] at h
    subst h
    simp only [Prod.mk.injEq]
    exact ⟨⟨e1.symm.trans e1', e2.symm.trans e2', e3.symm.trans e3', e4.symm.trans e4', e5.symm.trans e5',
      e7.symm.trans e7', e8.symm.trans e8'⟩, e6.symm.trans e6'⟩
  · rintro ⟨h, h01⟩
    simp only [Prod.mk.injEq] at h
    obtain ⟨rfl, rfl, rfl, rfl, rfl, rfl, rfl⟩ := h
    rw [hv, hv']
    have hr : rest.length ≤ usizeMax := by simp at hs; omega
    obtain ⟨w, hd1, h4, g1, g2, g3, g4, g5, gt, g6, g7, g8⟩ := response_decode a b c d g i rest f ha hb hc hd hg hi hr
    obtain ⟨w', hd2, h4', g1', g2', g3', g4', g5', gt', g6', g7', g8'⟩ :=
      response_decode a b c d g i rest f' ha hb hc hd hg hi hr
    have hw : w = w' := by
      rw [C02_decode] at g6 g6'
      rw [h01] at g6
      simp only [addressesIResp, List.mem_cons, List.not_mem_nil, or_false, forall_eq_or_imp,
        forall_eq] at h4 h4'
      rcases w with ⟨x, y, z, u, q, ad, t, j, r⟩
      rcases w' with ⟨x', y', z', u', q', ad', t', j', r'⟩
      simp only at *
      have hx := addressBytes_inj h4.1 h4'.1 (g1.trans g1'.symm)
      have hy := addressBytes_inj h4.2.1 h4'.2.1 (g2.trans g2'.symm)
      have hz := addressBytes_inj h4.2.2.1 h4'.2.2.1 (g3.trans g3'.symm)
      have hu := addressBytes_inj h4.2.2.2.1 h4'.2.2.2.1 (g4.trans g4'.symm)
      have hq := addressBytes_inj h4.2.2.2.2 h4'.2.2.2.2 (g5.trans g5'.symm)
      have hj : j = j' := by
        have := deU16_tok .big j []
        have h2 := deU16_tok .big j' []
        simp only [Tok.bytes, be16_eq, g7, g7'] at this h2
        simpa using this.symm.trans h2
      rcases r with ⟨r⟩
      rcases r' with ⟨r'⟩
      simp only at g8 g8'
      rw [hx, hy, hz, hu, hq, hj, gt, gt', g6, g6', g8, g8']
    subst hw
    have k : ∀ (pre : Bytes) (f : UInt8) (v : IntroductionResponsePayload),
        (nextPayload IntroductionResponsePayload
          ⟨⟨pre ++ (a ++ b ++ c ++ d ++ g ++ [f] ++ i ++ rest)⟩, pre.length⟩).1 = .ok v →
        (Deserialize.de .big : De IntroductionResponsePayload)
          (a ++ (b ++ (c ++ (d ++ (g ++ (f :: (i ++ rest))))))) = .ok (w, []) → v = w := by
      intro pre f v h1 h2
      rw [nextPayload_inside (by simp)] at h1
      simp only [List.append_assoc, List.cons_append, List.nil_append, drop_pre, h2] at h1
      cases hz : Bincode.serializedSize w <;> simp [hz] at h1
      exact h1.symm
    rw [k pre f v (by rw [hv]) hd1, k pre' f' v' (by rw [hv']) hd2]

/-- **C115, authentication payloads.**  Two of them, with contents long enough to be read, read the same exactly
if the first 74 bytes of their contents are the same: the announced length and all bytes behind the 74th do not
count. -/
theorem C115_auth (pre c post pre' c' post' : Bytes) (hc : 74 ≤ c.length) (hc16 : c.length ≤ 0xffff)
    (hk : c.take 10 = keyPrefix) (hc' : 74 ≤ c'.length) (hc16' : c'.length ≤ 0xffff) (hk' : c'.take 10 = keyPrefix) :
    (nextPayload BinMemberAuthenticationPayload ⟨⟨pre ++ (be16 c.length ++ c ++ post)⟩, pre.length⟩).1 =
    (nextPayload BinMemberAuthenticationPayload ⟨⟨pre' ++ (be16 c'.length ++ c' ++ post')⟩, pre'.length⟩).1 ↔
    c.take 74 = c'.take 74 := by
  have key : ∀ pre c post : Bytes, 74 ≤ c.length → c.length ≤ 0xffff → c.take 10 = keyPrefix →
      ∃ v : BinMemberAuthenticationPayload, v.encryptionKeyBin.1 = (c.drop 10).take 32 ∧
        v.publicKeyBin.1 = (c.drop 42).take 32 ∧
        (nextPayload BinMemberAuthenticationPayload ⟨⟨pre ++ (be16 c.length ++ c ++ post)⟩, pre.length⟩).1 = .ok v := by
    intro pre c post h1 h2 h3
    have h := (C16 (pre ++ (be16 c.length ++ c ++ post)) pre.length (by simp)).2.2.2.2
    have hb : (be16 c.length).length = 2 := rfl
    have hn : fromBE (be16 c.length) = c.length := by
      rw [fromBE_eq, ← be16_eq, ofInt_intBytes]
      omega
    have htk : (be16 c.length ++ c ++ post).take 2 = be16 c.length := by
      rw [List.append_assoc, List.take_left' hb]
    have hdr : (be16 c.length ++ c ++ post).drop 2 = c ++ post := by
      rw [List.append_assoc, List.drop_left' hb]
    simp only [drop_pre, htk, hdr, hn, List.take_left'] at h
    obtain ⟨v, g1, g2, g3⟩ := h (by simp only [List.length_append, hb]; omega) h3 h1
    exact ⟨v, g1, g2, by rw [g3]⟩
  obtain ⟨v, g1, g2, g3⟩ := key pre c post hc hc16 hk
  obtain ⟨v', g1', g2', g3'⟩ := key pre' c' post' hc' hc16' hk'
  have split : ∀ l : Bytes, l.take 74 = l.take 10 ++ ((l.drop 10).take 32 ++ (l.drop 42).take 32) := by
    intro l
    rw [show 74 = 10 + (32 + 32) from rfl, List.take_add, List.take_add, List.drop_drop]
  have len : ∀ l : Bytes, 74 ≤ l.length → ((l.drop 10).take 32).length = 32 := by
    intro l h
    rw [List.length_take, List.length_drop]
    omega
  rw [g3, g3', split c, split c', hk, hk', ← g1, ← g2, ← g1', ← g2']
  constructor
  · intro h
    simp only [Outcome.ok.injEq] at h
    rw [h]
  · intro h
    have h2 := List.append_cancel_left h
    obtain ⟨h3, h4⟩ := List.append_inj h2 (by rw [g1, g1', len c hc, len c' hc'])
    cases v
    cases v'
    simp only at h3 h4
    rw [Subtype.ext h3, Subtype.ext h4]

/-- The receiver accepts the packet under `pk` as the message with this mid, type, authentication payload and
payloads: it pops the header, finds the key in the authentication payload, verifies, and reads the payloads. -/
def AcceptedAs (R : Ring) (pk : Ed25519PublicKey) (packet : Packet) (m : Message) : Prop :=
  ∃ d d' d'' e, packet.startDeserialize.popHeader = (.ok (Header.pyIpv8Header m.mid m.type), d) ∧
    d.nextPayload BinMemberAuthenticationPayload = (.ok ⟨pk, m.encryptionKey⟩, d'') ∧
    d.verify R = (.ok true, d') ∧
    readAll d' (m.payloads.map (·.1)) = .ok (m.payloads, e)

theorem accepted_body (R : Ring) (pk : Ed25519PublicKey) (types : Bytes → UInt8 → List Kind)
    (Signed : Message → Prop) (hconf : ∀ m, Signed m → m.Conforms types)
    (packet : Packet) (hl : packet.bytes.length ≤ usizeMax) (hunf : NotForged R pk Signed packet.bytes)
    (m : Message) (hty : m.payloads.map (·.1) = types m.mid.1 m.type) (h : AcceptedAs R pk packet m) :
    Signed m ∧ ∃ b sig, packet.bytes = b ++ sig ∧ sig.length = 64 ∧ m.Body pk b := by
  obtain ⟨d, d', d'', e, hpop, hauth, hver, hread⟩ := h
  have hv : (d.verify R).1 = .ok true := by rw [hver]
  obtain ⟨a', d3, h1, b, sig, h2, h3, h4⟩ := (C33_verify R d).mp hv
  rw [hauth] at h1
  simp only [Prod.mk.injEq, Outcome.ok.injEq] at h1
  rw [← h1.1] at h4
  have hsame : d.pntr = packet := by
    have := (C27_header packet.startDeserialize).2.1
    rw [hpop] at this
    exact this
  rw [hsame] at h2
  obtain ⟨m', hm, hbody⟩ := hunf b sig h2 h3 h4
  obtain ⟨hty', hdel⟩ := hconf m' hm
  obtain ⟨g1, g2, g3, g4⟩ := signed_reads R pk m' hdel b hbody sig h3 h4 (h2 ▸ hl)
  have hpk : packet = ⟨b ++ sig⟩ := by cases packet; simp_all
  subst hpk
  have hpop' : popHeader ⟨⟨b ++ sig⟩, 0⟩ = (.ok (Header.pyIpv8Header m.mid m.type), d) := hpop
  rw [g1] at hpop'
  simp only [Prod.mk.injEq, Outcome.ok.injEq] at hpop'
  obtain ⟨e1, e2⟩ := hpop'
  subst e2
  rw [g2] at hauth
  rw [g3] at hver
  simp only [Prod.mk.injEq, Outcome.ok.injEq, true_and, BinMemberAuthenticationPayload.mk.injEq] at hauth hver
  have hmid : m'.mid = m.mid := by
    have := congrArg Header.midHash e1
    simp only [Header.pyIpv8Header, Header.ofMid, Option.some.injEq] at this
    exact Subtype.ext this
  have htyp : m'.type = m.type := by
    have := congrArg Header.messageType e1
    simp only [Header.pyIpv8Header, Header.ofMid, Option.some.injEq] at this
    exact UInt8.toNat_inj.mp (by simpa using congrArg UInt64.toNat this)
  have hpay : m'.payloads = m.payloads := by
    rw [← hver, hty, ← hmid, ← htyp, ← hty', g4] at hread
    simp only [Outcome.ok.injEq, Prod.mk.injEq] at hread
    exact hread.1
  have hmm : m' = m := by
    cases m
    cases m'
    simp only at hmid htyp hpay hauth
    rw [hmid, htyp, hpay, hauth.1]
  subst hmm
  exact ⟨hm, b, sig, h2, h3, hbody⟩

/-- **C115, signed messages.**  The key holder signs only messages that follow the agreed types (introductions
included).  Two packets, neither of them a forgery, that a receiver accepts as the same message are equally long
and the same but for the last 64 bytes, the signature.  So packets are distinguished as well by what is read in
them as by their bytes: whoever keeps the messages it has had, to recognise a repeated one, can keep
either. -/
theorem C115_signed (R : Ring) (pk : Ed25519PublicKey) (types : Bytes → UInt8 → List Kind)
    (Signed : Message → Prop) (hconf : ∀ m, Signed m → m.Conforms types)
    (packet packet' : Packet) (hl : packet.bytes.length ≤ usizeMax) (hl' : packet'.bytes.length ≤ usizeMax)
    (hunf : NotForged R pk Signed packet.bytes) (hunf' : NotForged R pk Signed packet'.bytes)
    (m : Message) (hty : m.payloads.map (·.1) = types m.mid.1 m.type)
    (h : AcceptedAs R pk packet m) (h' : AcceptedAs R pk packet' m) :
    ∃ b sig sig', packet.bytes = b ++ sig ∧ packet'.bytes = b ++ sig' ∧ sig.length = 64 ∧ sig'.length = 64 := by
  obtain ⟨-, b, sig, e1, e2, p, hp, hq⟩ := accepted_body R pk types Signed hconf packet hl hunf m hty h
  obtain ⟨-, b', sig', e1', e2', p', hp', hq'⟩ := accepted_body R pk types Signed hconf packet' hl' hunf' m hty h'
  rw [hp] at hp'
  cases hp'
  rw [hq] at hq'
  simp only [Outcome.ok.injEq, Packet.mk.injEq] at hq'
  exact ⟨b, sig, sig', e1, hq' ▸ e1', e2, e2'⟩

/-- **C115, without signatures it is not so.**  Behind every header there are packets with an introduction request
that differ and read the same; anyone on the way can turn one into the other. -/
theorem C115_unsigned (mid : FixedBytes 20) (t : UInt8) :
    ∃ (packet packet' : Bytes) (v : IntroductionRequestPayload) (n : Nat), packet ≠ packet' ∧
      PacketReads packet (Header.pyIpv8Header mid t) [⟨.introRequest, v⟩] n ∧
      PacketReads packet' (Header.pyIpv8Header mid t) [⟨.introRequest, v⟩] n ∧
      n = packet.length ∧ n = packet'.length := by
  let z : Bytes := [0, 0, 0, 0, 0, 0]
  let body (f : UInt8) : Bytes := z ++ z ++ z ++ [f] ++ [0, 0] ++ []
  have hlen : ∀ f, (Spec.header mid.1 t ++ body f).length = 44 := by
    intro f
    rw [List.length_append, C10_length]
    rfl
  have hs : ∀ f, (Spec.header mid.1 t ++ body f).length ≤ usizeMax := by
    intro f
    rw [hlen]
    decide
  obtain ⟨v, hv, -⟩ := C20_request_decode (Spec.header mid.1 t) z z z [0, 0] [] 0 rfl rfl rfl rfl (hs 0)
  obtain ⟨v', hv', -⟩ := C20_request_decode (Spec.header mid.1 t) z z z [0, 0] [] 4 rfl rfl rfl rfl (hs 4)
  have hvv : v' = v := by
    have := C20_request_ignores_bits (Spec.header mid.1 t) z z z [0, 0] [] 0 4 rfl rfl rfl rfl (hs 0)
      (by decide) (by decide) (by decide)
    rw [hv, hv'] at this
    simp only [Outcome.ok.injEq] at this
    exact this.symm
  subst hvv
  have reads : ∀ f, nextPayload IntroductionRequestPayload
      ⟨⟨Spec.header mid.1 t ++ body f⟩, (Spec.header mid.1 t).length⟩ =
        (.ok v', ⟨⟨Spec.header mid.1 t ++ body f⟩, (Spec.header mid.1 t ++ body f).length⟩) →
      PacketReads (Spec.header mid.1 t ++ body f) (Header.pyIpv8Header mid t) [⟨.introRequest, v'⟩] 44 := by
    intro f h
    refine ⟨⟨⟨Spec.header mid.1 t ++ body f⟩, 23⟩, ?_, ?_⟩
    · have := (C10_read mid t [] (body f)).2.1
      simpa [Packet.startDeserialize] using this
    · rw [C10_length, hlen] at h
      have h' : nextPayload (Kind.Ty .introRequest) ⟨⟨Spec.header mid.1 t ++ body f⟩, 23⟩ =
        (.ok v', ⟨⟨Spec.header mid.1 t ++ body f⟩, 44⟩) := h
      simp only [List.map_cons, List.map_nil, readAll, h']
  refine ⟨Spec.header mid.1 t ++ body 0, Spec.header mid.1 t ++ body 4, v', 44, ?_, reads 0 hv, reads 4 hv',
    (hlen 0).symm, (hlen 4).symm⟩
  intro h
  have := List.append_cancel_left h
  revert this
  decide

/-! ## Cases for the theorems above -/

theorem exampleMeant_reads : PacketReads exampleMeant (Header.pyIpv8Header (FixedBytes.replicate 20 7) 1)
    [⟨.time, TimeDistributionPayload.mk 42⟩, ⟨.varlen16, VarLen16.mk [8, 9]⟩] 35 :=
  ⟨⟨⟨exampleMeant⟩, 23⟩, by rfl, by rfl⟩

/-- `C115`: the only packet that reads as this message. -/
example (packet : Bytes) (hl : packet.length ≤ usizeMax)
    (h : PacketReads packet (Header.pyIpv8Header (FixedBytes.replicate 20 7) 1)
      [⟨.time, TimeDistributionPayload.mk 42⟩, ⟨.varlen16, VarLen16.mk [8, 9]⟩] packet.length) : packet = exampleMeant :=
  (C115 packet exampleMeant hl (by decide) _ _ (by simp [Kind.Faithful]) _ _ h exampleMeant_reads).2 rfl rfl

/-- `C115_request`: flag bytes 0 and 2 mean the same (connection type unknown), 0 and 1 do not. -/
example (a b c i rest : Bytes) (ha : a.length = 6) (hb : b.length = 6) (hc : c.length = 6) (hi : i.length = 2)
    (hs : ∀ f : UInt8, ([] ++ (a ++ b ++ c ++ [f] ++ i ++ rest)).length ≤ usizeMax) :=
  And.intro
    ((C115_request [] a b c i rest [] a b c i rest 0 2 ha hb hc hi ha hb hc hi (hs 0) (hs 2)).mpr
      ⟨rfl, by decide, by decide⟩)
    (mt (C115_request [] a b c i rest [] a b c i rest 0 1 ha hb hc hi ha hb hc hi (hs 0) (hs 1)).mp
      (fun h => absurd h.2.2 (by decide)))

/-- `C115_response`: here flag bytes 0 and 128 mean the same. -/
example (a b c d g i rest : Bytes) (ha : a.length = 6) (hb : b.length = 6) (hc : c.length = 6) (hd : d.length = 6)
    (hg : g.length = 6) (hi : i.length = 2)
    (hs : ∀ f : UInt8, ([] ++ (a ++ b ++ c ++ d ++ g ++ [f] ++ i ++ rest)).length ≤ usizeMax) :=
  (C115_response [] a b c d g i rest [] a b c d g i rest 0 128 ha hb hc hd hg hi ha hb hc hd hg hi (hs 0) (hs 128)).mpr
    ⟨rfl, by decide⟩

/-- `C115_auth`: the shortest contents, and the same with a byte more. -/
example (keys : Bytes) (h : keys.length = 64) :=
  have hp : keyPrefix.length = 10 := by decide +kernel
  (C115_auth [] (keyPrefix ++ keys) [] [] (keyPrefix ++ keys ++ [1]) []
    (by simp [h, hp]) (by simp [h, hp]) (List.take_left' hp) (by simp [h, hp]) (by simp [h, hp])
    (by rw [List.append_assoc]; exact List.take_left' hp)).mpr
    (List.take_append_of_le_length (by simp [h, hp])).symm

theorem exampleSigned_accepted : AcceptedAs toyRing (FixedBytes.replicate 32 9) exampleSigned exampleAuthentic := by
  obtain ⟨h1, h2, h3, h4⟩ := signed_reads toyRing (FixedBytes.replicate 32 9) exampleAuthentic
    exampleAuthentic_conforms.2 exampleBody exampleAuthentic_body
    (toyRing.sign (FixedBytes.replicate 32 9) exampleBody) (by decide +kernel) (by decide +kernel) (by decide +kernel)
  exact ⟨_, _, _, _, h1, h2, h3, h4⟩

/-- `C115_signed`: the packet of C63 and any other that is accepted as its message. -/
example (packet : Packet) (hl : packet.bytes.length ≤ usizeMax)
    (hunf : NotForged toyRing (FixedBytes.replicate 32 9) (· = exampleAuthentic) packet.bytes)
    (h : AcceptedAs toyRing (FixedBytes.replicate 32 9) packet exampleAuthentic) :=
  C115_signed toyRing (FixedBytes.replicate 32 9) (fun _ t => if t = 246 then [.time] else []) (· = exampleAuthentic)
    (by rintro _ rfl; exact exampleAuthentic_conforms) packet exampleSigned hl (by decide +kernel) hunf
    exampleAuthentic_notForged exampleAuthentic rfl h exampleSigned_accepted

end Ipv8
