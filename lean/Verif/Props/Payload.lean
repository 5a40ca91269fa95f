import Verif.Props.Basic
import Verif.Props.Header
/-!
# Properties C14 – C16 and C18 – C22: payloads
-/

namespace Ipv8
open Spec PacketDeserializer

/-! ## C14: authentication payload -/

theorem keyPrefix_eq : keyPrefix = libNaCLPK := by decide +kernel

theorem authBytes_eq (v : BinMemberAuthenticationPayload) : authBytes .big v = authentication v := by
  simp only [authBytes, authentication, keyPrefix_eq, be16_eq, List.append_assoc]
  rfl

/-- C14. The wire form. -/
theorem C14_wire (v : BinMemberAuthenticationPayload) : Writes v (authentication v) := by
  apply writes_of_serialize
  rw [BinMemberAuthenticationPayload.ser_eq, authBytes_eq]

/-- C14. It is 76 bytes. -/
theorem C14_length (v : BinMemberAuthenticationPayload) : (authentication v).length = 76 := by
  rw [← authBytes_eq, authBytes_length]

/-- C14. It reads back, and the cursor moves 76 bytes. -/
theorem C14_read (v : BinMemberAuthenticationPayload) : ReadsAs (authentication v) v :=
  readsAs_of_roundTrip BinMemberAuthenticationPayload.roundTrip (serialize_of_writes (C14_wire v))

example : authentication ⟨FixedBytes.replicate 32 1, FixedBytes.replicate 32 2⟩ =
    [0, 74, 76, 105, 98, 78, 97, 67, 76, 80, 75, 58] ++ List.replicate 32 2 ++
      List.replicate 32 1 := by decide +kernel

/-! ## C15, C16: authentication payload from arbitrary bytes -/

/-- C16. Exact outcome of reading an authentication payload where the rest of the packet is `r`: with
`n` the announced length and `c` the announced content,
* `Err` when prefix or content is cut short,
* panic when `n < 10`,
* `Err` when `c` does not start with the key prefix,
* panic when it does and `n < 74`,
* otherwise the keys are `c[10..42]` and `c[42..74]` and the cursor moves 76 bytes. -/
theorem C16 (s : Bytes) (i : Nat) (hi : i ≤ s.length) :
    let d : PacketDeserializer := ⟨⟨s⟩, i⟩
    let r := s.drop i
    let n := fromBE (r.take 2)
    let c := (r.drop 2).take n
    (r.length < 2 ∨ r.length < 2 + n →
      (d.nextPayload BinMemberAuthenticationPayload).1.isErr = true ∧
      (d.nextPayload BinMemberAuthenticationPayload).2 = d) ∧
    (2 + n ≤ r.length → n < 10 → d.nextPayload BinMemberAuthenticationPayload = (.panic, d)) ∧
    (2 + n ≤ r.length → 10 ≤ n → c.take 10 ≠ keyPrefix →
      (d.nextPayload BinMemberAuthenticationPayload).1.isErr = true ∧
      (d.nextPayload BinMemberAuthenticationPayload).2 = d) ∧
    (2 + n ≤ r.length → 10 ≤ n → c.take 10 = keyPrefix → n < 74 →
      d.nextPayload BinMemberAuthenticationPayload = (.panic, d)) ∧
    (2 + n ≤ r.length → c.take 10 = keyPrefix → 74 ≤ n →
      ∃ v : BinMemberAuthenticationPayload,
        v.encryptionKeyBin.1 = (c.drop 10).take 32 ∧ v.publicKeyBin.1 = (c.drop 42).take 32 ∧
        d.nextPayload BinMemberAuthenticationPayload = (.ok v, ⟨⟨s⟩, i + 76⟩)) := by
  intro d r n c
  have h16 := C06_varlen16 s i hi
  simp only at h16
  -- the outcome of the inner VarLen16 read
  have hcut : (r.length < 2 ∨ r.length < 2 + n) →
      ∃ e, (Deserialize.de .big : De VarLen16) r = .err e := by
    intro h
    have := (h16.1 h).1
    cases hx : (Deserialize.de .big : De VarLen16) r with
    | err e => exact ⟨e, rfl⟩
    | panic => exact absurd hx (VarLen16.canonical.noPanic _ _)
    | ok y =>
      obtain ⟨bs, h1, _⟩ := (VarLen16.canonical.exact .big r y.2 y.1).mp hx
      rw [nextPayload_of_de (d := ⟨⟨s⟩, i⟩) hi hx (Bincode.size_of_serialize h1)] at this
      simp [Outcome.isErr] at this
  have hfull : 2 + n ≤ r.length → ∃ r', (Deserialize.de .big : De VarLen16) r = .ok (⟨c⟩, r') := by
    intro h
    have := h16.2 h
    rw [nextPayload_inside (d := ⟨⟨s⟩, i⟩) hi] at this
    cases hx : (Deserialize.de .big : De VarLen16) r with
    | err e => simp only [r] at hx; simp [hx] at this
    | panic => exact absurd hx (VarLen16.canonical.noPanic _ _)
    | ok y =>
      obtain ⟨bs, h1, _⟩ := (VarLen16.canonical.exact .big r y.2 y.1).mp hx
      have hs := Bincode.size_of_serialize h1
      simp only [r] at hx
      simp only [hx, hs, Prod.mk.injEq, Outcome.ok.injEq] at this
      refine ⟨y.2, ?_⟩
      rw [← this.1]
  have hde := BinMemberAuthenticationPayload.de_def .big r
  have hcl : 2 + n ≤ r.length → c.length = n := by
    intro h; simp only [c, List.length_take, List.length_drop]; omega
  refine ⟨?_, ?_, ?_, ?_, ?_⟩
  · intro h
    obtain ⟨e, he⟩ := hcut h
    rw [he] at hde
    rw [nextPayload_of_err (d := d) hi hde]
    exact ⟨rfl, rfl⟩
  · intro h hn
    obtain ⟨r', he⟩ := hfull h
    rw [he] at hde
    simp only [authOfContents_eq] at hde
    rw [if_pos (by rw [hcl h]; omega)] at hde
    exact nextPayload_of_panic (d := d) hi hde
  · intro h hn hp
    obtain ⟨r', he⟩ := hfull h
    rw [he] at hde
    simp only [authOfContents_eq] at hde
    rw [if_neg (by rw [hcl h]; omega), if_pos (by rw [← keyPrefix_eq]; exact hp)] at hde
    rw [nextPayload_of_err (d := d) hi hde]
    exact ⟨rfl, rfl⟩
  · intro h hn hp hn'
    obtain ⟨r', he⟩ := hfull h
    rw [he] at hde
    simp only [authOfContents_eq] at hde
    rw [if_neg (by rw [hcl h]; omega), if_neg (by rw [← keyPrefix_eq]; simp [hp]),
      dif_pos (by rw [hcl h]; omega)] at hde
    exact nextPayload_of_panic (d := d) hi hde
  · intro h hp hn
    obtain ⟨r', he⟩ := hfull h
    rw [he] at hde
    simp only [authOfContents_eq] at hde
    rw [if_neg (by rw [hcl h]; omega), if_neg (by rw [← keyPrefix_eq]; simp [hp]),
      dif_neg (by rw [hcl h]; omega)] at hde
    refine ⟨_, ?_, ?_, nextPayload_of_de (d := d) hi hde (n := 76) ?_⟩
    · exact List.drop_take
    · exact List.drop_take
    · have := Bincode.size_of_serialize (BinMemberAuthenticationPayload.ser_eq .big
        ⟨⟨(c.take 74).drop 42, by simp; rw [hcl h]; omega⟩,
          ⟨(c.take 42).drop 10, by simp; rw [hcl h]; omega⟩⟩)
      rw [authBytes_length] at this
      exact this

/-- C15 is false of the code: three bytes of announced content make the read panic, and so does a
content that is only the key prefix. -/
theorem C15_false :
    (nextPayload BinMemberAuthenticationPayload ⟨⟨[0, 3, 1, 2, 3]⟩, 0⟩).1 = .panic ∧
    (nextPayload BinMemberAuthenticationPayload ⟨⟨[0, 10] ++ keyPrefix⟩, 0⟩).1 = .panic := by
  constructor <;> decide +kernel

/-- C15, what holds: reading an authentication payload panics exactly when the announced content is
complete and either shorter than 10 bytes, or starts with the key prefix and is shorter than 74 bytes.
Missing from C15: those two cases, which should be `Err`. -/
theorem C15_partial (s : Bytes) (i : Nat) (hi : i ≤ s.length) :
    let r := s.drop i
    let n := fromBE (r.take 2)
    (nextPayload BinMemberAuthenticationPayload ⟨⟨s⟩, i⟩).1 = .panic ↔
      2 + n ≤ r.length ∧ (n < 10 ∨ (((r.drop 2).take n).take 10 = keyPrefix ∧ n < 74)) := by
  intro r n
  have h := C16 s i hi
  simp only at h
  simp only [show s.drop i = r from rfl] at h
  simp only [show fromBE (r.take 2) = n from rfl] at h
  obtain ⟨h1, h2, h3, h4, h5⟩ := h
  have notPanic : ∀ {o : Outcome BinMemberAuthenticationPayload}, o.isErr = true → o ≠ .panic := by
    intro o; cases o <;> simp [Outcome.isErr]
  by_cases hl : r.length < 2 ∨ r.length < 2 + n
  · have := notPanic (h1 hl).1
    constructor
    · intro h; exact absurd h this
    · intro h; omega
  · have hl' : 2 + n ≤ r.length := by omega
    by_cases hn : n < 10
    · rw [h2 hl' hn]; simp [hl', hn]
    · by_cases hp : ((r.drop 2).take n).take 10 = keyPrefix
      · by_cases hn' : n < 74
        · rw [h4 hl' (by omega) hp hn']; simp [hl', hp, hn']
        · obtain ⟨v, _, _, hv⟩ := h5 hl' hp (by omega)
          rw [hv]
          simp; omega
      · have := notPanic (h3 hl' (by omega) hp).1
        constructor
        · intro h; exact absurd h this
        · rintro ⟨_, h | h⟩
          · omega
          · exact absurd h.1 hp

example : (1 : Nat) ≤ ([7, 0, 3, 1, 2, 3] : Bytes).length := by decide
-- a content of 75 bytes is accepted too
example : (nextPayload BinMemberAuthenticationPayload
    ⟨⟨[0, 75] ++ keyPrefix ++ List.replicate 65 1⟩, 0⟩).1.isOk = true := by decide +kernel

/-! ## C18: introduction request -/

theorem reqFlags_eq (v : IntroductionRequestPayload) :
    reqFlags v = requestFlags v.connectionType v.advice := by
  rcases v with ⟨_, _, _, advice, t, _, _⟩
  cases advice <;> cases t <;> simp only [reqFlags] <;> decide

theorem respFlags_eq (v : IntroductionResponsePayload) :
    respFlags v = connectionBits v.connectionType := by
  rcases v with ⟨_, _, _, _, _, _, t, _, _⟩
  cases t <;> simp only [respFlags] <;> decide

/-- C18. The wire form of an introduction request with IPv4 addresses. -/
theorem C18_wire (v : IntroductionRequestPayload) (h4 : ∀ a ∈ addressesIReq v, isV4 a = true) :
    Writes v (introductionRequest v) := by
  simp only [addressesIReq, List.mem_cons, List.not_mem_nil, or_false, forall_eq_or_imp,
    forall_eq] at h4
  apply writes_of_serialize
  rw [IntroductionRequestPayload.ser_eq, serialize_address _ h4.1, serialize_address _ h4.2.1,
    serialize_address _ h4.2.2]
  simp [introductionRequest, reqFlags_eq, be16_eq]

theorem flags_decode (t : ConnectionType) (advice : Bool) :
    ConnectionType.decode ((Bits.fromU8 (requestFlags t advice)).bit0,
      (Bits.fromU8 (requestFlags t advice)).bit1) = t ∧
    (Bits.fromU8 (requestFlags t advice)).bit7 = advice := by
  cases t <;> cases advice <;> decide

/-- C18. As the last payload of a packet it reads back identically. -/
theorem C18_read (v : IntroductionRequestPayload) (h4 : ∀ a ∈ addressesIReq v, isV4 a = true) :
    ReadsLastAs (introductionRequest v) v := by
  have hw := serialize_of_writes (C18_wire v h4)
  simp only [addressesIReq, List.mem_cons, List.not_mem_nil, or_false, forall_eq_or_imp,
    forall_eq] at h4
  intro pre hl
  refine nextPayload_of_de (r' := []) (by simp) ?_ (Bincode.size_of_serialize hw)
  rw [IntroductionRequestPayload.de_eq_ok]
  refine ⟨_, _, _, v.extraBytes.data, requestFlags v.connectionType v.advice,
    serialize_address _ h4.1, serialize_address _ h4.2.1,
    serialize_address _ h4.2.2, ?_, ?_, ?_, ?_⟩
  · exact (flags_decode _ _).2.symm
  · exact (flags_decode _ _).1.symm
  · apply RawEnd.de_eq
    simp [introductionRequest] at hl
    omega
  · simp [introductionRequest, be16_eq]

/-- A value used to show that hypotheses are satisfiable. -/
def exampleRequest : IntroductionRequestPayload :=
  ⟨⟨.v4 1 2 3 4 5⟩, ⟨.v4 6 7 8 9 10⟩, ⟨.v4 11 12 13 14 15⟩, true, .SYMMETRICNAT, 0x1234,
    ⟨[42, 43, 44]⟩⟩

example : (∀ a ∈ addressesIReq exampleRequest, isV4 a = true) ∧
    introductionRequest exampleRequest = [1, 2, 3, 4, 0, 5, 6, 7, 8, 9, 0, 10, 11, 12, 13, 14, 0, 15,
      131, 0x12, 0x34, 42, 43, 44] := by decide

/-! ## C19: introduction response -/

/-- C19. The wire form of an introduction response with IPv4 addresses; `tunnel` does not occur. -/
theorem C19_wire (v : IntroductionResponsePayload) (h4 : ∀ a ∈ addressesIResp v, isV4 a = true) :
    Writes v (introductionResponse v) := by
  simp only [addressesIResp, List.mem_cons, List.not_mem_nil, or_false, forall_eq_or_imp,
    forall_eq] at h4
  apply writes_of_serialize
  rw [IntroductionResponsePayload.ser_eq, serialize_address _ h4.1, serialize_address _ h4.2.1,
    serialize_address _ h4.2.2.1, serialize_address _ h4.2.2.2.1, serialize_address _ h4.2.2.2.2]
  simp [introductionResponse, respFlags_eq, be16_eq]

/-- C19. As the last payload of a packet it reads back identically, except that `tunnel` is `false`. -/
theorem C19_read (v : IntroductionResponsePayload) (h4 : ∀ a ∈ addressesIResp v, isV4 a = true) :
    ReadsLastAs (introductionResponse v) { v with tunnel := false } := by
  have hw := serialize_of_writes (C19_wire { v with tunnel := false } h4)
  simp only [addressesIResp, List.mem_cons, List.not_mem_nil, or_false, forall_eq_or_imp,
    forall_eq] at h4
  have hi : introductionResponse { v with tunnel := false } = introductionResponse v := rfl
  rw [hi] at hw
  intro pre hl
  refine nextPayload_of_de (r' := []) (by simp) ?_ (Bincode.size_of_serialize hw)
  rw [IntroductionResponsePayload.de_eq_ok]
  have hf := flags_decode v.connectionType false
  refine ⟨_, _, _, _, _, v.extraBytes.data, connectionBits v.connectionType,
    serialize_address _ h4.1, serialize_address _ h4.2.1,
    serialize_address _ h4.2.2.1, serialize_address _ h4.2.2.2.1, serialize_address _ h4.2.2.2.2,
    rfl, ?_, ?_, ?_⟩
  · have : requestFlags v.connectionType false = connectionBits v.connectionType := by
      cases v.connectionType <;> rfl
    rw [this] at hf
    exact hf.1.symm
  · apply RawEnd.de_eq
    simp [introductionResponse] at hl
    omega
  · simp [introductionResponse, be16_eq]

/-- C19. The bytes written do not depend on `tunnel`, so the flag is lost. -/
theorem C19_tunnel_lost (v : IntroductionResponsePayload) (p : Packet) (b : Bool) :
    p.add { v with tunnel := b } = p.add v := rfl

/-- A value used to show that hypotheses are satisfiable. -/
def exampleResponse : IntroductionResponsePayload :=
  ⟨⟨.v4 1 2 3 4 5⟩, ⟨.v4 6 7 8 9 10⟩, ⟨.v4 11 12 13 14 15⟩, ⟨.v4 16 17 18 19 20⟩,
    ⟨.v4 21 22 23 24 25⟩, true, .PUBLIC, 0x1234, ⟨[42]⟩⟩

example : ∀ a ∈ addressesIResp exampleResponse, isV4 a = true := by decide

/-! ## C20: arbitrary bytes as introduction messages -/

theorem six_bytes (x : Bytes) (h : x.length = 6) :
    ∃ a : Address, isV4 a = true ∧ addressBytes a = x := by
  obtain ⟨a, _, h4, hs⟩ := (C08_any_six_bytes x).2 (by omega)
  rw [serialize_address a h4, List.take_of_length_le (by omega)] at hs
  exact ⟨a, h4, by simpa using hs⟩

theorem two_bytes (x : Bytes) (h : x.length = 2) : ∃ i : UInt16, intBytes .big 2 i.toNat = x := by
  refine ⟨UInt16.ofNat (ofInt .big x), ?_⟩
  have hlt := ofInt_lt .big x
  rw [h] at hlt
  rw [UInt16.toNat_ofNat', Nat.mod_eq_of_lt hlt]
  have := intBytes_ofInt .big x
  rwa [h] at this

/-- Address bytes determine the address. -/
theorem addressBytes_inj {a b : Address} (ha : isV4 a = true) (hb : isV4 b = true)
    (h : addressBytes a = addressBytes b) : a = b := by
  have h1 := Address.canonical.read (serialize_address a ha) []
  have h2 := Address.canonical.read (serialize_address b hb) []
  rw [h] at h1
  simpa using h1.symm.trans h2

/-- The reader of an introduction request, on a buffer split into its fields. -/
theorem request_decode (a b c i rest : Bytes) (f : UInt8) (ha : a.length = 6) (hb : b.length = 6)
    (hc : c.length = 6) (hi : i.length = 2) (hr : rest.length ≤ usizeMax) :
    ∃ v : IntroductionRequestPayload,
      (Deserialize.de .big : De IntroductionRequestPayload)
        (a ++ (b ++ (c ++ (f :: (i ++ rest))))) = .ok (v, []) ∧
      (∀ x ∈ addressesIReq v, isV4 x = true) ∧
      addressBytes v.destinationAddress = a ∧ addressBytes v.sourceLanAddress = b ∧
      addressBytes v.sourceWanAddress = c ∧ v.advice = bit f 7 ∧
      v.connectionType = ConnectionType.decode (bit f 0, bit f 1) ∧
      be16 v.identifier.toNat = i ∧ v.extraBytes.data = rest := by
  obtain ⟨x, hx, rfl⟩ := six_bytes a ha
  obtain ⟨y, hy, rfl⟩ := six_bytes b hb
  obtain ⟨z, hz, rfl⟩ := six_bytes c hc
  obtain ⟨j, rfl⟩ := two_bytes i hi
  obtain ⟨b0, b1, _, _, _, _, _, b7⟩ := C01_bit_positions f
  refine ⟨⟨x, y, z, bit f 7, ConnectionType.decode (bit f 0, bit f 1), j, ⟨rest⟩⟩, ?_, ?_, rfl, rfl,
    rfl, rfl, rfl, (be16_eq _).symm, rfl⟩
  · rw [IntroductionRequestPayload.de_eq_ok]
    exact ⟨_, _, _, rest, f, serialize_address _ hx, serialize_address _ hy, serialize_address _ hz,
      b7.symm, by rw [b0, b1], RawEnd.de_eq _ hr, rfl⟩
  · simp [addressesIReq, hx, hy, hz]

/-- The reader of an introduction response, on a buffer split into its fields. -/
theorem response_decode (a b c d g i rest : Bytes) (f : UInt8) (ha : a.length = 6)
    (hb : b.length = 6) (hc : c.length = 6) (hd : d.length = 6) (hg : g.length = 6)
    (hi : i.length = 2) (hr : rest.length ≤ usizeMax) :
    ∃ v : IntroductionResponsePayload,
      (Deserialize.de .big : De IntroductionResponsePayload)
        (a ++ (b ++ (c ++ (d ++ (g ++ (f :: (i ++ rest))))))) = .ok (v, []) ∧
      (∀ x ∈ addressesIResp v, isV4 x = true) ∧
      addressBytes v.destinationAddress = a ∧ addressBytes v.sourceLanAddress = b ∧
      addressBytes v.sourceWanAddress = c ∧ addressBytes v.lanIntroductionAddress = d ∧
      addressBytes v.wanIntroductionAddress = g ∧ v.tunnel = false ∧
      v.connectionType = ConnectionType.decode (bit f 0, bit f 1) ∧
      be16 v.identifier.toNat = i ∧ v.extraBytes.data = rest := by
  obtain ⟨x, hx, rfl⟩ := six_bytes a ha
  obtain ⟨y, hy, rfl⟩ := six_bytes b hb
  obtain ⟨z, hz, rfl⟩ := six_bytes c hc
  obtain ⟨u, hu, rfl⟩ := six_bytes d hd
  obtain ⟨w, hw, rfl⟩ := six_bytes g hg
  obtain ⟨j, rfl⟩ := two_bytes i hi
  obtain ⟨b0, b1, _⟩ := C01_bit_positions f
  refine ⟨⟨x, y, z, u, w, false, ConnectionType.decode (bit f 0, bit f 1), j, ⟨rest⟩⟩, ?_, ?_, rfl,
    rfl, rfl, rfl, rfl, rfl, rfl, (be16_eq _).symm, rfl⟩
  · rw [IntroductionResponsePayload.de_eq_ok]
    exact ⟨_, _, _, _, _, rest, f, serialize_address _ hx, serialize_address _ hy,
      serialize_address _ hz, serialize_address _ hu, serialize_address _ hw, rfl, by rw [b0, b1],
      RawEnd.de_eq _ hr, rfl⟩
  · simp [addressesIResp, hx, hy, hz, hu, hw]

/-- C20. A request is read from 18 address bytes, a flag byte `f`, an identifier and anything else:
the fields are those bytes, `advice` is bit 7 of `f`, the connection type is decoded from bits 0 and 1,
and the cursor moves to the end of the packet.  No other bit of `f` occurs in the result. -/
theorem C20_request_decode (pre a b c i rest : Bytes) (f : UInt8) (ha : a.length = 6)
    (hb : b.length = 6) (hc : c.length = 6) (hi : i.length = 2)
    (hs : (pre ++ (a ++ b ++ c ++ [f] ++ i ++ rest)).length ≤ usizeMax) :
    ∃ v : IntroductionRequestPayload,
      nextPayload IntroductionRequestPayload
          ⟨⟨pre ++ (a ++ b ++ c ++ [f] ++ i ++ rest)⟩, pre.length⟩ =
        (.ok v, ⟨⟨pre ++ (a ++ b ++ c ++ [f] ++ i ++ rest)⟩,
          (pre ++ (a ++ b ++ c ++ [f] ++ i ++ rest)).length⟩) ∧
      addressBytes v.destinationAddress = a ∧ addressBytes v.sourceLanAddress = b ∧
      addressBytes v.sourceWanAddress = c ∧ v.advice = bit f 7 ∧
      v.connectionType = connectionOf (bit f 0) (bit f 1) ∧
      be16 v.identifier.toNat = i ∧ v.extraBytes.data = rest := by
  have hr : rest.length ≤ usizeMax := by simp at hs; omega
  obtain ⟨v, hd, h4, h1, h2, h3, h5, h6, h7, h8⟩ := request_decode a b c i rest f ha hb hc hi hr
  refine ⟨v, ?_, h1, h2, h3, h5, h6.trans (C02_decode _ _), h7, h8⟩
  obtain ⟨bs, e1, e2⟩ := IntroductionRequestPayload.sizeExact.size .big _ _ _
    (by simp at hs ⊢; omega) hd
  rw [nextPayload_of_de (by simp) (by simpa using hd) e2]
  have := congrArg List.length e1
  simp only [Prod.mk.injEq, PacketDeserializer.mk.injEq, true_and]
  simp at this ⊢
  omega

/-- C20. Responses likewise: 30 address bytes, flags, identifier, rest. -/
theorem C20_response_decode (pre a b c d g i rest : Bytes) (f : UInt8) (ha : a.length = 6)
    (hb : b.length = 6) (hc : c.length = 6) (hd : d.length = 6) (hg : g.length = 6)
    (hi : i.length = 2)
    (hs : (pre ++ (a ++ b ++ c ++ d ++ g ++ [f] ++ i ++ rest)).length ≤ usizeMax) :
    ∃ v : IntroductionResponsePayload,
      nextPayload IntroductionResponsePayload
          ⟨⟨pre ++ (a ++ b ++ c ++ d ++ g ++ [f] ++ i ++ rest)⟩, pre.length⟩ =
        (.ok v, ⟨⟨pre ++ (a ++ b ++ c ++ d ++ g ++ [f] ++ i ++ rest)⟩,
          (pre ++ (a ++ b ++ c ++ d ++ g ++ [f] ++ i ++ rest)).length⟩) ∧
      addressBytes v.destinationAddress = a ∧ addressBytes v.sourceLanAddress = b ∧
      addressBytes v.sourceWanAddress = c ∧ addressBytes v.lanIntroductionAddress = d ∧
      addressBytes v.wanIntroductionAddress = g ∧ v.tunnel = false ∧
      v.connectionType = connectionOf (bit f 0) (bit f 1) ∧
      be16 v.identifier.toNat = i ∧ v.extraBytes.data = rest := by
  have hr : rest.length ≤ usizeMax := by simp at hs; omega
  obtain ⟨v, hd', h4, h1, h2, h3, h5, h6, h7, h8, h9, h10⟩ :=
    response_decode a b c d g i rest f ha hb hc hd hg hi hr
  refine ⟨v, ?_, h1, h2, h3, h5, h6, h7, h8.trans (C02_decode _ _), h9, h10⟩
  obtain ⟨bs, e1, e2⟩ := IntroductionResponsePayload.sizeExact.size .big _ _ _
    (by simp at hs ⊢; omega) hd'
  rw [nextPayload_of_de (by simp) (by simpa using hd') e2]
  have := congrArg List.length e1
  simp only [Prod.mk.injEq, PacketDeserializer.mk.injEq, true_and]
  simp at this ⊢
  omega

/-- C20. Flag bits 2..6 of a request do not influence the result. -/
theorem C20_request_ignores_bits (pre a b c i rest : Bytes) (f f' : UInt8) (ha : a.length = 6)
    (hb : b.length = 6) (hc : c.length = 6) (hi : i.length = 2)
    (hs : (pre ++ (a ++ b ++ c ++ [f] ++ i ++ rest)).length ≤ usizeMax)
    (h0 : bit f 0 = bit f' 0) (h1 : bit f 1 = bit f' 1) (h7 : bit f 7 = bit f' 7) :
    (nextPayload IntroductionRequestPayload
      ⟨⟨pre ++ (a ++ b ++ c ++ [f] ++ i ++ rest)⟩, pre.length⟩).1 =
    (nextPayload IntroductionRequestPayload
      ⟨⟨pre ++ (a ++ b ++ c ++ [f'] ++ i ++ rest)⟩, pre.length⟩).1 := by
  have hr : rest.length ≤ usizeMax := by simp at hs; omega
  obtain ⟨v, hd, h4, e1, e2, e3, e5, e6, e7, e8⟩ := request_decode a b c i rest f ha hb hc hi hr
  obtain ⟨v', hd', h4', e1', e2', e3', e5', e6', e7', e8'⟩ :=
    request_decode a b c i rest f' ha hb hc hi hr
  have hv : v = v' := by
    simp only [addressesIReq, List.mem_cons, List.not_mem_nil, or_false, forall_eq_or_imp,
      forall_eq] at h4 h4'
    rcases v with ⟨x, y, z, ad, t, j, r⟩
    rcases v' with ⟨x', y', z', ad', t', j', r'⟩
    simp only at *
    have hx := addressBytes_inj h4.1 h4'.1 (e1.trans e1'.symm)
    have hy := addressBytes_inj h4.2.1 h4'.2.1 (e2.trans e2'.symm)
    have hz := addressBytes_inj h4.2.2 h4'.2.2 (e3.trans e3'.symm)
    have hj : j = j' := by
      have := deU16_tok .big j []
      have h2 := deU16_tok .big j' []
      simp only [Tok.bytes, be16_eq, e7, e7'] at this h2
      simpa using this.symm.trans h2
    rcases r with ⟨r⟩
    rcases r' with ⟨r'⟩
    simp_all
  rw [nextPayload_inside (by simp), nextPayload_inside (by simp)]
  simp only [List.append_assoc, List.cons_append, List.nil_append, drop_pre, hd, hd', hv]
  cases Bincode.serializedSize v' <;> rfl

/-- C20. Flag bits 2..7 of a response do not influence the result. -/
theorem C20_response_ignores_bits (pre a b c d g i rest : Bytes) (f f' : UInt8) (ha : a.length = 6)
    (hb : b.length = 6) (hc : c.length = 6) (hd : d.length = 6) (hg : g.length = 6)
    (hi : i.length = 2)
    (hs : (pre ++ (a ++ b ++ c ++ d ++ g ++ [f] ++ i ++ rest)).length ≤ usizeMax)
    (h0 : bit f 0 = bit f' 0) (h1 : bit f 1 = bit f' 1) :
    (nextPayload IntroductionResponsePayload
      ⟨⟨pre ++ (a ++ b ++ c ++ d ++ g ++ [f] ++ i ++ rest)⟩, pre.length⟩).1 =
    (nextPayload IntroductionResponsePayload
      ⟨⟨pre ++ (a ++ b ++ c ++ d ++ g ++ [f'] ++ i ++ rest)⟩, pre.length⟩).1 := by
  have hr : rest.length ≤ usizeMax := by simp at hs; omega
  obtain ⟨v, hdd, h4, e1, e2, e3, e4, e5, e6, e7, e8, e9⟩ :=
    response_decode a b c d g i rest f ha hb hc hd hg hi hr
  obtain ⟨v', hdd', h4', e1', e2', e3', e4', e5', e6', e7', e8', e9'⟩ :=
    response_decode a b c d g i rest f' ha hb hc hd hg hi hr
  have hv : v = v' := by
    simp only [addressesIResp, List.mem_cons, List.not_mem_nil, or_false, forall_eq_or_imp,
      forall_eq] at h4 h4'
    rcases v with ⟨x, y, z, u, w, tn, t, j, r⟩
    rcases v' with ⟨x', y', z', u', w', tn', t', j', r'⟩
    simp only at *
    have hx := addressBytes_inj h4.1 h4'.1 (e1.trans e1'.symm)
    have hy := addressBytes_inj h4.2.1 h4'.2.1 (e2.trans e2'.symm)
    have hz := addressBytes_inj h4.2.2.1 h4'.2.2.1 (e3.trans e3'.symm)
    have hu := addressBytes_inj h4.2.2.2.1 h4'.2.2.2.1 (e4.trans e4'.symm)
    have hw := addressBytes_inj h4.2.2.2.2 h4'.2.2.2.2 (e5.trans e5'.symm)
    have hj : j = j' := by
      have := deU16_tok .big j []
      have h2 := deU16_tok .big j' []
      simp only [Tok.bytes, be16_eq, e8, e8'] at this h2
      simpa using this.symm.trans h2
    rcases r with ⟨r⟩
    rcases r' with ⟨r'⟩
    simp_all
  rw [nextPayload_inside (by simp), nextPayload_inside (by simp)]
  simp only [List.append_assoc, List.cons_append, List.nil_append, drop_pre, hdd, hdd', hv]
  cases Bincode.serializedSize v' <;> rfl

/-- Re-encoding the decoded flag byte of a request gives it back exactly when it is canonical. -/
theorem requestFlags_canonical (f : UInt8) :
    requestFlags (ConnectionType.decode (bit f 0, bit f 1)) (bit f 7) = f ↔
      (bit f 2 = false ∧ bit f 3 = false ∧ bit f 4 = false ∧ bit f 5 = false ∧ bit f 6 = false) ∧
        ¬ (bit f 0 = false ∧ bit f 1 = true) := by
  have h : ∀ n : Fin 256, requestFlags (ConnectionType.decode (bit ⟨⟨n⟩⟩ 0, bit ⟨⟨n⟩⟩ 1))
      (bit ⟨⟨n⟩⟩ 7) = ⟨⟨n⟩⟩ ↔
      (bit ⟨⟨n⟩⟩ 2 = false ∧ bit ⟨⟨n⟩⟩ 3 = false ∧ bit ⟨⟨n⟩⟩ 4 = false ∧ bit ⟨⟨n⟩⟩ 5 = false ∧
        bit ⟨⟨n⟩⟩ 6 = false) ∧ ¬ (bit ⟨⟨n⟩⟩ 0 = false ∧ bit ⟨⟨n⟩⟩ 1 = true) := by
    decide +kernel
  exact h f.toBitVec.toFin

theorem responseFlags_canonical (f : UInt8) :
    connectionBits (ConnectionType.decode (bit f 0, bit f 1)) = f ↔
      (bit f 2 = false ∧ bit f 3 = false ∧ bit f 4 = false ∧ bit f 5 = false ∧ bit f 6 = false ∧
        bit f 7 = false) ∧ ¬ (bit f 0 = false ∧ bit f 1 = true) := by
  have h : ∀ n : Fin 256, connectionBits (ConnectionType.decode (bit ⟨⟨n⟩⟩ 0, bit ⟨⟨n⟩⟩ 1)) = ⟨⟨n⟩⟩ ↔
      (bit ⟨⟨n⟩⟩ 2 = false ∧ bit ⟨⟨n⟩⟩ 3 = false ∧ bit ⟨⟨n⟩⟩ 4 = false ∧ bit ⟨⟨n⟩⟩ 5 = false ∧
        bit ⟨⟨n⟩⟩ 6 = false ∧ bit ⟨⟨n⟩⟩ 7 = false) ∧
        ¬ (bit ⟨⟨n⟩⟩ 0 = false ∧ bit ⟨⟨n⟩⟩ 1 = true) := by
    decide +kernel
  exact h f.toBitVec.toFin

/-- C20. Re-adding a request that was read gives back the bytes it was read from exactly when flag bits
2..6 are zero and bits (0, 1) are not (false, true). -/
theorem C20_request_canonical (pre a b c i rest : Bytes) (f : UInt8) (ha : a.length = 6)
    (hb : b.length = 6) (hc : c.length = 6) (hi : i.length = 2)
    (hs : (pre ++ (a ++ b ++ c ++ [f] ++ i ++ rest)).length ≤ usizeMax)
    (v : IntroductionRequestPayload) (d' : PacketDeserializer)
    (hv : nextPayload IntroductionRequestPayload
      ⟨⟨pre ++ (a ++ b ++ c ++ [f] ++ i ++ rest)⟩, pre.length⟩ = (.ok v, d')) :
    Writes v (a ++ b ++ c ++ [f] ++ i ++ rest) ↔
      (bit f 2 = false ∧ bit f 3 = false ∧ bit f 4 = false ∧ bit f 5 = false ∧ bit f 6 = false) ∧
        ¬ (bit f 0 = false ∧ bit f 1 = true) := by
  have hr : rest.length ≤ usizeMax := by simp at hs; omega
  obtain ⟨w, hd, h4, e1, e2, e3, e5, e6, e7, e8⟩ := request_decode a b c i rest f ha hb hc hi hr
  have hvw : v = w := by
    obtain ⟨bs, g1, g2⟩ := IntroductionRequestPayload.sizeExact.size .big _ _ _
      (by simp at hs ⊢; omega) hd
    rw [nextPayload_of_de (by simp) (by simpa using hd) g2] at hv
    simp at hv
    exact hv.1.symm
  subst hvw
  have hw := C18_wire v h4
  rw [← requestFlags_canonical, ← e5, ← e6]
  have key : introductionRequest v =
      a ++ b ++ c ++ [requestFlags v.connectionType v.advice] ++ i ++ rest := by
    rw [introductionRequest, e1, e2, e3, e7, e8]
  constructor
  · intro h
    have h1 := serialize_of_writes h
    rw [serialize_of_writes hw, key] at h1
    simpa using h1
  · intro h
    rw [h] at key
    rw [← key]
    exact hw

/-- C20. The same for responses, with flag bits 2..7. -/
theorem C20_response_canonical (pre a b c d g i rest : Bytes) (f : UInt8) (ha : a.length = 6)
    (hb : b.length = 6) (hc : c.length = 6) (hd : d.length = 6) (hg : g.length = 6)
    (hi : i.length = 2)
    (hs : (pre ++ (a ++ b ++ c ++ d ++ g ++ [f] ++ i ++ rest)).length ≤ usizeMax)
    (v : IntroductionResponsePayload) (d' : PacketDeserializer)
    (hv : nextPayload IntroductionResponsePayload
      ⟨⟨pre ++ (a ++ b ++ c ++ d ++ g ++ [f] ++ i ++ rest)⟩, pre.length⟩ = (.ok v, d')) :
    Writes v (a ++ b ++ c ++ d ++ g ++ [f] ++ i ++ rest) ↔
      (bit f 2 = false ∧ bit f 3 = false ∧ bit f 4 = false ∧ bit f 5 = false ∧ bit f 6 = false ∧
        bit f 7 = false) ∧ ¬ (bit f 0 = false ∧ bit f 1 = true) := by
  have hr : rest.length ≤ usizeMax := by simp at hs; omega
  obtain ⟨w, hdd, h4, e1, e2, e3, e4, e5, e6, e7, e8, e9⟩ :=
    response_decode a b c d g i rest f ha hb hc hd hg hi hr
  have hvw : v = w := by
    obtain ⟨bs, g1, g2⟩ := IntroductionResponsePayload.sizeExact.size .big _ _ _
      (by simp at hs ⊢; omega) hdd
    rw [nextPayload_of_de (by simp) (by simpa using hdd) g2] at hv
    simp at hv
    exact hv.1.symm
  subst hvw
  have hw := C19_wire v h4
  rw [← responseFlags_canonical, ← e7]
  have key : introductionResponse v =
      a ++ b ++ c ++ d ++ g ++ [connectionBits v.connectionType] ++ i ++ rest := by
    rw [introductionResponse, e1, e2, e3, e4, e5, e8, e9]
  constructor
  · intro h
    have h1 := serialize_of_writes h
    rw [serialize_of_writes hw, key] at h1
    simpa using h1
  · intro h
    rw [h] at key
    rw [← key]
    exact hw

/-- C20. Fewer than 21 bytes are no introduction request, fewer than 33 no response. -/
theorem C20_short (s : Bytes) (i : Nat) (hi : i ≤ s.length) :
    (s.length < i + 21 → (nextPayload IntroductionRequestPayload ⟨⟨s⟩, i⟩).1.isErr = true) ∧
    (s.length < i + 33 → (nextPayload IntroductionResponsePayload ⟨⟨s⟩, i⟩).1.isErr = true) := by
  have addrLen : ∀ {a : Address} {w : Bytes}, Bincode.serialize .big a = .ok w → w.length = 6 := by
    intro a w h
    rw [Address.ser_eq_ok] at h
    obtain ⟨_, _, _, _, _, _, rfl⟩ := h
    simp [Tok.size]
  constructor
  · intro h
    cases hx : (Deserialize.de .big : De IntroductionRequestPayload) (s.drop i) with
    | err e => rw [nextPayload_of_err (d := ⟨⟨s⟩, i⟩) hi hx]; rfl
    | panic => exact absurd hx (IntroductionRequestPayload.de_ne_panic _ _)
    | ok y =>
      obtain ⟨v, r'⟩ := y
      rw [IntroductionRequestPayload.de_eq_ok] at hx
      obtain ⟨a, b, c, rest, fl, h1, h2, h3, _, _, _, hr⟩ := hx
      have := congrArg List.length hr
      simp [addrLen h1, addrLen h2, addrLen h3] at this
      omega
  · intro h
    cases hx : (Deserialize.de .big : De IntroductionResponsePayload) (s.drop i) with
    | err e => rw [nextPayload_of_err (d := ⟨⟨s⟩, i⟩) hi hx]; rfl
    | panic => exact absurd hx (IntroductionResponsePayload.de_ne_panic _ _)
    | ok y =>
      obtain ⟨v, r'⟩ := y
      rw [IntroductionResponsePayload.de_eq_ok] at hx
      obtain ⟨a, b, c, d, f, rest, fl, h1, h2, h3, h4, h5, _, _, _, hr⟩ := hx
      have := congrArg List.length hr
      simp [addrLen h1, addrLen h2, addrLen h3, addrLen h4, addrLen h5] at this
      omega

-- the flag byte 0b01111110 is accepted, means UNKNOWN without advice, and is not canonical
example : bit 126 0 = false ∧ bit 126 1 = true ∧ bit 126 7 = false ∧ bit 126 2 = true := by decide

/-! ## C21: puncture, puncture request, time -/

/-- C21. Puncture payload: 14 bytes. -/
theorem C21_puncture (v : PuncturePayload) (h4 : ∀ a ∈ addressesP v, isV4 a = true) :
    let w := addressBytes v.lanWalkerAddress ++ addressBytes v.wanWalkerAddress ++
      be16 v.identifier.toNat
    w.length = 14 ∧ Writes v w ∧ ReadsAs w v := by
  intro w
  simp only [addressesP, List.mem_cons, List.not_mem_nil, or_false, forall_eq_or_imp, forall_eq] at h4
  have hs : Bincode.serialize .big v = .ok w := by
    rw [PuncturePayload.ser_eq, serialize_address _ h4.1, serialize_address _ h4.2]
    simp [w, be16_eq]
  refine ⟨?_, writes_of_serialize hs, readsAs_of_roundTrip PuncturePayload.canonical.roundTrip hs⟩
  have l : ∀ a : Address, isV4 a = true → (addressBytes a).length = 6 := by
    intro a h
    rcases a with ⟨⟨a, b, c, d, port⟩ | ⟨ip, port, fl, sc⟩⟩
    · simp [addressBytes, address]
    · simp [isV4] at h
  simp [w, l _ h4.1, l _ h4.2]

/-- C21. Puncture request: 14 bytes. -/
theorem C21_puncture_request (v : PunctureRequestPayload)
    (h4 : ∀ a ∈ addressesPR v, isV4 a = true) :
    let w := addressBytes v.lanWalkerAddress ++ addressBytes v.wanWalkerAddress ++
      be16 v.identifier.toNat
    w.length = 14 ∧ Writes v w ∧ ReadsAs w v := by
  intro w
  simp only [addressesPR, List.mem_cons, List.not_mem_nil, or_false, forall_eq_or_imp, forall_eq] at h4
  have hs : Bincode.serialize .big v = .ok w := by
    rw [PunctureRequestPayload.ser_eq, serialize_address _ h4.1, serialize_address _ h4.2]
    simp [w, be16_eq]
  refine ⟨?_, writes_of_serialize hs,
    readsAs_of_roundTrip PunctureRequestPayload.canonical.roundTrip hs⟩
  have l : ∀ a : Address, isV4 a = true → (addressBytes a).length = 6 := by
    intro a h
    rcases a with ⟨⟨a, b, c, d, port⟩ | ⟨ip, port, fl, sc⟩⟩
    · simp [addressBytes, address]
    · simp [isV4] at h
  simp [w, l _ h4.1, l _ h4.2]

/-- C21. Time: eight bytes, big-endian. -/
theorem C21_time (v : TimeDistributionPayload) :
    Writes v (be64 v.globalTime.toNat) ∧ ReadsAs (be64 v.globalTime.toNat) v := by
  have hs : Bincode.serialize .big v = .ok (be64 v.globalTime.toNat) := by
    rw [TimeDistributionPayload.ser_eq, be64_eq]
  exact ⟨writes_of_serialize hs, readsAs_of_roundTrip TimeDistributionPayload.canonical.roundTrip hs⟩

/-- What "any buffer of at least `n` bytes decodes and re-encodes to what was read" means. -/
def FixedFormat (α : Type) [Ipv8Payload α] [Serialize α] [Deserialize α] (n : Nat) : Prop :=
  ∀ (s : Bytes) (i : Nat), i ≤ s.length →
    (s.length < i + n → (nextPayload α ⟨⟨s⟩, i⟩).1.isErr = true) ∧
    (i + n ≤ s.length → ∃ v : α, nextPayload α ⟨⟨s⟩, i⟩ = (.ok v, ⟨⟨s⟩, i + n⟩) ∧
      Writes v ((s.drop i).take n))

/-- Shared proof for canonical codecs of constant size. -/
theorem fixedFormat {α : Type} [Ipv8Payload α] [Serialize α] [Deserialize α] {n : Nat}
    (hc : Canonical α) (hlen : ∀ (v : α) w, Bincode.serialize .big v = .ok w → w.length = n)
    (hall : ∀ w : Bytes, w.length = n → ∃ v : α, Bincode.serialize .big v = .ok w) :
    FixedFormat α n := by
  intro s i hi
  constructor
  · intro h
    cases hx : (Deserialize.de .big : De α) (s.drop i) with
    | err e => rw [nextPayload_of_err (d := ⟨⟨s⟩, i⟩) hi hx]; rfl
    | panic => exact absurd hx (hc.noPanic _ _)
    | ok y =>
      obtain ⟨v, r'⟩ := y
      rw [hc.exact] at hx
      obtain ⟨w, h1, h2⟩ := hx
      have := congrArg List.length h2
      simp [hlen v w h1] at this
      omega
  · intro h
    obtain ⟨v, hv⟩ := hall ((s.drop i).take n) (by simp; omega)
    have hd := hc.read hv ((s.drop i).drop n)
    rw [List.take_append_drop] at hd
    refine ⟨v, ?_, writes_of_serialize hv⟩
    have hz := Bincode.size_of_serialize hv
    rw [nextPayload_of_de (d := ⟨⟨s⟩, i⟩) hi hd hz]
    simp only [Prod.mk.injEq, PacketDeserializer.mk.injEq, true_and]
    simp; omega

theorem address_wire_length {a : Address} {w : Bytes} (h : Bincode.serialize .big a = .ok w) :
    w.length = 6 := by
  rw [Address.ser_eq_ok] at h
  obtain ⟨_, _, _, _, _, _, rfl⟩ := h
  simp [Tok.size]

theorem split_6_6_2 (w : Bytes) (h : w.length = 14) :
    ∃ (x y : Address) (j : UInt16), isV4 x = true ∧ isV4 y = true ∧
      w = addressBytes x ++ (addressBytes y ++ intBytes .big 2 j.toNat) := by
  obtain ⟨x, hx, ex⟩ := six_bytes (w.take 6) (by simp; omega)
  obtain ⟨y, hy, ey⟩ := six_bytes ((w.drop 6).take 6) (by simp; omega)
  obtain ⟨j, ej⟩ := two_bytes ((w.drop 6).drop 6) (by simp; omega)
  refine ⟨x, y, j, hx, hy, ?_⟩
  rw [ex, ey, ej, List.take_append_drop, List.take_append_drop]

/-- C21. Any 14 bytes are a puncture payload. -/
theorem C21_puncture_any : FixedFormat PuncturePayload 14 := by
  refine fixedFormat PuncturePayload.canonical ?_ ?_
  · intro v w h
    simp only [PuncturePayload.ser_eq, Outcome.bind_eq_ok, Outcome.pure_eq, Outcome.ok.injEq] at h
    obtain ⟨a, ha, b, hb, rfl⟩ := h
    simp [address_wire_length ha, address_wire_length hb]
  · intro w h
    obtain ⟨x, y, j, hx, hy, rfl⟩ := split_6_6_2 w h
    exact ⟨⟨x, y, j⟩, by rw [PuncturePayload.ser_eq, serialize_address x hx, serialize_address y hy]; rfl⟩

/-- C21. Any 14 bytes are a puncture request. -/
theorem C21_puncture_request_any : FixedFormat PunctureRequestPayload 14 := by
  refine fixedFormat PunctureRequestPayload.canonical ?_ ?_
  · intro v w h
    simp only [PunctureRequestPayload.ser_eq, Outcome.bind_eq_ok, Outcome.pure_eq,
      Outcome.ok.injEq] at h
    obtain ⟨a, ha, b, hb, rfl⟩ := h
    simp [address_wire_length ha, address_wire_length hb]
  · intro w h
    obtain ⟨x, y, j, hx, hy, rfl⟩ := split_6_6_2 w h
    exact ⟨⟨x, y, j⟩, by
      rw [PunctureRequestPayload.ser_eq, serialize_address x hx, serialize_address y hy]; rfl⟩

/-- C21. Any 8 bytes are a time payload. -/
theorem C21_time_any : FixedFormat TimeDistributionPayload 8 := by
  refine fixedFormat TimeDistributionPayload.canonical ?_ ?_
  · intro v w h
    rw [TimeDistributionPayload.ser_eq] at h
    cases h
    simp
  · intro w h
    refine ⟨⟨UInt64.ofNat (ofInt .big w)⟩, ?_⟩
    rw [TimeDistributionPayload.ser_eq]
    have hlt := ofInt_lt .big w
    rw [h] at hlt
    simp only
    rw [UInt64.toNat_ofNat', Nat.mod_eq_of_lt hlt]
    have := intBytes_ofInt .big w
    rw [h] at this
    rw [this]

example : (⟨[]⟩ : Packet).add (PuncturePayload.mk ⟨.v4 1 2 3 4 5⟩ ⟨.v4 6 7 8 9 10⟩ 258) =
    (.ok (), ⟨[1, 2, 3, 4, 0, 5, 6, 7, 8, 9, 0, 10, 1, 2]⟩) := by decide
example : (⟨[]⟩ : Packet).add (TimeDistributionPayload.mk 258) =
    (.ok (), ⟨[0, 0, 0, 0, 0, 0, 1, 2]⟩) := by decide

/-! ## C22: nested packets -/

/-- C22. One level: a packet of at most 65535 bytes is nested as length and bytes, and reads back; a
longer one is refused and the outer packet stays as it was. -/
theorem C22_one_level (inner : Packet) :
    (inner.len ≤ 65535 →
      Writes (NestedPacket.mk inner) (be16 inner.len ++ inner.bytes) ∧
      ReadsAs (be16 inner.len ++ inner.bytes) (NestedPacket.mk inner)) ∧
    (inner.len > 65535 → Refused (NestedPacket.mk inner)) := by
  constructor
  · intro h
    have hs : Bincode.serialize .big (NestedPacket.mk inner) =
        .ok (be16 inner.len ++ inner.bytes) := by
      rw [NestedPacket.serialize_eq, VarLen16.ser_eq_ok, be16_eq]
      exact ⟨Nat.lt_succ_of_le h, rfl⟩
    exact ⟨writes_of_serialize hs, readsAs_of_roundTrip NestedPacket.canonical.roundTrip hs⟩
  · intro h
    apply refused_of_err
    rw [NestedPacket.serialize_eq]
    have h' : inner.bytes.length > 65535 := h
    simp [Bincode.serialize, Serialize.ser, h', Outcome.isErr]

theorem nest_cons {mid : FixedBytes 20} {t : UInt8} {hs : List (FixedBytes 20 × UInt8)}
    {p inner : Packet} (h : nest hs p = .ok inner) :
    nest ((mid, t) :: hs) p =
      if inner.len ≤ 65535 then
        .ok ⟨Spec.header mid.1 t ++ (be16 inner.len ++ inner.bytes)⟩
      else .err (.custom "Data too large to fit in a VarLen16. Must be less than 65536 bytes.") := by
  simp only [nest, h, C10_wire]
  by_cases hl : inner.len ≤ 65535
  · rw [((C22_one_level inner).1 hl).1]
    simp [hl]
  · have h' : inner.bytes.length > 65535 := by simpa [Packet.len] using hl
    simp [Packet.add, Bincode.serialize, Serialize.ser, h', hl]

/-- C22. Any depth: what `nest` wraps, `unnest` unwraps, with all headers. -/
theorem C22_any_depth (hs : List (FixedBytes 20 × UInt8)) (p q : Packet) (h : nest hs p = .ok q) :
    unnest hs.length q = .ok (hs.map (fun x => Header.pyIpv8Header x.1 x.2), p) := by
  induction hs generalizing q with
  | nil => simp [nest] at h; subst h; rfl
  | cons x hs ih =>
    obtain ⟨mid, t⟩ := x
    cases hi : nest hs p with
    | err e => simp [nest, hi] at h
    | panic => simp [nest, hi] at h
    | ok inner =>
      rw [nest_cons hi] at h
      by_cases hl : inner.len ≤ 65535
      · rw [if_pos hl] at h
        cases h
        have hpop := (C10_read mid t [] (be16 inner.len ++ inner.bytes)).2.1
        simp only [List.nil_append, List.length_nil, Nat.zero_add] at hpop
        have hnext := ((C22_one_level inner).1 hl).2 (Spec.header mid.1 t) []
          (by
            have := C10_length mid t
            simp [this, usizeMax]
            simp [Packet.len] at hl
            omega)
        simp only [List.append_nil] at hnext
        rw [C10_length] at hnext
        simp only [List.length_cons, unnest, Packet.startDeserialize, hpop, hnext, ih inner hi,
          List.map_cons]
      · rw [if_neg hl] at h
        cases h

/-- Size of a nested packet. -/
theorem nest_length (hs : List (FixedBytes 20 × UInt8)) (p q : Packet) (h : nest hs p = .ok q) :
    q.len = p.len + 25 * hs.length := by
  induction hs generalizing q with
  | nil => simp [nest] at h; subst h; rfl
  | cons x hs ih =>
    obtain ⟨mid, t⟩ := x
    cases hi : nest hs p with
    | err e => simp [nest, hi] at h
    | panic => simp [nest, hi] at h
    | ok inner =>
      rw [nest_cons hi] at h
      by_cases hl : inner.len ≤ 65535
      · rw [if_pos hl] at h
        cases h
        have := ih inner hi
        have hh := C10_length mid t
        simp only [Packet.len, List.length_append, hh, be16_length, List.length_cons] at this ⊢
        omega
      · rw [if_neg hl] at h
        cases h

/-- C22. How deep one can nest: wrapping in `n + 1` packets works exactly while the packet next to the
outermost one, 25 bytes larger per level, is at most 65535 bytes; otherwise it is an error. -/
theorem C22_depth_limit (x : FixedBytes 20 × UInt8) (hs : List (FixedBytes 20 × UInt8)) (p : Packet) :
    ((nest (x :: hs) p).isOk = true ↔ p.len + 25 * hs.length ≤ 65535) ∧
    (nest (x :: hs) p ≠ .panic) := by
  induction hs generalizing x with
  | nil =>
    obtain ⟨mid, t⟩ := x
    rw [nest_cons (hs := []) (p := p) rfl]
    by_cases hl : p.len ≤ 65535 <;> simp [hl, Outcome.isOk]
  | cons y hs ih =>
    obtain ⟨mid, t⟩ := x
    have := ih y
    cases hi : nest (y :: hs) p with
    | err e =>
      rw [hi] at this
      simp only [nest] at hi
      simp only [Outcome.isOk] at this
      simp [nest, hi, Outcome.isOk]
      simp at this
      omega
    | panic => exact absurd hi this.2
    | ok inner =>
      rw [hi] at this
      have hlen := nest_length _ _ _ hi
      rw [nest_cons hi]
      simp only [List.length_cons] at hlen ⊢
      by_cases hl : inner.len ≤ 65535
      · simp [hl, Outcome.isOk]; omega
      · simp [hl, Outcome.isOk]; omega

example : ∃ q, nest [(FixedBytes.replicate 20 1, 3), (FixedBytes.replicate 20 2, 4)] ⟨[9, 9]⟩ = .ok q ∧
    q.len = 52 := by
  refine ⟨_, rfl, by decide⟩

/-! ## Cases for the theorems above -/

/-- `C19_read`: the flag `tunnel` is set before and not after. -/
example : ReadsLastAs (introductionResponse exampleResponse) { exampleResponse with tunnel := false } :=
  C19_read exampleResponse (by decide)

/-- `C20_request_decode`, `C20_request_canonical` and `C20_request_ignores_bits`: the request of C18 with flag byte 131
behind three other bytes. -/
example :
    (∃ v : IntroductionRequestPayload,
      nextPayload IntroductionRequestPayload ⟨⟨[0, 0, 0, 1, 2, 3, 4, 0, 5, 6, 7, 8, 9, 0, 10, 11, 12, 13, 14, 0, 15, 131, 18, 52, 42]⟩, 3⟩ =
        (.ok v, ⟨⟨[0, 0, 0, 1, 2, 3, 4, 0, 5, 6, 7, 8, 9, 0, 10, 11, 12, 13, 14, 0, 15, 131, 18, 52, 42]⟩, 25⟩) ∧
      v.advice = true ∧ v.connectionType = connectionOf true true ∧
      Writes v [1, 2, 3, 4, 0, 5, 6, 7, 8, 9, 0, 10, 11, 12, 13, 14, 0, 15, 131, 18, 52, 42]) ∧
    (nextPayload IntroductionRequestPayload ⟨⟨[1, 2, 3, 4, 0, 5, 6, 7, 8, 9, 0, 10, 11, 12, 13, 14, 0, 15, 131, 18, 52, 42]⟩, 0⟩).1 =
    (nextPayload IntroductionRequestPayload ⟨⟨[1, 2, 3, 4, 0, 5, 6, 7, 8, 9, 0, 10, 11, 12, 13, 14, 0, 15, 195, 18, 52, 42]⟩, 0⟩).1 := by
  refine ⟨?_, C20_request_ignores_bits [] [1, 2, 3, 4, 0, 5] [6, 7, 8, 9, 0, 10] [11, 12, 13, 14, 0, 15] [18, 52] [42] 131 195
    rfl rfl rfl rfl (by decide) (by decide) (by decide) (by decide)⟩
  obtain ⟨v, h1, -, -, -, h2, h3, -⟩ := C20_request_decode [0, 0, 0] [1, 2, 3, 4, 0, 5] [6, 7, 8, 9, 0, 10] [11, 12, 13, 14, 0, 15]
    [18, 52] [42] 131 rfl rfl rfl rfl (by decide)
  exact ⟨v, h1, h2, h3, (C20_request_canonical [0, 0, 0] [1, 2, 3, 4, 0, 5] [6, 7, 8, 9, 0, 10] [11, 12, 13, 14, 0, 15]
    [18, 52] [42] 131 rfl rfl rfl rfl (by decide) v _ h1).mpr (by decide)⟩

/-- `C20_response_decode`, `C20_response_canonical` and `C20_response_ignores_bits` likewise. -/
example :
    (∃ v : IntroductionResponsePayload,
      nextPayload IntroductionResponsePayload ⟨⟨[0, 1, 2, 3, 4, 0, 5, 6, 7, 8, 9, 0, 10, 11, 12, 13, 14, 0, 15, 1, 1, 1, 1, 1, 1, 2, 2, 2, 2, 2, 2, 3, 18, 52, 42]⟩, 1⟩ =
        (.ok v, ⟨⟨[0, 1, 2, 3, 4, 0, 5, 6, 7, 8, 9, 0, 10, 11, 12, 13, 14, 0, 15, 1, 1, 1, 1, 1, 1, 2, 2, 2, 2, 2, 2, 3, 18, 52, 42]⟩, 35⟩) ∧
      v.tunnel = false ∧ v.connectionType = connectionOf true true ∧
      Writes v [1, 2, 3, 4, 0, 5, 6, 7, 8, 9, 0, 10, 11, 12, 13, 14, 0, 15, 1, 1, 1, 1, 1, 1, 2, 2, 2, 2, 2, 2, 3, 18, 52, 42]) ∧
    (nextPayload IntroductionResponsePayload ⟨⟨[1, 2, 3, 4, 0, 5, 6, 7, 8, 9, 0, 10, 11, 12, 13, 14, 0, 15, 1, 1, 1, 1, 1, 1, 2, 2, 2, 2, 2, 2, 3, 18, 52, 42]⟩, 0⟩).1 =
    (nextPayload IntroductionResponsePayload ⟨⟨[1, 2, 3, 4, 0, 5, 6, 7, 8, 9, 0, 10, 11, 12, 13, 14, 0, 15, 1, 1, 1, 1, 1, 1, 2, 2, 2, 2, 2, 2, 255, 18, 52, 42]⟩, 0⟩).1 := by
  refine ⟨?_, C20_response_ignores_bits [] [1, 2, 3, 4, 0, 5] [6, 7, 8, 9, 0, 10] [11, 12, 13, 14, 0, 15] [1, 1, 1, 1, 1, 1]
    [2, 2, 2, 2, 2, 2] [18, 52] [42] 3 255 rfl rfl rfl rfl rfl rfl (by decide) (by decide) (by decide)⟩
  obtain ⟨v, h1, -, -, -, -, -, h2, h3, -⟩ := C20_response_decode [0] [1, 2, 3, 4, 0, 5] [6, 7, 8, 9, 0, 10] [11, 12, 13, 14, 0, 15]
    [1, 1, 1, 1, 1, 1] [2, 2, 2, 2, 2, 2] [18, 52] [42] 3 rfl rfl rfl rfl rfl rfl (by decide)
  exact ⟨v, h1, h2, h3, (C20_response_canonical [0] [1, 2, 3, 4, 0, 5] [6, 7, 8, 9, 0, 10] [11, 12, 13, 14, 0, 15]
    [1, 1, 1, 1, 1, 1] [2, 2, 2, 2, 2, 2] [18, 52] [42] 3 rfl rfl rfl rfl rfl rfl (by decide) v _ h1).mpr (by decide)⟩

/-- `C21_puncture_request` -/
example : Writes (PunctureRequestPayload.mk ⟨.v4 1 2 3 4 5⟩ ⟨.v4 6 7 8 9 10⟩ 258) [1, 2, 3, 4, 0, 5, 6, 7, 8, 9, 0, 10, 1, 2] :=
  (C21_puncture_request ⟨⟨.v4 1 2 3 4 5⟩, ⟨.v4 6 7 8 9 10⟩, 258⟩ (by decide)).2.1

/-- `C22_any_depth` -/
example : ∃ q, nest [(FixedBytes.replicate 20 1, 3), (FixedBytes.replicate 20 2, 4)] ⟨[9, 9]⟩ = .ok q ∧
    unnest 2 q = .ok ([.pyIpv8Header (FixedBytes.replicate 20 1) 3, .pyIpv8Header (FixedBytes.replicate 20 2) 4], ⟨[9, 9]⟩) :=
  ⟨_, rfl, C22_any_depth [(FixedBytes.replicate 20 1, 3), (FixedBytes.replicate 20 2, 4)] ⟨[9, 9]⟩ _ rfl⟩

/-- `C15_partial` and `C16`: an authentication payload that announces three bytes. -/
example : (nextPayload BinMemberAuthenticationPayload ⟨⟨[0, 3, 1, 2, 3]⟩, 0⟩).1 = .panic :=
  (C15_partial [0, 3, 1, 2, 3] 0 (by decide)).mpr (by decide)
example := (C16 [0, 3, 1, 2, 3] 0 (by decide)).2.1 (by decide) (by decide)

/-- `C20_short`: twenty bytes. -/
example := (C20_short (List.replicate 20 7) 0 (by decide)).1 (by decide)

/-- `C21_puncture`: two IPv4 addresses. -/
example := C21_puncture ⟨⟨.v4 1 2 3 4 5⟩, ⟨.v4 6 7 8 9 10⟩, 11⟩ (by simp [addressesP, isV4])

/-- `C18_read`, `C18_wire` and `C19_wire`. -/
example (extra : RawEnd) (v : IntroductionRequestPayload) (w : IntroductionResponsePayload)
    (hv : v = ⟨⟨.v4 1 2 3 4 5⟩, ⟨.v4 1 2 3 4 5⟩, ⟨.v4 6 7 8 9 10⟩, true, .PUBLIC, 11, extra⟩)
    (hw : w = ⟨⟨.v4 1 2 3 4 5⟩, ⟨.v4 1 2 3 4 5⟩, ⟨.v4 6 7 8 9 10⟩, ⟨.v4 1 2 3 4 5⟩, ⟨.v4 6 7 8 9 10⟩, true, .PUBLIC, 11, extra⟩) :
    Writes v (introductionRequest v) ∧ ReadsLastAs (introductionRequest v) v ∧ Writes w (introductionResponse w) := by
  subst hv hw
  exact ⟨C18_wire _ (by simp [addressesIReq, isV4]), C18_read _ (by simp [addressesIReq, isV4]),
    C19_wire _ (by simp [addressesIResp, isV4])⟩

/-- `C22_depth_limit`: three levels. -/
example := C22_depth_limit (FixedBytes.replicate 20 7, 1) [(FixedBytes.replicate 20 7, 2), (FixedBytes.replicate 20 7, 3)] ⟨[1, 2]⟩

end Ipv8
