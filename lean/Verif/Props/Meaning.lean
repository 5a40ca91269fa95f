import Verif.Props.Authentic
/-!
# C114: the bytes of a message determine the message
-/

namespace Ipv8
open PacketDeserializer Spec

/-- `b` is the packet made of this header and these payloads, in this order. -/
def BuiltFrom (mid : FixedBytes 20) (t : UInt8) (vs : List AnyPayload) (b : Bytes) : Prop :=
  ∃ p, Packet.new (Header.pyIpv8Header mid t) = .ok p ∧ addAll p vs = .ok ⟨b⟩

theorem BuiltFrom.header {mid : FixedBytes 20} {t : UInt8} {vs : List AnyPayload} {b : Bytes}
    (h : BuiltFrom mid t vs b) : ∃ w, b = Spec.header mid.1 t ++ w := by
  obtain ⟨p, hp, hq⟩ := h
  rw [C10_wire] at hp
  cases hp
  exact addAll_prefix hq

theorem header_prefix_inj {mid mid' : FixedBytes 20} {t t' : UInt8} {w w' : Bytes}
    (h : Spec.header mid.1 t ++ w = Spec.header mid'.1 t' ++ w') : mid = mid' ∧ t = t' ∧ w = w' := by
  have hl : (Spec.header mid.1 t).length = (Spec.header mid'.1 t').length := by rw [C10_length, C10_length]
  obtain ⟨h1, h2⟩ := List.append_inj h hl
  simp only [Spec.header, List.cons_append, List.nil_append, List.cons.injEq, true_and] at h1
  have hm : mid.1.length = mid'.1.length := by rw [mid.2, mid'.2]
  obtain ⟨h3, h4⟩ := List.append_inj h1 hm
  simp only [List.cons.injEq, and_true] at h4
  exact ⟨Subtype.ext h3, h4, h2⟩

theorem built_reads {mid : FixedBytes 20} {t : UInt8} {vs : List AnyPayload} {b : Bytes}
    (h : BuiltFrom mid t vs b) (hd : Delimited vs) (hl : b.length ≤ usizeMax) :
    readAll ⟨⟨b⟩, 23⟩ (vs.map (·.1)) = .ok (vs, ⟨⟨b⟩, b.length⟩) := by
  obtain ⟨w, hw⟩ := h.header
  obtain ⟨p, hp, hq⟩ := h
  have hpop : (Packet.mk b).startDeserialize.popHeader = (.ok (Header.pyIpv8Header mid t), ⟨⟨b⟩, 23⟩) := by
    have := (C10_read mid t [] w).2.1
    simp only [List.nil_append, List.length_nil, Nat.zero_add, ← hw] at this
    exact this
  have key : ∃ d, (Packet.mk b).startDeserialize.popHeader = (.ok (Header.pyIpv8Header mid t), d) ∧
      readAll d (vs.map (·.1)) = .ok (vs, ⟨⟨b⟩, b.length⟩) := by
    obtain ⟨hf, hsd | ⟨front, last, rfl, hsd, hlast⟩⟩ := hd
    · exact C24 mid t vs hsd hf p ⟨b⟩ hp hq hl
    · exact C24_last mid t front last hsd (fun x hx => hf x (by simp [hx])) hlast (hf last (by simp)) p ⟨b⟩ hp hq hl
  obtain ⟨d, h1, h2⟩ := key
  rw [hpop] at h1
  simp only [Prod.mk.injEq, true_and] at h1
  rw [h1]
  exact h2

/-- **C114.**  The parties agree which payload types follow which header (`types`).  Then two messages that
keep to that and have the same bytes are the same message: same mid, same message type, same payloads. -/
theorem C114 (types : Bytes → UInt8 → List Kind) (mid mid' : FixedBytes 20) (t t' : UInt8)
    (vs vs' : List AnyPayload) (ht : vs.map (·.1) = types mid.1 t) (ht' : vs'.map (·.1) = types mid'.1 t')
    (hd : Delimited vs) (hd' : Delimited vs') (b : Bytes) (hl : b.length ≤ usizeMax)
    (h : BuiltFrom mid t vs b) (h' : BuiltFrom mid' t' vs' b) : mid = mid' ∧ t = t' ∧ vs = vs' := by
  obtain ⟨w, hw⟩ := h.header
  obtain ⟨w', hw'⟩ := h'.header
  obtain ⟨rfl, rfl, -⟩ := header_prefix_inj (hw ▸ hw')
  refine ⟨rfl, rfl, ?_⟩
  have h1 := built_reads h hd hl
  have h2 := built_reads h' hd' hl
  rw [ht] at h1
  rw [ht', h1] at h2
  simp only [Outcome.ok.injEq, Prod.mk.injEq, and_true] at h2
  exact h2

/-- **C114, prefixes.**  If all agreed types know where they end, no message is the beginning of another one:
whatever is put behind a message, the result is not a message, unless nothing is. -/
theorem C114_prefix (types : Bytes → UInt8 → List Kind) (mid mid' : FixedBytes 20) (t t' : UInt8)
    (vs vs' : List AnyPayload) (ht : vs.map (·.1) = types mid.1 t) (ht' : vs'.map (·.1) = types mid'.1 t')
    (hsd : ∀ m u, ∀ k ∈ types m u, k.SelfDelimiting)
    (hf : ∀ x ∈ vs, x.1.Fits x.2) (hf' : ∀ x ∈ vs', x.1.Fits x.2)
    (b rest : Bytes) (hl : (b ++ rest).length ≤ usizeMax)
    (h : BuiltFrom mid t vs b) (h' : BuiltFrom mid' t' vs' (b ++ rest)) :
    mid = mid' ∧ t = t' ∧ vs = vs' ∧ rest = [] := by
  obtain ⟨w, hw⟩ := h.header
  obtain ⟨w', hw'⟩ := h'.header
  have e : Spec.header mid.1 t ++ (w ++ rest) = Spec.header mid'.1 t' ++ w' := by
    rw [← hw', hw, List.append_assoc]
  obtain ⟨rfl, rfl, -⟩ := header_prefix_inj e
  have hs : ∀ us : List AnyPayload, us.map (·.1) = types mid.1 t → ∀ x ∈ us, x.1.SelfDelimiting := by
    intro us hu x hx
    exact hsd mid.1 t x.1 (hu ▸ List.mem_map_of_mem (f := (·.1)) hx)
  obtain ⟨p, hp, hq⟩ := h
  rw [C10_wire] at hp
  cases hp
  have h1 := readAll_addAll (hs vs ht) hf hq rest hl
  have h2 := built_reads h' ⟨hf', .inl (hs vs' ht')⟩ hl
  simp only [C10_length] at h1
  rw [ht] at h1
  rw [ht', h1] at h2
  simp only [Outcome.ok.injEq, Prod.mk.injEq, PacketDeserializer.mk.injEq, true_and, List.length_append] at h2
  refine ⟨rfl, rfl, h2.1, List.eq_nil_of_length_eq_zero (by omega)⟩

theorem Message.Body.built {m : Message} {pk : Ed25519PublicKey} {b : Bytes} (h : m.Body pk b) :
    BuiltFrom m.mid m.type (⟨.auth, BinMemberAuthenticationPayload.mk pk m.encryptionKey⟩ :: m.payloads) b := h

/-- **C114, signed messages.**  The bytes that are signed tell, with the agreed types, who signed what: messages
of two key holders with the same signed bytes have the same key in them and are the same message.  So a
signature covers one message only, of one key holder, for one community. -/
theorem C114_signed (types : Bytes → UInt8 → List Kind) (m m' : Message) (pk pk' : Ed25519PublicKey)
    (hc : m.Conforms types) (hc' : m'.Conforms types) (b : Bytes) (hl : b.length ≤ usizeMax)
    (h : m.Body pk b) (h' : m'.Body pk' b) : pk = pk' ∧ m = m' := by
  have hd : ∀ (m : Message) (pk : Ed25519PublicKey), Delimited m.payloads →
      Delimited (⟨.auth, BinMemberAuthenticationPayload.mk pk m.encryptionKey⟩ :: m.payloads) := by
    intro m pk ⟨hf, ho⟩
    refine ⟨by simpa [Kind.Fits] using hf, ?_⟩
    rcases ho with ho | ⟨front, last, e, ho, hlast⟩
    · exact .inl (by simpa [Kind.SelfDelimiting] using ho)
    · exact .inr ⟨⟨.auth, BinMemberAuthenticationPayload.mk pk m.encryptionKey⟩ :: front, last, by rw [e]; rfl,
        by simpa [Kind.SelfDelimiting] using ho, hlast⟩
  obtain ⟨e1, e2, e3⟩ := C114 (fun x u => .auth :: types x u) m.mid m'.mid m.type m'.type _ _
    (by simp [hc.1]) (by simp [hc'.1]) (hd m pk hc.2) (hd m' pk' hc'.2) b hl h.built h'.built
  obtain ⟨mid, type, enc, vs⟩ := m
  obtain ⟨mid', type', enc', vs'⟩ := m'
  simp only at e1 e2
  simp only [List.cons.injEq] at e3
  have e4 : pk = pk' ∧ enc = enc' := by
    have := e3.1
    injection this with _ a2
    injection a2 with a3 a4
    exact ⟨a3, a4⟩
  obtain ⟨rfl, rfl⟩ := e4
  obtain rfl := e1
  obtain rfl := e2
  obtain ⟨-, rfl⟩ := e3
  exact ⟨rfl, rfl⟩

/-- **C114, signed packets.**  The same for whole packets: two signed packets with the same bytes come from the
same message, and the same key is in them. -/
theorem C114_packet (R : Ring) (hR : R.Correct) (types : Bytes → UInt8 → List Kind) (m m' : Message)
    (pk pk' : Ed25519PublicKey) (kp kp' : KeyPair R) (hc : m.Conforms types) (hc' : m'.Conforms types)
    (q q' s : Packet) (h : m.Body pk q.bytes) (h' : m'.Body pk' q'.bytes)
    (hs : q.sign kp = .ok s) (hs' : q'.sign kp' = .ok s) (hl : s.bytes.length ≤ usizeMax) :
    pk = pk' ∧ m = m' := by
  obtain ⟨a1, a2⟩ := C30 R hR kp q
  obtain ⟨b1, b2⟩ := C30 R hR kp' q'
  rw [a1] at hs
  rw [b1, ← hs] at hs'
  simp only [Outcome.ok.injEq, Packet.mk.injEq] at hs hs'
  have e := List.append_inj_left' hs' (by rw [a2, b2])
  have hlq : q.bytes.length ≤ usizeMax := by rw [← hs] at hl; simp at hl; omega
  rw [e] at h'
  exact C114_signed types m m' pk pk' hc hc' q.bytes hlq h h'

/-- **C114, the agreement is needed.**  The bytes alone do not tell the types.  Behind any header and any
payloads, an empty 16-bit-length list and a struct with the 16-bit number 0 give the same packet, and so do a
list of one byte and a struct of the number 1 and that byte; and one struct of two fields gives the same
packet as two structs of one.  All four sides are within the protocol rules otherwise. -/
theorem C114_confused (mid : FixedBytes 20) (t : UInt8) (vs : List AnyPayload) (b : Bytes)
    (h : BuiltFrom mid t vs b) (x : UInt8) :
    (BuiltFrom mid t (vs ++ [⟨.varlen16, VarLen16.mk []⟩]) (b ++ [0, 0]) ∧
      BuiltFrom mid t (vs ++ [⟨.derived .u16, Derived.mk (0 : UInt16)⟩]) (b ++ [0, 0])) ∧
    (BuiltFrom mid t (vs ++ [⟨.varlen16, VarLen16.mk [x]⟩]) (b ++ [0, 1, x]) ∧
      BuiltFrom mid t (vs ++ [⟨.derived (.cons .u16 .u8), Derived.mk ((1 : UInt16), x)⟩]) (b ++ [0, 1, x])) ∧
    (BuiltFrom mid t (vs ++ [⟨.derived (.cons .u8 .u8), Derived.mk (x, x)⟩]) (b ++ [x, x]) ∧
      BuiltFrom mid t (vs ++ [⟨.derived .u8, Derived.mk x⟩, ⟨.derived .u8, Derived.mk x⟩]) (b ++ [x, x])) := by
  obtain ⟨p, hp, hq⟩ := h
  have one : ∀ (x : AnyPayload) (w : Bytes), (∀ p : Packet, p.add x.2 = (.ok (), ⟨p.bytes ++ w⟩)) →
      BuiltFrom mid t (vs ++ [x]) (b ++ w) := by
    intro x w hw
    exact ⟨p, hp, addAll_append.mpr ⟨⟨b⟩, hq, by simp [addAll, hw]⟩⟩
  have e1 : intBytes .big 2 1 = [0, 1] := by decide
  refine ⟨⟨one _ _ fun _ => rfl, one _ _ fun _ => rfl⟩, ⟨one _ _ fun p => ?_, one _ _ fun p => ?_⟩,
    one _ _ fun _ => rfl, p, hp, addAll_append.mpr ⟨⟨b⟩, hq, ?_⟩⟩
  · show Packet.add (α := VarLen16) p ⟨[x]⟩ = _
    simp [Packet.add, Bincode.serialize, Serialize.ser, Tok.bytes, e1]
  · show Packet.add (α := Derived (.cons .u16 .u8)) p ⟨(1, x)⟩ = _
    simp [Packet.add, Bincode.serialize, Serialize.ser, Sch.ser, Tok.bytes, e1]
  have e : ∀ p : Packet, Packet.add (α := Kind.Ty (.derived .u8)) p (Derived.mk x) = (.ok (), ⟨p.bytes ++ [x]⟩) :=
    fun _ => rfl
  simp only [addAll, e]
  simp

/-! ## Cases for the theorems above -/

/-- A protocol: message 1 carries a time and a list, message 2 an introduction request. -/
def exampleTypes (_ : Bytes) (t : UInt8) : List Kind :=
  if t = 1 then [.time, .varlen16] else if t = 2 then [.introRequest] else []

/-- The bytes of a message 1. -/
def exampleMeant : Bytes :=
  Spec.header (List.replicate 20 7) 1 ++ [0, 0, 0, 0, 0, 0, 0, 42, 0, 2, 8, 9]

theorem exampleMeant_built : BuiltFrom (FixedBytes.replicate 20 7) 1
    [⟨.time, TimeDistributionPayload.mk 42⟩, ⟨.varlen16, VarLen16.mk [8, 9]⟩] exampleMeant :=
  ⟨⟨Spec.header (List.replicate 20 7) 1⟩, by decide +kernel, by decide +kernel⟩

theorem exampleMeant_fits : ∀ x ∈ ([⟨.time, TimeDistributionPayload.mk 42⟩, ⟨.varlen16, VarLen16.mk [8, 9]⟩] :
    List AnyPayload), x.1.Fits x.2 := by
  simp [Kind.Fits]

theorem exampleMeant_delimited :
    Delimited [⟨.time, TimeDistributionPayload.mk 42⟩, ⟨.varlen16, VarLen16.mk [8, 9]⟩] :=
  ⟨exampleMeant_fits, .inl (by simp [Kind.SelfDelimiting])⟩

/-- `C114`: the only message with these bytes. -/
example (mid : FixedBytes 20) (t : UInt8) (vs : List AnyPayload) (ht : vs.map (·.1) = exampleTypes mid.1 t)
    (hd : Delimited vs) (h : BuiltFrom mid t vs exampleMeant) :=
  C114 exampleTypes mid (FixedBytes.replicate 20 7) t 1 vs _ ht rfl hd exampleMeant_delimited exampleMeant
    (by decide +kernel) h exampleMeant_built

/-- `C114_prefix`: and no message begins with them, in the protocol without the introduction request. -/
example (mid : FixedBytes 20) (t : UInt8) (vs : List AnyPayload) (rest : Bytes)
    (ht : vs.map (·.1) = if t = 1 then [Kind.time, .varlen16] else []) (hf : ∀ x ∈ vs, x.1.Fits x.2)
    (hl : (exampleMeant ++ rest).length ≤ usizeMax) (h : BuiltFrom mid t vs (exampleMeant ++ rest)) :=
  C114_prefix (fun _ t => if t = 1 then [.time, .varlen16] else []) (FixedBytes.replicate 20 7) mid 1 t _ vs rfl ht
    (by intro _ u k hk; split at hk <;> simp at hk; rcases hk with rfl | rfl <;> trivial)
    exampleMeant_fits hf exampleMeant rest hl exampleMeant_built h

/-- With an introduction request, which reaches to the end, one message can be the beginning of another. -/
example : ∃ p : Packet, addAll ⟨Spec.header (List.replicate 20 7) 2⟩ [⟨.introRequest, exampleRequest⟩] = .ok p ∧
    addAll ⟨Spec.header (List.replicate 20 7) 2⟩
      [⟨.introRequest, { exampleRequest with extraBytes := ⟨exampleRequest.extraBytes.data ++ [1]⟩ }⟩] =
        .ok ⟨p.bytes ++ [1]⟩ := by
  refine ⟨_, by rfl, by decide +kernel⟩

/-- `C114_signed`: the message of C63. -/
example (pk : Ed25519PublicKey) (m : Message) (hc : m.Conforms (fun _ t => if t = 246 then [.time] else []))
    (h : m.Body pk exampleBody) :=
  C114_signed _ m exampleAuthentic pk (FixedBytes.replicate 32 9) hc exampleAuthentic_conforms exampleBody
    (by decide +kernel) h exampleAuthentic_body

/-- `C114_packet`: the packet of C63. -/
example (pk : Ed25519PublicKey) (m : Message) (kp : KeyPair toyRing)
    (hc : m.Conforms (fun _ t => if t = 246 then [.time] else [])) (q : Packet)
    (h : m.Body pk q.bytes) (hs : q.sign kp = .ok exampleSigned) :=
  C114_packet toyRing toyRing_correct _ m exampleAuthentic pk (FixedBytes.replicate 32 9) kp ⟨FixedBytes.replicate 32 9⟩
    hc exampleAuthentic_conforms q ⟨exampleBody⟩ exampleSigned h exampleAuthentic_body hs (by decide +kernel) (by decide +kernel)

/-- `C114_confused`: behind the message above. -/
example := C114_confused (FixedBytes.replicate 20 7) 1 _ exampleMeant exampleMeant_built 5

end Ipv8
