import Verif.Lemmas.Kind
/-!
# Properties C17, C23 – C29, C54, C55: packets and cursors
-/

namespace Ipv8
open Spec PacketDeserializer

/-! ## C17: the cursor advances by the bytes read -/

/-- The bytes a decoder of `α` takes from `r`: what is in front of the rest it leaves. -/
def Consumes (α : Type) [Deserialize α] (r : Bytes) (v : α) (n : Nat) : Prop :=
  ∃ w rest, r = w ++ rest ∧ w.length = n ∧ (Deserialize.de .big : De α) r = .ok (v, rest)

/-- C17 for one payload type: after a successful read the cursor has moved by exactly the bytes
consumed. -/
def CursorExact (k : Kind) : Prop :=
  ∀ (d d' : PacketDeserializer) (v : k.Ty), d.pntr.bytes.length ≤ usizeMax →
    d.nextPayload k.Ty = (.ok v, d') →
      ∃ n, d' = ⟨d.pntr, d.index + n⟩ ∧ d'.index ≤ d.pntr.bytes.length ∧
        Consumes k.Ty (d.pntr.bytes.drop d.index) v n

/-- C17, what holds: the cursor is exact for every payload type except authentication payloads.
Missing: authentication payloads, where it is false (`C17_false`, `C17_auth`). -/
theorem C17_partial (k : Kind) (hk : k ≠ .auth) : CursorExact k := by
  intro d d' v hl h
  obtain ⟨h1, h2, h3, h4⟩ := nextPayload_sizeExact (k.sizeExact hk) hl h
  refine ⟨d'.index - d.index, ?_, h2, ?_⟩
  · cases d'
    simp only at h1 h3 ⊢
    rw [h3]
    congr 1
    omega
  · refine ⟨(d.pntr.bytes.drop d.index).take (d'.index - d.index), d.pntr.bytes.drop d'.index, ?_, ?_,
      h4⟩
    · have : d.pntr.bytes.drop d'.index = (d.pntr.bytes.drop d.index).drop (d'.index - d.index) := by
        rw [List.drop_drop]; congr 1; omega
      rw [this, List.take_append_drop]
    · rw [List.length_take, List.length_drop]; omega

/-- Eighty bytes holding an authentication payload whose announced content is 75 bytes long. -/
def longAuth : Bytes := [0, 75] ++ keyPrefix ++ List.replicate 64 7 ++ [1] ++ [2, 3, 4]

/-- C17 is false for authentication payloads: 77 bytes are consumed, the cursor moves 76. -/
theorem C17_false : ¬ CursorExact .auth := by
  intro h
  have hk : keyPrefix = libNaCLPK := keyPrefix_eq
  have hr : (nextPayload BinMemberAuthenticationPayload ⟨⟨longAuth⟩, 0⟩) =
      (.ok ⟨FixedBytes.replicate 32 7, FixedBytes.replicate 32 7⟩, ⟨⟨longAuth⟩, 76⟩) := by
    decide +kernel
  obtain ⟨n, h1, _, w, rest, h3, h4, h5⟩ := h ⟨⟨longAuth⟩, 0⟩ ⟨⟨longAuth⟩, 76⟩ _ (by decide +kernel) hr
  have hd : (Deserialize.de .big : De BinMemberAuthenticationPayload) longAuth =
      .ok (⟨FixedBytes.replicate 32 7, FixedBytes.replicate 32 7⟩, [2, 3, 4]) := by
    decide +kernel
  have h5 : (Deserialize.de .big : De BinMemberAuthenticationPayload) longAuth =
      .ok (⟨FixedBytes.replicate 32 7, FixedBytes.replicate 32 7⟩, rest) := h5
  rw [hd] at h5
  simp only [Outcome.ok.injEq, Prod.mk.injEq, true_and] at h5
  subst h5
  have hlen := congrArg List.length h3
  have : longAuth.length = 80 := by decide +kernel
  simp only [List.drop_zero, List.length_append, this] at hlen
  simp only [PacketDeserializer.mk.injEq, true_and] at h1
  simp at hlen
  omega

/-- C17 for authentication payloads, exactly: with announced content length `n`, the decoder consumes
`2 + n` bytes and the cursor moves 76, so they agree exactly for the honest length 74. -/
theorem C17_auth (d d' : PacketDeserializer) (v : BinMemberAuthenticationPayload)
    (h : d.nextPayload BinMemberAuthenticationPayload = (.ok v, d')) :
    ∃ n, n = fromBE ((d.pntr.bytes.drop d.index).take 2) ∧ 74 ≤ n ∧
      d' = ⟨d.pntr, d.index + 76⟩ ∧ d'.index ≤ d.pntr.bytes.length ∧
      Consumes BinMemberAuthenticationPayload (d.pntr.bytes.drop d.index) v (2 + n) := by
  have hi : d.index ≤ d.pntr.bytes.length := by
    unfold nextPayload sliceFrom at h
    by_cases hx : d.index ≤ d.pntr.bytes.length
    · exact hx
    · simp [hx] at h
  rw [nextPayload_inside hi] at h
  have hdef := BinMemberAuthenticationPayload.de_def .big (d.pntr.bytes.drop d.index)
  cases hv : (Deserialize.de .big : De VarLen16) (d.pntr.bytes.drop d.index) with
  | err e => rw [hv] at hdef; simp only [hdef] at h; simp at h
  | panic => rw [hv] at hdef; simp only [hdef] at h; simp at h
  | ok x =>
    obtain ⟨c, rest⟩ := x
    rw [hv] at hdef
    simp only at hdef
    cases ha : authOfContents c.data with
    | err e => rw [ha] at hdef; simp only [hdef] at h; simp at h
    | panic => rw [ha] at hdef; simp only [hdef] at h; simp at h
    | ok a =>
      rw [ha] at hdef
      simp only at hdef
      have hsz : Bincode.serializedSize a = .ok 76 := by
        rw [Bincode.size_of_serialize (BinMemberAuthenticationPayload.ser_eq .big a),
          authBytes_length]
      simp only [hdef, hsz, Prod.mk.injEq, Outcome.ok.injEq] at h
      obtain ⟨rfl, rfl⟩ := h
      rw [VarLen16.de_eq_ok] at hv
      obtain ⟨hlt, hr⟩ := hv
      have h74 : 74 ≤ c.data.length := by
        rw [authOfContents_eq] at ha
        split at ha
        · simp at ha
        · split at ha
          · simp at ha
          · split at ha
            · simp at ha
            · omega
      refine ⟨c.data.length, ?_, h74, rfl, ?_, intBytes .big 2 c.data.length ++ c.data, rest, ?_, ?_,
        hdef⟩
      · rw [hr, fromBE_eq, List.take_append_of_le_length (by simp),
          List.take_of_length_le (by simp)]
        rw [ofInt_intBytes, Nat.mod_eq_of_lt (by omega)]
      · have hlen := congrArg List.length hr
        simp at hlen
        simp only
        omega
      · rw [hr, List.append_assoc]
      · simp

example : (nextPayload BinMemberAuthenticationPayload ⟨⟨longAuth⟩, 0⟩) =
      (.ok ⟨FixedBytes.replicate 32 7, FixedBytes.replicate 32 7⟩, ⟨⟨longAuth⟩, 76⟩) := by
    decide +kernel
example : nextPayload (Kind.Ty .varlen16) ⟨⟨[9, 0, 2, 5, 6, 7]⟩, 1⟩ =
    (.ok (VarLen16.mk [5, 6]), ⟨⟨[9, 0, 2, 5, 6, 7]⟩, 5⟩) := by rfl

/-! ## C23: `add` is append-only and atomic -/

/-- C23. For every payload type and value there is a fixed string `w` (nothing, if the value is
refused) such that adding the value to any packet appends `w` and touches nothing else; when it is
refused the packet is unchanged. -/
theorem C23 {α : Type} [Ipv8Payload α] [Serialize α] (v : α) :
    (∃ w, ∀ p : Packet, p.add v = (.ok (), ⟨p.bytes ++ w⟩)) ∨
    (∃ e, ∀ p : Packet, p.add v = (.err e, p)) ∨ (∀ p : Packet, p.add v = (.panic, p)) := by
  unfold Packet.add
  cases h : Bincode.serialize .big v with
  | ok w => exact .inl ⟨w, fun p => rfl⟩
  | err e => exact .inr (.inl ⟨e, fun p => rfl⟩)
  | panic => exact .inr (.inr fun p => rfl)

/-- C23. No payload of the crate and no user-defined one makes `add` panic. -/
theorem C23_no_panic (k : Kind) (v : k.Ty) (p : Packet) : (p.add v).1 ≠ .panic := by
  unfold Packet.add
  have := k.ser_ne_panic v
  cases h : Bincode.serialize .big v with
  | ok w => simp
  | err e => simp
  | panic =>
    unfold Bincode.serialize at h
    cases hs : (Serialize.ser v : Outcome (List Tok)) with
    | ok ts => simp [hs] at h
    | err e => simp [hs] at h
    | panic => exact absurd hs this

/-- C23. The same for signatures. -/
theorem C23_signature (s : Signature) (p : Packet) : p.add s = (.ok (), ⟨p.bytes ++ s.bytes.1⟩) := by
  simp [Packet.add, Bincode.serialize, Serialize.ser]

example : (⟨[1, 2]⟩ : Packet).add (VarLen16.mk [3]) = (.ok (), ⟨[1, 2, 0, 1, 3]⟩) ∧
    ((⟨[1, 2]⟩ : Packet).add (PuncturePayload.mk ⟨.v6 (FixedBytes.replicate 16 1) 0 0 0⟩ ⟨.v4 1 2 3 4 5⟩ 6)).2 = ⟨[1, 2]⟩ := by
  decide

/-! ## C24: messages of several payloads -/

theorem addAll_append {p q : Packet} {vs ws : List AnyPayload} :
    addAll p (vs ++ ws) = .ok q ↔ ∃ m, addAll p vs = .ok m ∧ addAll m ws = .ok q := by
  induction vs generalizing p with
  | nil => simp [addAll]
  | cons x vs ih =>
    obtain ⟨k, v⟩ := x
    simp only [List.cons_append, addAll]
    rcases h : p.add v with ⟨o, p'⟩
    cases o <;> simp [ih]

theorem addAll_prefix {p q : Packet} {vs : List AnyPayload} (h : addAll p vs = .ok q) :
    ∃ w, q.bytes = p.bytes ++ w := by
  induction vs generalizing p with
  | nil => simp only [addAll, Outcome.ok.injEq] at h; exact ⟨[], by simp [h]⟩
  | cons x vs ih =>
    obtain ⟨k, v⟩ := x
    simp only [addAll] at h
    rcases ha : p.add v with ⟨o, p'⟩
    rw [ha] at h
    cases o with
    | err e => simp at h
    | panic => simp at h
    | ok u =>
      obtain ⟨w1, _, rfl⟩ := add_ok_iff.mp ha
      obtain ⟨w, hw⟩ := ih h
      exact ⟨w1 ++ w, by rw [hw]; simp⟩

theorem readAll_append {d : PacketDeserializer} {ks ls : List Kind} {vs : List AnyPayload}
    {d1 : PacketDeserializer} (h : readAll d ks = .ok (vs, d1)) :
    readAll d (ks ++ ls) = match readAll d1 ls with
      | .ok (ws, d2) => .ok (vs ++ ws, d2)
      | .err e => .err e
      | .panic => .panic := by
  induction ks generalizing d vs with
  | nil =>
    simp only [readAll, Outcome.ok.injEq, Prod.mk.injEq] at h
    obtain ⟨rfl, rfl⟩ := h
    simp only [List.nil_append]
    cases readAll d ls <;> rfl
  | cons k ks ih =>
    simp only [readAll] at h
    rcases hn : d.nextPayload k.Ty with ⟨o, d'⟩
    rw [hn] at h
    cases o with
    | err e => simp at h
    | panic => simp at h
    | ok v =>
      simp only at h
      cases hr : readAll d' ks with
      | err e => simp [hr] at h
      | panic => simp [hr] at h
      | ok x =>
        obtain ⟨us, d''⟩ := x
        simp only [hr, Outcome.ok.injEq, Prod.mk.injEq] at h
        obtain ⟨rfl, rfl⟩ := h
        simp only [List.cons_append, readAll, hn, ih hr]
        cases readAll d'' ls <;> rfl

theorem readAll_addAll {p q : Packet} {vs : List AnyPayload}
    (hsd : ∀ x ∈ vs, x.1.SelfDelimiting) (hf : ∀ x ∈ vs, x.1.Fits x.2)
    (h : addAll p vs = .ok q) (post : Bytes) (hl : (q.bytes ++ post).length ≤ usizeMax) :
    readAll ⟨⟨q.bytes ++ post⟩, p.bytes.length⟩ (vs.map (·.1)) =
      .ok (vs, ⟨⟨q.bytes ++ post⟩, q.bytes.length⟩) := by
  induction vs generalizing p with
  | nil =>
    simp only [addAll, Outcome.ok.injEq] at h
    subst h
    rfl
  | cons x vs ih =>
    obtain ⟨k, v⟩ := x
    simp only [addAll] at h
    rcases ha : p.add v with ⟨o, p'⟩
    rw [ha] at h
    cases o with
    | err e => simp at h
    | panic => simp at h
    | ok u =>
      obtain ⟨w1, hw1, rfl⟩ := add_ok_iff.mp ha
      simp only at h
      obtain ⟨w, hw⟩ := addAll_prefix h
      simp only at hw
      have hrb := Kind.readBack k (hsd ⟨k, v⟩ (by simp)) v w1 (hf ⟨k, v⟩ (by simp)) hw1 (by
        rw [hw] at hl; simp at hl; omega)
      have hn : nextPayload k.Ty ⟨⟨q.bytes ++ post⟩, p.bytes.length⟩ =
          (.ok v, ⟨⟨q.bytes ++ post⟩, p.bytes.length + w1.length⟩) := by
        refine nextPayload_of_de (r' := w ++ post) (by simp [hw]) ?_ (Bincode.size_of_serialize hw1)
        simp only [hw, List.append_assoc, drop_pre]
        exact hrb _
      have ih' := ih (fun x hx => hsd x (by simp [hx])) (fun x hx => hf x (by simp [hx])) h
      simp only [List.length_append] at ih'
      simp only [List.map_cons, readAll, hn, ih']

/-- C24. A packet made of a header and any list of self-delimiting payloads: popping the header and
reading the same types in the same order gives the same values, and the cursor ends at the end. -/
theorem C24 (mid : FixedBytes 20) (t : UInt8) (vs : List AnyPayload)
    (hsd : ∀ x ∈ vs, x.1.SelfDelimiting) (hf : ∀ x ∈ vs, x.1.Fits x.2)
    (p q : Packet) (hp : Packet.new (Header.pyIpv8Header mid t) = .ok p) (hq : addAll p vs = .ok q)
    (hl : q.bytes.length ≤ usizeMax) :
    ∃ d, q.startDeserialize.popHeader = (.ok (Header.pyIpv8Header mid t), d) ∧
      readAll d (vs.map (·.1)) = .ok (vs, ⟨q, q.bytes.length⟩) := by
  rw [C10_wire] at hp
  cases hp
  obtain ⟨w, hw⟩ := addAll_prefix hq
  have h1 := (C10_read mid t [] w).2.1
  simp only [List.nil_append, List.length_nil, Nat.zero_add, ← hw] at h1
  refine ⟨_, h1, ?_⟩
  have := readAll_addAll hsd hf hq [] (by simpa using hl)
  simpa [C10_length mid t] using this

/-- C24. The same with a last payload that may extend to the end of the packet (introduction messages,
structs ending in `RawEnd`). -/
theorem C24_last (mid : FixedBytes 20) (t : UInt8) (vs : List AnyPayload) (last : AnyPayload)
    (hsd : ∀ x ∈ vs, x.1.SelfDelimiting) (hf : ∀ x ∈ vs, x.1.Fits x.2)
    (hlast : last.1.CanBeLast last.2) (hfl : last.1.Fits last.2)
    (p q : Packet) (hp : Packet.new (Header.pyIpv8Header mid t) = .ok p)
    (hq : addAll p (vs ++ [last]) = .ok q) (hl : q.bytes.length ≤ usizeMax) :
    ∃ d, q.startDeserialize.popHeader = (.ok (Header.pyIpv8Header mid t), d) ∧
      readAll d ((vs ++ [last]).map (·.1)) = .ok (vs ++ [last], ⟨q, q.bytes.length⟩) := by
  rw [C10_wire] at hp
  cases hp
  obtain ⟨w, hw⟩ := addAll_prefix hq
  have h1 := (C10_read mid t [] w).2.1
  simp only [List.nil_append, List.length_nil, Nat.zero_add, ← hw] at h1
  refine ⟨_, h1, ?_⟩
  obtain ⟨m, hm, hq'⟩ := addAll_append.mp hq
  obtain ⟨k, v⟩ := last
  simp only [addAll] at hq'
  rcases ha : m.add v with ⟨o, p'⟩
  rw [ha] at hq'
  cases o with
  | err e => simp at hq'
  | panic => simp at hq'
  | ok u =>
    obtain ⟨wl, hwl, rfl⟩ := add_ok_iff.mp ha
    simp only [Outcome.ok.injEq] at hq'
    subst hq'
    have hr := readAll_addAll hsd hf hm wl hl
    simp only [C10_length mid t] at hr
    rw [List.map_append, readAll_append hr]
    have hn : nextPayload k.Ty ⟨⟨m.bytes ++ wl⟩, m.bytes.length⟩ =
        (.ok v, ⟨⟨m.bytes ++ wl⟩, m.bytes.length + wl.length⟩) := by
      refine nextPayload_of_de (r' := []) (by simp) ?_ (Bincode.size_of_serialize hwl)
      simp only [drop_pre]
      exact Kind.readBack_last k v wl hlast hfl hwl (by simp at hl; omega)
    simp [readAll, hn]

/-- A message with five payloads of different types. -/
def exampleMessage : List AnyPayload :=
  [⟨.auth, BinMemberAuthenticationPayload.mk (FixedBytes.replicate 32 1) (FixedBytes.replicate 32 2)⟩,
   ⟨.time, TimeDistributionPayload.mk 42⟩, ⟨.varlen16, VarLen16.mk [1, 2, 3]⟩,
   ⟨.derived (.cons .u8 (.cons (.vec .u16) .unit)), ⟨(7, [8, 9], ())⟩⟩,
   ⟨.nested, NestedPacket.mk ⟨[1]⟩⟩]

example : (∀ x ∈ exampleMessage, x.1.SelfDelimiting) ∧ (∀ x ∈ exampleMessage, x.1.Fits x.2) ∧
    (addAll ⟨Spec.header (List.replicate 20 7) 1⟩ exampleMessage).isOk = true := by
  refine ⟨?_, ?_, by decide +kernel⟩
  · simp [exampleMessage, Kind.SelfDelimiting, Sch.SelfDelimiting]
  · simp [exampleMessage, Kind.Fits, Sch.Fits, usizeMax]

example : (addAll ⟨Spec.header (List.replicate 20 7) 1⟩
    (exampleMessage ++ [⟨.introRequest, exampleRequest⟩])).isOk = true ∧
    Kind.CanBeLast .introRequest exampleRequest := ⟨by decide +kernel, trivial⟩

/-! ## C25: user-defined payloads -/

/-- C25. A user-defined struct without `RawEnd` that `add` accepts reads back identically anywhere in a
packet. -/
theorem C25 (s : Sch) (hs : s.SelfDelimiting) (v : Derived s) (hf : s.Fits v.val) (p q : Packet)
    (h : p.add v = (.ok (), q)) (post : Bytes) (hl : (q.bytes ++ post).length ≤ usizeMax) :
    nextPayload (Derived s) ⟨⟨q.bytes ++ post⟩, p.bytes.length⟩ =
      (.ok v, ⟨⟨q.bytes ++ post⟩, q.bytes.length⟩) := by
  obtain ⟨w, hw, rfl⟩ := add_ok_iff.mp h
  obtain ⟨ts, h1, rfl⟩ := Derived.serialize_eq hw
  refine (nextPayload_of_de (r' := post) (by simp) ?_ (Bincode.size_of_serialize hw)).trans (by simp)
  simp only [List.append_assoc, drop_pre]
  exact Derived.de_eq_ok.mpr (Sch.roundtrip .big s hs v.val ts post hf h1)

/-- C25. A user-defined struct with `RawEnd` in last position reads back identically at the end of a
packet. -/
theorem C25_last (s : Sch) (hs : s.LastOnly) (v : Derived s) (hf : s.Fits v.val) (p q : Packet)
    (h : p.add v = (.ok (), q)) (hl : q.bytes.length ≤ usizeMax) :
    nextPayload (Derived s) ⟨q, p.bytes.length⟩ = (.ok v, ⟨q, q.bytes.length⟩) := by
  obtain ⟨w, hw, rfl⟩ := add_ok_iff.mp h
  obtain ⟨ts, h1, rfl⟩ := Derived.serialize_eq hw
  refine (nextPayload_of_de (r' := []) (by simp) ?_ (Bincode.size_of_serialize hw)).trans (by simp)
  simp only [drop_pre]
  exact Derived.de_eq_ok.mpr (Sch.roundtrip_last .big s hs v.val ts hf h1 (by simp at hl ⊢; omega))

/-- A user's enum: `enum E { A(bool), B(Address) }`. -/
def exampleEnum : Sch := .enum 2 fun | 0 => .bool | 1 => .address

/-- A user's struct: `struct S { a: u8, b: Option<E>, c: RawEnd }`. -/
def exampleSchema : Sch := .cons .u8 (.cons (.option exampleEnum) (.cons .rawEnd .unit))

/-- A value of it. -/
def exampleStruct : Derived exampleSchema := ⟨(1, some ⟨1, ⟨.v4 1 2 3 4 5⟩⟩, ⟨[7, 8]⟩, ())⟩

example : ((⟨[0]⟩ : Packet).add exampleStruct) =
    (.ok (), ⟨[0, 1, 1, 0, 0, 0, 1, 1, 2, 3, 4, 0, 5, 7, 8]⟩) := by decide

theorem exampleEnum_selfDelimiting : exampleEnum.SelfDelimiting := by
  refine ⟨by decide, ?_⟩
  intro i
  match i with
  | 0 => trivial
  | 1 => trivial

theorem exampleSchema_lastOnly : exampleSchema.LastOnly :=
  .inl ⟨trivial, .inl ⟨exampleEnum_selfDelimiting, .inr ⟨trivial, rfl⟩⟩⟩

example : exampleSchema.Fits exampleStruct.val := ⟨trivial, trivial, trivial, trivial⟩

/-- Another: `struct T { name: String, at: [i16; 2], rest: Vec<i64> }`. -/
def exampleSchema2 : Sch := .cons .string (.cons (.array 2 .i16) (.cons (.vec .i64) .unit))

example : exampleSchema2.SelfDelimiting := ⟨trivial, trivial, trivial, trivial⟩

example : ((⟨[]⟩ : Packet).add (⟨("é", ⟨[-2, 3], rfl⟩, [-1], ())⟩ : Derived exampleSchema2)) =
    (.ok (), ⟨[0, 0, 0, 0, 0, 0, 0, 2, 0xC3, 0xA9, 0xFF, 0xFE, 0, 3, 0, 0, 0, 0, 0, 0, 0, 1,
      0xFF, 0xFF, 0xFF, 0xFF, 0xFF, 0xFF, 0xFF, 0xFF]⟩) := by decide +kernel

/-! ## C26: sizes -/

/-- C26. The size pass gives `n` exactly when `add` appends `n` bytes, and fails exactly when `add` is
refused, with the same error. -/
theorem C26 {α : Type} [Ipv8Payload α] [Serialize α] (v : α) (p : Packet) :
    (∀ n, Bincode.serializedSize v = .ok n ↔
      ∃ w, w.length = n ∧ p.add v = (.ok (), ⟨p.bytes ++ w⟩)) ∧
    (∀ e, Bincode.serializedSize v = .err e ↔ p.add v = (.err e, p)) := by
  cases h : (Serialize.ser v : Outcome (List Tok)) with
  | ok ts =>
    have h1 := Bincode.serialize_of_ser .big h
    have h2 := Bincode.size_of_serialize h1
    simp only [Packet.add, h1, h2]
    constructor
    · intro n
      simp only [Outcome.ok.injEq, Prod.mk.injEq, Packet.mk.injEq, List.append_cancel_left_eq, true_and]
      constructor
      · rintro rfl; exact ⟨_, rfl, rfl⟩
      · rintro ⟨w, rfl, rfl⟩; rfl
    · intro e; simp
  | err e => simp [Packet.add, Bincode.serialize, Bincode.serializedSize, h]
  | panic => simp [Packet.add, Bincode.serialize, Bincode.serializedSize, h]

example : Bincode.serializedSize (VarLen32.mk [1, 2, 3]) = .ok 7 := by decide
example : (Bincode.serializedSize (Address.mk (.v6 (FixedBytes.replicate 16 1) 0 0 0))).isErr = true := by decide

/-! ## C27: failed reads and peeking -/

/-- C27. A read that does not succeed changes nothing; no read changes the packet's bytes; a
successful one never moves the cursor back. -/
theorem C27_next {α : Type} [Ipv8Payload α] [Serialize α] [Deserialize α] (d : PacketDeserializer) :
    ((d.nextPayload α).1.isOk = false → (d.nextPayload α).2 = d) ∧
    (d.nextPayload α).2.pntr = d.pntr ∧ d.index ≤ (d.nextPayload α).2.index := by
  unfold nextPayload
  cases sliceFrom d.pntr.bytes d.index with
  | err e => simp
  | panic => simp
  | ok s =>
    simp only
    cases (Bincode.deserialize .big s : Outcome α) with
    | err e => simp
    | panic => simp
    | ok v =>
      simp only
      cases Bincode.serializedSize v <;> simp [Outcome.isOk]

/-- C27. The same for headers; popping returns what peeking returns. -/
theorem C27_header (d : PacketDeserializer) :
    (d.popHeader.1.isOk = false → d.popHeader.2 = d) ∧ d.popHeader.2.pntr = d.pntr ∧
    d.popHeader.1 = d.peekHeader := by
  unfold popHeader
  cases d.peekHeader <;> simp [Outcome.isOk]

example : (nextPayload VarLen16 ⟨⟨[0, 5, 1]⟩, 0⟩).1.isErr = true ∧
    (nextPayload VarLen16 ⟨⟨[0, 1, 1]⟩, 0⟩).1.isOk = true ∧
    (popHeader ⟨⟨[0, 5, 1]⟩, 0⟩).1.isErr = true := by decide

/-! ## C28: cursor safety -/

theorem peekHeader_safe {d : PacketDeserializer} (hi : d.index ≤ d.pntr.bytes.length) :
    d.peekHeader ≠ .panic ∧ ∀ h, d.peekHeader = .ok h → d.index + h.size ≤ d.pntr.bytes.length := by
  rw [peekHeader_of_de hi]
  have hnp := Header.de_ne_panic .big (d.pntr.bytes.drop d.index)
  cases hd : (Deserialize.de .big : De Header) (d.pntr.bytes.drop d.index) with
  | err e => simp
  | panic => exact absurd hd hnp
  | ok x =>
    obtain ⟨h, r'⟩ := x
    obtain ⟨mid, t, h1, rfl, h2⟩ := Header.de_eq_ok.mp hd
    refine ⟨by simp, ?_⟩
    intro h' hh
    simp only [Outcome.ok.injEq] at hh
    subst hh
    have := congrArg List.length h2
    simp [h1] at this
    simp only [Header.ofMid, PY_IPV8_HEADER_SIZE]
    omega

/-- What a plain read does to a deserializer whose cursor is inside the packet. -/
theorem plainRead_safe (R : Ring) {c : ReadCall} (hc : c.PlainRead) {d : PacketDeserializer}
    (hl : d.pntr.bytes.length ≤ usizeMax) (hi : d.index ≤ d.pntr.bytes.length) :
    ∃ o, c.run R d = .ok o ∧ ∀ d', o = some d' → d'.pntr = d.pntr ∧ d.index ≤ d'.index ∧
      d'.index ≤ d.pntr.bytes.length := by
  have hk {α : Type} {o : Outcome α} (d' : PacketDeserializer) (h : o ≠ .panic) :
      ReadCall.run.keep o d' = .ok (some d') := by
    cases o with
    | panic => exact absurd rfl h
    | _ => rfl
  have hpop : d.popHeader.2.pntr = d.pntr ∧ d.index ≤ d.popHeader.2.index ∧
      d.popHeader.2.index ≤ d.pntr.bytes.length := by
    have := (peekHeader_safe hi).2
    unfold popHeader
    cases hp : d.peekHeader with
    | ok h => simpa using this h hp
    | err e => simpa using hi
    | panic => simpa using hi
  cases c with
  | peekHeader =>
    refine ⟨_, hk d (peekHeader_safe hi).1, ?_⟩
    rintro d' ⟨⟩
    exact ⟨rfl, Nat.le_refl _, hi⟩
  | popHeader =>
    refine ⟨_, hk _ ?_, ?_⟩
    · rw [(C27_header d).2.2]; exact (peekHeader_safe hi).1
    · rintro d' ⟨⟩; exact hpop
  | skipHeader =>
    simp only [ReadCall.run, skipHeader]
    rcases hp : d.popHeader with ⟨o, d1⟩
    cases o with
    | ok h =>
      refine ⟨_, rfl, ?_⟩
      rintro d' ⟨⟩
      rw [hp] at hpop
      exact hpop
    | err e => exact ⟨none, rfl, by simp⟩
    | panic =>
      have := (C27_header d).2.2
      rw [hp] at this
      exact absurd this.symm (peekHeader_safe hi).1
  | next k =>
    have hka : k ≠ .auth := by rintro rfl; exact hc
    have hse := k.sizeExact hka
    have hnp : (d.nextPayload k.Ty).1 ≠ .panic := by
      rw [nextPayload_inside hi]
      cases hd : (Deserialize.de .big : De k.Ty) (d.pntr.bytes.drop d.index) with
      | panic => exact absurd hd (hse.noPanic .big _)
      | err e => simp
      | ok x =>
        obtain ⟨v, r'⟩ := x
        obtain ⟨bs, _, h2⟩ := hse.size .big _ _ _ (by simp; omega) hd
        simp [h2]
    refine ⟨_, hk _ hnp, ?_⟩
    rintro d' ⟨⟩
    rcases hn : d.nextPayload k.Ty with ⟨o, d1⟩
    cases o with
    | ok v =>
      have := nextPayload_sizeExact hse hl hn
      exact ⟨this.2.2.1, this.1, this.2.1⟩
    | err e =>
      have := (C27_next (α := k.Ty) d).1
      rw [hn] at this
      have := this rfl
      simp only at this
      subst this
      exact ⟨rfl, Nat.le_refl _, hi⟩
    | panic => rw [hn] at hnp; exact absurd rfl hnp
  | verify => exact absurd hc id
  | verifyWith _ => exact absurd hc id

theorem runCalls_safe (R : Ring) (cs : List ReadCall) (hc : ∀ c ∈ cs, c.PlainRead)
    (d : PacketDeserializer) (hl : d.pntr.bytes.length ≤ usizeMax)
    (hi : d.index ≤ d.pntr.bytes.length) :
    ∃ o, runCalls R cs d = .ok o ∧ ∀ d', o = some d' → d'.pntr = d.pntr ∧ d.index ≤ d'.index ∧
      d'.index ≤ d.pntr.bytes.length := by
  induction cs generalizing d with
  | nil =>
    refine ⟨_, rfl, ?_⟩
    rintro d' ⟨⟩
    exact ⟨rfl, Nat.le_refl _, hi⟩
  | cons c cs ih =>
    obtain ⟨o, h1, h2⟩ := plainRead_safe R (hc c (by simp)) hl hi
    simp only [runCalls, h1]
    cases o with
    | none => exact ⟨none, rfl, by simp⟩
    | some d1 =>
      obtain ⟨e1, e2, e3⟩ := h2 d1 rfl
      obtain ⟨o, h3, h4⟩ := ih (fun c hc' => hc c (by simp [hc'])) d1 (by rw [e1]; exact hl)
        (by rw [e1]; exact e3)
      refine ⟨o, h3, ?_⟩
      intro d' hd'
      obtain ⟨f1, f2, f3⟩ := h4 d' hd'
      rw [e1] at f1 f3
      exact ⟨f1, by omega, f3⟩

/-- C28. Whatever bytes were received, no sequence of header reads and payload reads (other than
authentication payloads) panics; the packet is unchanged and the cursor stays inside. -/
theorem C28 (R : Ring) (received : Bytes) (hl : received.length ≤ usizeMax) (cs : List ReadCall)
    (hc : ∀ c ∈ cs, c.PlainRead) :
    ∃ o, runCalls R cs (Packet.startDeserialize ⟨received⟩) = .ok o ∧
      ∀ d, o = some d → d.pntr = ⟨received⟩ ∧ d.index ≤ received.length := by
  obtain ⟨o, h1, h2⟩ := runCalls_safe R cs hc (Packet.startDeserialize ⟨received⟩) hl (Nat.zero_le _)
  refine ⟨o, h1, fun d hd => ?_⟩
  obtain ⟨e1, _, e3⟩ := h2 d hd
  exact ⟨e1, e3⟩

/-- A short history that meets the hypothesis of `C28`. -/
def exampleCalls : List ReadCall :=
  [.peekHeader, .popHeader, .next .time, .next .introRequest, .next (.derived exampleSchema), .skipHeader]

example : ∀ c ∈ exampleCalls, c.PlainRead := by simp [exampleCalls, ReadCall.PlainRead]

/-! ## C29: all histories -/

theorem call_mono (R : Ring) {c : ReadCall} {d d' : PacketDeserializer}
    (h : c.run R d = .ok (some d')) : d.index ≤ d'.index ∧ d'.pntr.bytes <+: d.pntr.bytes := by
  have hk {α : Type} {o : Outcome α} {x : PacketDeserializer}
      (h : ReadCall.run.keep o x = .ok (some d')) : x = d' := by
    cases o <;> simp [ReadCall.run.keep] at h <;> exact h
  have hpop : d.index ≤ d.popHeader.2.index ∧ d.popHeader.2.pntr = d.pntr := by
    unfold popHeader
    cases d.peekHeader <;> simp
  have hvw (x : PacketDeserializer) (pk : Ed25519PublicKey) :
      (x.verifyWith R pk).2.index = x.index ∧ (x.verifyWith R pk).2.pntr.bytes <+: x.pntr.bytes := by
    unfold verifyWith
    simp only
    split
    · exact ⟨rfl, List.prefix_refl _⟩
    · exact ⟨rfl, List.take_prefix _ _⟩
  cases c with
  | peekHeader => cases hk h; exact ⟨Nat.le_refl _, List.prefix_refl _⟩
  | popHeader =>
    cases hk h
    exact ⟨hpop.1, by rw [hpop.2]; exact List.prefix_refl _⟩
  | skipHeader =>
    simp only [ReadCall.run, skipHeader] at h
    rcases hp : d.popHeader with ⟨o, d1⟩
    rw [hp] at h hpop
    cases o with
    | ok x => simp at h; subst h; exact ⟨hpop.1, by rw [hpop.2]; exact List.prefix_refl _⟩
    | err e => simp at h
    | panic => simp at h
  | next k =>
    cases hk h
    have := (C27_next (α := k.Ty) d).2
    exact ⟨this.2, by rw [this.1]; exact List.prefix_refl _⟩
  | verify =>
    cases hk h
    have hn := (C27_next (α := BinMemberAuthenticationPayload) d).2
    unfold PacketDeserializer.verify
    rcases hp : d.nextPayload BinMemberAuthenticationPayload with ⟨o, d1⟩
    rw [hp] at hn
    simp only at hn
    cases o with
    | ok a =>
      have := hvw d1 a.publicKeyBin
      exact ⟨by simp only [this.1]; exact hn.2, by rw [← hn.1]; exact this.2⟩
    | err e => exact ⟨hn.2, by simp only [hn.1]; exact List.prefix_refl _⟩
    | panic => exact ⟨hn.2, by simp only [hn.1]; exact List.prefix_refl _⟩
  | verifyWith pk =>
    cases hk h
    have := hvw d pk
    exact ⟨by omega, this.2⟩

/-- C29. Over every history of calls, verification included, the cursor never moves back and the packet
is always a prefix of what it was. -/
theorem C29 (R : Ring) (cs : List ReadCall) (d d' : PacketDeserializer)
    (h : runCalls R cs d = .ok (some d')) :
    d.index ≤ d'.index ∧ d'.pntr.bytes <+: d.pntr.bytes := by
  induction cs generalizing d with
  | nil =>
    simp only [runCalls, Outcome.ok.injEq, Option.some.injEq] at h
    subst h
    exact ⟨Nat.le_refl _, List.prefix_refl _⟩
  | cons c cs ih =>
    simp only [runCalls] at h
    cases hr : c.run R d with
    | err e => simp [hr] at h
    | panic => simp [hr] at h
    | ok o =>
      cases o with
      | none => simp [hr] at h
      | some d1 =>
        simp only [hr] at h
        have h1 := call_mono R hr
        have h2 := ih d1 h
        exact ⟨by omega, h2.2.trans h1.2⟩

/-- C29. In particular from the received bytes on. -/
theorem C29_received (R : Ring) (cs : List ReadCall) (received : Bytes) (d : PacketDeserializer)
    (h : runCalls R cs (Packet.startDeserialize ⟨received⟩) = .ok (some d)) :
    d.pntr.bytes <+: received := (C29 R cs _ d h).2

example (R : Ring) : runCalls R [.popHeader, .next .time]
    (Packet.startDeserialize ⟨Spec.header (List.replicate 20 7) 1 ++ [0, 0, 0, 0, 0, 0, 0, 9, 9]⟩) =
    .ok (some ⟨⟨Spec.header (List.replicate 20 7) 1 ++ [0, 0, 0, 0, 0, 0, 0, 9, 9]⟩, 31⟩) := by rfl

/-! ## C54: prefix-free encodings -/

/-- C54. If the encoding of `v` is a prefix of the encoding of `v'`, both of the same self-delimiting
type, then `v = v'`. -/
theorem C54 (k : Kind) (hk : k.SelfDelimiting) (v v' : k.Ty) (hf : k.Fits v) (hf' : k.Fits v')
    (w w' : Bytes) (hw : Writes v w) (hw' : Writes v' w') (hl : w'.length ≤ usizeMax)
    (hp : w <+: w') : v = v' := by
  obtain ⟨t, rfl⟩ := hp
  have h1 := Kind.readBack k hk v w hf (serialize_of_writes hw) (by simp at hl; omega) t
  have h2 := Kind.readBack k hk v' _ hf' (serialize_of_writes hw') hl []
  rw [List.append_nil, h1] at h2
  simp only [Outcome.ok.injEq, Prod.mk.injEq] at h2
  exact h2.1

/-- C54. Different values have different encodings. -/
theorem C54_injective (k : Kind) (hk : k.SelfDelimiting) (v v' : k.Ty) (hf : k.Fits v)
    (hf' : k.Fits v') (w : Bytes) (hw : Writes v w) (hw' : Writes v' w) (hl : w.length ≤ usizeMax) :
    v = v' := C54 k hk v v' hf hf' w w hw hw' hl (List.prefix_refl _)

/-- It is really false for types that extend to the end of the packet: here one encoding is a proper
prefix of the other. -/
example : Writes (α := Derived (.cons .rawEnd .unit)) ⟨(⟨[1]⟩, ())⟩ [1] ∧
    Writes (α := Derived (.cons .rawEnd .unit)) ⟨(⟨[1, 2]⟩, ())⟩ [1, 2] :=
  ⟨fun _ => rfl, fun _ => rfl⟩

example : Writes (α := Kind.Ty .varlen16) (VarLen16.mk [1]) [0, 1, 1] ∧
    Writes (α := Kind.Ty (.derived exampleEnum)) (Derived.mk ⟨0, true⟩) [0, 0, 0, 0, 1] :=
  ⟨fun _ => rfl, fun _ => rfl⟩

/-! ## C55: truncation -/

theorem auth_truncated (v : BinMemberAuthenticationPayload) (w t : Bytes) (ht : t ≠ [])
    (h : authBytes .big v = w ++ t) :
    ((Deserialize.de .big : De BinMemberAuthenticationPayload) w).isErr = true := by
  rw [BinMemberAuthenticationPayload.de_def]
  have hnp := VarLen16.canonical.noPanic .big w
  cases hd : (Deserialize.de .big : De VarLen16) w with
  | err e => rfl
  | panic => exact absurd hd hnp
  | ok x =>
    exfalso
    obtain ⟨c, r'⟩ := x
    obtain ⟨h1, rfl⟩ := VarLen16.de_eq_ok.mp hd
    have hlen : c.data.length = 74 := by
      have e1 := congrArg (List.take 2) h
      simp only [authBytes, List.append_assoc] at e1
      rw [List.take_append_of_le_length (by simp), List.take_of_length_le (by simp),
        List.take_append_of_le_length (by simp), List.take_of_length_le (by simp)] at e1
      have e2 := congrArg (ofInt .big) e1
      rw [ofInt_intBytes, ofInt_intBytes, Nat.mod_eq_of_lt (by omega), Nat.mod_eq_of_lt (by omega)] at e2
      exact e2.symm
    have h2 := congrArg List.length h
    rw [authBytes_length] at h2
    simp [hlen] at h2
    have : 0 < t.length := List.length_pos_iff.mpr ht
    omega

/-- C55. A payload of a self-delimiting type cut short anywhere is refused, whatever comes before it. -/
theorem C55 (k : Kind) (hk : k.SelfDelimiting) (v : k.Ty) (hf : k.Fits v) (w : Bytes) (hw : Writes v w)
    (hl : w.length ≤ usizeMax) (n : Nat) (hn : n < w.length) (pre : Bytes) :
    (nextPayload k.Ty ⟨⟨pre ++ w.take n⟩, pre.length⟩).1.isErr = true := by
  have hw := serialize_of_writes hw
  have hcut : w = w.take n ++ w.drop n := (List.take_append_drop n w).symm
  have hne : w.drop n ≠ [] := by simp; omega
  have key : ((Deserialize.de .big : De k.Ty) (w.take n)).isErr = true := by
    by_cases hka : k = .auth
    · subst hka
      have hs := BinMemberAuthenticationPayload.ser_eq .big v
      have : (Outcome.ok w : Outcome Bytes) = .ok (authBytes .big v) := hw.symm.trans hs
      simp only [Outcome.ok.injEq] at this
      exact auth_truncated v _ _ hne (this ▸ hcut)
    · apply Outcome.isErr_of_ne ((k.sizeExact hka).noPanic .big _)
      rintro ⟨v', r'⟩ hd
      obtain ⟨w', hw', hsplit⟩ := Kind.reads_written k hk hka _ _ _ hd
      have h1 := Kind.readBack k hk v w hf hw hl []
      have hlen : w'.length ≤ w.length := by
        have := congrArg List.length hsplit
        simp at this
        omega
      have h2 := Kind.readBack k hk v' w' (Kind.fits_of_read k _ _ _ hd) hw' (by omega)
        (r' ++ w.drop n)
      rw [← List.append_assoc, ← hsplit, ← hcut] at h2
      rw [List.append_nil, h2] at h1
      simp only [Outcome.ok.injEq, Prod.mk.injEq] at h1
      exact hne (List.append_eq_nil_iff.mp h1.2).2
  rw [nextPayload_inside (by simp)]
  simp only [drop_pre]
  cases hd : (Deserialize.de .big : De k.Ty) (w.take n) with
  | ok x => simp [hd, Outcome.isErr] at key
  | err e => rfl
  | panic => simp [hd, Outcome.isErr] at key

/-! ## Cases for the theorems above -/

/-- `C24`, `C24_last`: the message above. -/
example := C24 (FixedBytes.replicate 20 7) 1 exampleMessage (by simp [exampleMessage, Kind.SelfDelimiting, Sch.SelfDelimiting])
  (by simp [exampleMessage, Kind.Fits, Sch.Fits, usizeMax]) ⟨Spec.header (List.replicate 20 7) 1⟩ _ (by decide) rfl
  (by decide +kernel)
example := C24_last (FixedBytes.replicate 20 7) 1 exampleMessage ⟨.introRequest, exampleRequest⟩
  (by simp [exampleMessage, Kind.SelfDelimiting, Sch.SelfDelimiting]) (by simp [exampleMessage, Kind.Fits, Sch.Fits, usizeMax])
  trivial trivial ⟨Spec.header (List.replicate 20 7) 1⟩ _ (by decide) rfl (by decide +kernel)

/-- `C25`: a struct with a string, an array and a vector, behind one byte and before two. -/
example := C25 exampleSchema2 ⟨trivial, trivial, trivial, trivial⟩ ⟨("é", ⟨[-2, 3], rfl⟩, [-1], ())⟩
  (by simp [exampleSchema2, Sch.Fits, usizeMax]; decide +kernel) ⟨[9]⟩ _ rfl [5, 6] (by decide +kernel)

/-- `C25_last`: a struct that ends in a `RawEnd`. -/
example := C25_last exampleSchema exampleSchema_lastOnly exampleStruct ⟨trivial, trivial, trivial, trivial⟩ ⟨[0]⟩ _ rfl
  (by decide +kernel)

/-- `C28`: six reads of five bytes, most of which fail. -/
example (R : Ring) := C28 R [0, 2, 7, 7, 7] (by decide) exampleCalls (by simp [exampleCalls, ReadCall.PlainRead])

/-- `C54`, `C54_injective`: two ways to write down the same string. -/
example := C54 .varlen16 trivial (VarLen16.mk [1]) (VarLen16.mk [1]) trivial trivial [0, 1, 1] [0, 1, 1] (fun _ => rfl)
  (fun _ => rfl) (by decide) (List.prefix_refl _)
example := C54_injective .varlen16 trivial (VarLen16.mk [1]) (VarLen16.mk [1]) trivial trivial [0, 1, 1] (fun _ => rfl)
  (fun _ => rfl) (by decide)

/-- `C55`: a string that lost its last byte. -/
example := C55 .varlen16 trivial (VarLen16.mk [1]) trivial [0, 1, 1] (fun _ => rfl) (by decide) 2 (by decide) [9]

/-- `C17_partial`: all but one. -/
example := C17_partial .varlen16 (fun h => by cases h)

/-- `C29` and `C29_received`: peeking and skipping. -/
example (R : Ring) (d : PacketDeserializer) (h : runCalls R [.peekHeader, .skipHeader] (Packet.startDeserialize ⟨[1, 2]⟩) = .ok (some d)) :=
  And.intro (C29 R _ _ d h) (C29_received R _ _ d h)

end Ipv8
