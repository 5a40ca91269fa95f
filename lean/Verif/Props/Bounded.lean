import Verif.Props.Cursor
/-!
# Property C65: hostile lengths cost no more than the packet is long
-/

namespace Ipv8
open Spec PacketDeserializer

/-! ## Specification -/

/-- The least number of bytes a value of the type takes in a packet. -/
def Sch.minSize : Sch → Nat
  | .u8 => 1
  | .u16 => 2
  | .u32 => 4
  | .u64 => 8
  | .u128 => 16
  | .i8 => 1
  | .i16 => 2
  | .i32 => 4
  | .i64 => 8
  | .bool => 1
  | .char => 1
  | .string => 8
  | .bits => 1
  | .address => 6
  | .varlen16 => 2
  | .varlen32 => 4
  | .varlen64 => 8
  | .nested => 2
  | .rawEnd => 0
  | .option _ => 1
  | .vec _ => 8
  | .array n s => n * s.minSize
  | .unit => 0
  | .cons a b => a.minSize + b.minSize
  | .enum _ _ => 4

/-- Elements of vectors take at least one byte each. -/
def Sch.NoEmptyElements : Sch → Prop
  | .option s => s.NoEmptyElements
  | .vec s => 0 < s.minSize ∧ s.NoEmptyElements
  | .array _ s => s.NoEmptyElements
  | .cons a b => a.NoEmptyElements ∧ b.NoEmptyElements
  | .enum _ f => ∀ i, (f i).NoEmptyElements
  | _ => True

/-- The number of elements whose number the sender chooses: the elements of all vectors, at any depth,
and the bytes of all strings and byte vectors. -/
def Sch.elements : (s : Sch) → s.Ty → Nat
  | .string, x => x.toByteArray.data.size
  | .varlen16, x => x.data.length
  | .varlen32, x => x.data.length
  | .varlen64, x => x.data.length
  | .nested, x => x.packet.bytes.length
  | .rawEnd, x => x.data.length
  | .option _, none => 0
  | .option s, some x => s.elements x
  | .vec s, xs => xs.length + (xs.map s.elements).sum
  | .array _ s, xs => (xs.val.map s.elements).sum
  | .cons a b, x => a.elements x.1 + b.elements x.2
  | .enum _ f, x => (f x.1).elements x.2
  | .u8, _ => 0
  | .u16, _ => 0
  | .u32, _ => 0
  | .u64, _ => 0
  | .u128, _ => 0
  | .char, _ => 0
  | .i8, _ => 0
  | .i16, _ => 0
  | .i32, _ => 0
  | .i64, _ => 0
  | .bool, _ => 0
  | .bits, _ => 0
  | .address, _ => 0
  | .unit, _ => 0

/-! ## Proof -/

/-- Sum of the sizes of tokens. -/
abbrev toks (ts : List Tok) : Nat := (ts.map Tok.size).sum

theorem toks_u8 (l : Bytes) : toks (l.map Tok.u8) = l.length := by
  induction l with
  | nil => rfl
  | cons b l ih =>
    simp only [toks, List.map_cons, List.sum_cons, Tok.size, List.length_cons] at ih ⊢
    omega

theorem serSeq_bound {α : Type} {f : α → Outcome (List Tok)} {g : α → Nat} {m : Nat}
    (hf : ∀ x ts, f x = .ok ts → g x + m ≤ toks ts) :
    ∀ {xs : List α} {ts : List Tok}, serSeq f xs = .ok ts →
      (xs.map g).sum + xs.length * m ≤ toks ts
  | [], ts, h => by simp
  | x :: xs, ts, h => by
    simp only [serSeq, Outcome.bind_eq_ok, Outcome.pure_eq, Outcome.ok.injEq] at h
    obtain ⟨a, ha, b, hb, rfl⟩ := h
    have h1 := hf x a ha
    have h2 := serSeq_bound hf hb
    simp only [toks, List.map_append, List.sum_append, List.map_cons, List.sum_cons, List.length_cons,
      Nat.succ_mul] at h1 h2 ⊢
    omega

theorem Sch.elements_le (s : Sch) : s.NoEmptyElements → ∀ (x : s.Ty) (ts : List Tok),
    s.ser x = .ok ts → s.elements x + s.minSize ≤ toks ts := by
  induction s with
  | option s ih =>
    intro hs x ts h
    cases x with
    | none => cases h; simp [Sch.elements, Sch.minSize, toks, Tok.size]
    | some x =>
      simp only [Sch.ser, Outcome.bind_eq_ok, Outcome.pure_eq, Outcome.ok.injEq] at h
      obtain ⟨a, ha, rfl⟩ := h
      have := ih hs x a ha
      simp only [Sch.elements, Sch.minSize, toks, Tok.size, List.map_cons, List.sum_cons] at this ⊢
      omega
  | vec s ih =>
    intro hs x ts h
    obtain ⟨a, ha, rfl⟩ := Sch.vec_ser_ok h
    have h1 := serSeq_bound (ih hs.2) ha
    have h2 : x.length * 1 ≤ x.length * s.minSize := Nat.mul_le_mul_left _ hs.1
    simp only [Sch.elements, Sch.minSize, toks, Tok.size, List.map_cons, List.sum_cons] at h1 ⊢
    omega
  | array n s ih =>
    intro hs x ts h
    have h1 := serSeq_bound (ih hs) h
    rw [x.property] at h1
    exact h1
  | cons a b iha ihb =>
    intro hs x ts h
    simp only [Sch.ser, Outcome.bind_eq_ok, Outcome.pure_eq, Outcome.ok.injEq] at h
    obtain ⟨p, hp, q, hq, rfl⟩ := h
    have h1 := iha hs.1 _ _ hp
    have h2 := ihb hs.2 _ _ hq
    simp only [Sch.elements, Sch.minSize, toks, List.map_append, List.sum_append] at h1 h2 ⊢
    omega
  | enum n f ih =>
    intro hs x ts h
    obtain ⟨i, x⟩ := x
    simp only [Sch.ser, Outcome.bind_eq_ok, Outcome.pure_eq, Outcome.ok.injEq] at h
    obtain ⟨a, ha, rfl⟩ := h
    have := ih i (hs i) x a ha
    simp only [Sch.elements, Sch.minSize, toks, Tok.size, List.map_cons, List.sum_cons] at this ⊢
    omega
  | address =>
    intro _ x ts h
    rcases x with ⟨⟨a, b, c, d, port⟩ | ⟨ip, port, fl, sc⟩⟩
    · cases h; simp [Sch.elements, Sch.minSize, toks, Tok.size]
    · simp [Sch.ser, Serialize.ser] at h
  | varlen16 =>
    intro _ x ts h
    simp only [Sch.ser, Serialize.ser] at h
    split at h
    · simp at h
    · cases h
      have := toks_u8 x.data
      simp only [Sch.elements, Sch.minSize, toks, List.map_cons, List.sum_cons, Tok.size] at this ⊢
      omega
  | varlen32 =>
    intro _ x ts h
    simp only [Sch.ser, Serialize.ser] at h
    split at h
    · simp at h
    · cases h
      have := toks_u8 x.data
      simp only [Sch.elements, Sch.minSize, toks, List.map_cons, List.sum_cons, Tok.size] at this ⊢
      omega
  | nested =>
    intro _ x ts h
    simp only [Sch.ser, Serialize.ser] at h
    split at h
    · simp at h
    · cases h
      have := toks_u8 x.packet.bytes
      simp only [Sch.elements, Sch.minSize, toks, List.map_cons, List.sum_cons, Tok.size] at this ⊢
      omega
  | varlen64 =>
    intro _ x ts h
    cases h
    have := toks_u8 x.data
    simp only [Sch.elements, Sch.minSize, toks, List.map_cons, List.sum_cons, Tok.size] at this ⊢
    omega
  | string =>
    intro _ x ts h
    cases h
    have := toks_u8 x.toByteArray.data.toList
    simp only [Sch.elements, Sch.minSize, toks, List.map_cons, List.sum_cons, Tok.size,
      Array.length_toList] at this ⊢
    omega
  | rawEnd =>
    intro _ x ts h
    cases h
    have := toks_u8 x.data
    simp only [Sch.elements, Sch.minSize] at this ⊢
    omega
  | char =>
    intro _ x ts h
    cases h
    have := toks_u8 (String.utf8EncodeChar x)
    obtain ⟨b, bs, e1, _⟩ := utf8CharWidth_encode x
    rw [this, e1]
    simp [Sch.elements, Sch.minSize]
  | _ => intro _ x ts h; cases h; simp [Sch.elements, Sch.minSize, toks, Tok.size]

/-! ## C65 -/

/-- C65. What is read from a packet has no more elements than bytes were read: the sender cannot
announce more than it sends.  For all payload structs whose vectors have no zero-size elements. -/
theorem C65 (s : Sch) (hs : s.NoEmptyElements) (d d' : PacketDeserializer) (v : Derived s)
    (hl : d.pntr.bytes.length ≤ usizeMax) (h : d.nextPayload (Derived s) = (.ok v, d')) :
    s.elements v.val ≤ d'.index - d.index ∧ d'.index ≤ d.pntr.bytes.length := by
  obtain ⟨w, hw, h1⟩ := C64_moves_by_size _ d d' v h
  obtain ⟨n, h2, h3, -⟩ := C17_partial (.derived s) (by simp) d d' v hl h
  refine ⟨?_, h3⟩
  obtain ⟨ts, h4, rfl⟩ := Derived.serialize_eq hw
  have h5 := Sch.elements_le s hs v.val ts h4
  rw [h1]
  simp only [flat, flatMap_bytes_length]
  simp only [toks] at h5
  omega

/-- C65 needs its hypothesis: with zero-size elements eight bytes hold a vector of any length. -/
theorem C65_empty_elements (n : Nat) (hn : n < 2 ^ 64) : ∃ d d' v,
    nextPayload (Derived (.vec .unit)) d = (.ok v, d') ∧ d.pntr.bytes.length = 8 ∧
      Sch.elements (.vec .unit) v.val = n := by
  have hser : (Sch.vec .unit).ser (List.replicate n ()) = .ok [.u64 (UInt64.ofNat n)] := by
    have : ∀ k, serSeq Sch.unit.ser (List.replicate k ()) = .ok [] := by
      intro k
      induction k with
      | zero => rfl
      | succ k ih => simp only [List.replicate_succ, serSeq, ih]; rfl
    have h1 : (Sch.vec .unit).ser (List.replicate n ()) = (do
        let a ← serSeq Sch.unit.ser (List.replicate n ())
        pure (.u64 (UInt64.ofNat (List.replicate n ()).length) :: a)) := rfl
    rw [h1, this n, List.length_replicate]
    rfl
  let w := flat .big [.u64 (UInt64.ofNat n)]
  have hw : w.length = 8 := by simp [w, Tok.size]
  have hrt := Sch.roundtrip .big (.vec .unit) trivial (List.replicate n ()) _ []
    ⟨by simp [usizeMax]; omega, fun _ _ => trivial⟩ hser
  refine ⟨⟨⟨w⟩, 0⟩, ⟨⟨w⟩, 8⟩, ⟨List.replicate n ()⟩, ?_, hw, ?_⟩
  · have hsz : Bincode.serializedSize (⟨List.replicate n ()⟩ : Derived (.vec .unit)) = .ok 8 := by
      have hs : (Serialize.ser (⟨List.replicate n ()⟩ : Derived (.vec .unit)) : Outcome (List Tok)) =
        .ok [.u64 (UInt64.ofNat n)] := hser
      rw [Bincode.serializedSize_of_ser hs]
      rfl
    rw [nextPayload_inside (by simp)]
    have hd : (Deserialize.de .big : De (Derived (.vec .unit))) w =
      .ok (⟨List.replicate n ()⟩, []) := Derived.de_eq_ok.mpr (by rw [List.append_nil] at hrt; exact hrt)
    simp only [List.drop_zero, hd, hsz]
  · have h1 : Sch.elements (.vec .unit) (List.replicate n ()) = (List.replicate n ()).length +
        ((List.replicate n ()).map (Sch.elements .unit)).sum := rfl
    rw [h1, List.length_replicate]
    have : ∀ k, (List.map (Sch.elements .unit) (List.replicate k ())).sum = 0 := by
      intro k
      induction k with
      | zero => rfl
      | succ k ih => simp only [List.replicate_succ, List.map_cons, List.sum_cons, ih]; rfl
    have := this n
    omega

/-! ## Failing reads -/

theorem vecLoop_fails {α : Type} {d : De α} {e : Error}
    (hd : ∀ r r' v, d r = .ok (v, r') → r'.length + 1 ≤ r.length) :
    ∀ (n : Nat) (r : Bytes), vecLoop d n r = .err e →
      ∃ k vs r', k < n ∧ k ≤ r.length ∧ vecLoop d k r = .ok (vs, r') ∧ d r' = .err e := by
  intro n
  induction n with
  | zero => intro r h; simp [vecLoop] at h
  | succ n ih =>
    intro r h
    cases h1 : d r with
    | panic =>
      have : vecLoop d (n + 1) r = .panic := by
        simp only [vecLoop]; exact De.bind_eq_panic.mpr (.inl h1)
      rw [this] at h; simp at h
    | err x =>
      refine ⟨0, [], r, by omega, by omega, rfl, ?_⟩
      have : vecLoop d (n + 1) r = .err x := by
        simp only [vecLoop, bind, De.bind, h1]
      rw [this] at h
      rw [h1]
      simpa using h
    | ok y =>
      obtain ⟨v, r1⟩ := y
      have hr : vecLoop d (n + 1) r = (do
          let as ← vecLoop d n
          Pure.pure (v :: as) : De (List α)) r1 := by
        simp only [vecLoop]; rw [De.bind_ok h1]
      rw [hr] at h
      cases h2 : vecLoop d n r1 with
      | ok z => obtain ⟨vs, r2⟩ := z; rw [De.bind_ok h2] at h; simp at h
      | panic => rw [De.bind_eq_panic.mpr (.inl h2)] at h; simp at h
      | err x =>
        have hx : x = e := by
          simp only [bind, De.bind, h2] at h
          simpa using h
        subst hx
        obtain ⟨k, vs, r', g1, g2, g3, g4⟩ := ih r1 h2
        have := hd r r1 v h1
        refine ⟨k + 1, v :: vs, r', by omega, by omega, ?_, g4⟩
        simp only [vecLoop]
        rw [De.bind_ok h1, De.bind_ok g3]
        rfl

/-- C65, failing reads.  When reading a vector fails, whatever length was announced: either the length
itself is not there, or the reader has read at most as many elements as there are bytes, and then
failed on the next one. -/
theorem C65_fails (s : Sch) (hs : 0 < s.minSize) (hn : s.NoEmptyElements) (e : Endian) (r : Bytes)
    (err : Error) (h : (Sch.vec s).de e r = .err err) :
    r.length < 8 ∨ ∃ (k : Nat) (vs : List s.Ty) (r' : Bytes),
      k < ofInt e (r.take 8) ∧ k ≤ r.length - 8 ∧ vs.length = k ∧
      vecLoop (s.de e) k (r.drop 8) = .ok (vs, r') ∧ s.de e r' = .err err := by
  by_cases hr : r.length < 8
  · exact .inl hr
  · right
    have h64 : deU64 e r = .ok (UInt64.ofNat (ofInt e (r.take 8)), r.drop 8) := by
      simp only [deU64, bind, De.bind, deInt, hr, if_false]
      rfl
    simp only [Sch.de, deVec] at h
    rw [De.bind_ok h64] at h
    have hlt : ofInt e (r.take 8) < 2 ^ 64 := by
      have := ofInt_lt e (r.take 8)
      rw [List.length_take] at this
      have h8 : min 8 r.length = 8 := by omega
      rw [h8] at this
      simpa using this
    rw [UInt64.toNat_ofNat', Nat.mod_eq_of_lt hlt] at h
    obtain ⟨k, vs, r', h1, h2, h3, h4⟩ := vecLoop_fails (by
      intro r r' v hv
      obtain ⟨ts, g1, rfl⟩ := Sch.de_exact e s r r' v hv
      have g2 := Sch.elements_le s hn v ts g1
      rw [List.length_append, flatMap_bytes_length]
      simp only [toks] at g2
      omega) _ _ h
    refine ⟨k, vs, r', h1, by simpa using h2, ?_, h3, h4⟩
    exact (vecLoop_all (P := fun _ => True) (fun _ _ _ _ => trivial) _ _ _ _ h3).1

/-- The hypotheses are met: `struct { a: Vec<(u16, String)>, b: VarLen16 }` has no empty elements, and a
packet that announces 2^56 pairs but holds one is refused after that one. -/
example : Sch.NoEmptyElements (.cons (.vec (.cons .u16 (.cons .string .unit))) (.cons .varlen16 .unit)) :=
  ⟨⟨by decide, trivial, trivial, trivial⟩, trivial, trivial⟩

example : (Sch.vec .u16).de .big [1, 0, 0, 0, 0, 0, 0, 0, 0, 7] = .err .eof ∧
    vecLoop (Sch.u16.de .big) 1 [0, 7] = .ok ([7], []) ∧ Sch.u16.de .big [] = .err .eof := by
  have h : vecLoop (Sch.u16.de .big) 1 [0, 7] = .ok ([7], []) := rfl
  refine ⟨?_, h, rfl⟩
  have h64 : deU64 .big [1, 0, 0, 0, 0, 0, 0, 0, 0, 7] = .ok (UInt64.ofNat (2 ^ 56), [0, 7]) := rfl
  have hx : (UInt64.ofNat (2 ^ 56)).toNat = (2 ^ 56 - 2) + 1 + 1 := by decide
  simp only [Sch.de, deVec]
  rw [De.bind_ok h64, hx]
  generalize 2 ^ 56 - 2 = n
  rfl

/-! ## Cases for the theorems above -/

/-- `C65_empty_elements`: a million elements from eight bytes. -/
example : ∃ d d' v, nextPayload (Derived (.vec .unit)) d = (.ok v, d') ∧ d.pntr.bytes.length = 8 ∧
    Sch.elements (.vec .unit) v.val = 1000000 :=
  C65_empty_elements 1000000 (by decide)

/-- `C65`: a vector of two numbers. -/
example := C65 (.vec .u16) ⟨by decide, trivial⟩ ⟨⟨[9, 0, 0, 0, 0, 0, 0, 0, 2, 0, 5, 0, 6, 7]⟩, 1⟩
  ⟨⟨[9, 0, 0, 0, 0, 0, 0, 0, 2, 0, 5, 0, 6, 7]⟩, 13⟩ ⟨[5, 6]⟩ (by decide) rfl

/-- `C65_fails`: three numbers announced, one there. -/
example := C65_fails .u16 (by decide) trivial .big [0, 0, 0, 0, 0, 0, 0, 3, 0, 7] .eof (by decide +kernel)

end Ipv8
