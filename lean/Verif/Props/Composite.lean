import Verif.Model.Composite
import Verif.Props.Cursor
/-!
# Property C85: payload structs with hand-written codecs, maps and other payloads inside
-/

namespace Ipv8
open Spec PacketDeserializer

/-! ## Specification -/

namespace Spec

/-- `v` is written as `w` (big-endian, as in packets). -/
def WrittenAs {α : Type} (c : Codec α) (v : α) (w : Bytes) : Prop :=
  ∃ ts, c.ser v = .ok ts ∧ w = ts.flatMap (Tok.bytes .big)

/-- What the codec writes for `v` it reads back, whatever follows. -/
def Restores {α : Type} (c : Codec α) (v : α) : Prop :=
  ∀ w rest, WrittenAs c v w → (w ++ rest).length ≤ usizeMax → c.de .big (w ++ rest) = .ok (v, rest)

/-- What the codec writes for `v` it reads back, if nothing follows. -/
def RestoresLast {α : Type} (c : Codec α) (v : α) : Prop :=
  ∀ w, WrittenAs c v w → w.length ≤ usizeMax → c.de .big w = .ok (v, [])

/-- What the codec reads can be written again, with at most as many bytes as it read. -/
def WritesNoMoreThanItReads {α : Type} (c : Codec α) : Prop :=
  ∀ r r' v, r.length ≤ usizeMax → c.de .big r = .ok (v, r') →
    ∃ u w, r = u ++ r' ∧ WrittenAs c v w ∧ w.length ≤ u.length

/-- What the codec reads can be written again, with as many bytes as it read. -/
def ReadsWhatItWrites {α : Type} (c : Codec α) : Prop :=
  ∀ r r' v, r.length ≤ usizeMax → c.de .big r = .ok (v, r') →
    ∃ u w, r = u ++ r' ∧ WrittenAs c v w ∧ u.length = w.length

/-- Neither writing nor reading panics. -/
def NeverPanics {α : Type} (c : Codec α) : Prop := (∀ v, c.ser v ≠ .panic) ∧ ∀ r, c.de .big r ≠ .panic

/-- The two lists have the same length and are related element by element. -/
def allSame {α : Type} (R : α → α → Prop) : List α → List α → Prop
  | [], [] => True
  | x :: xs, y :: ys => R x y ∧ allSame R xs ys
  | _, _ => False

/-- Both are missing, or both are there and related. -/
def bothSame {α : Type} (R : α → α → Prop) : Option α → Option α → Prop
  | none, none => True
  | some x, some y => R x y
  | _, _ => False

end Spec

/-- All hand-written codecs in the definition restore the values they have to write for `v`, the maps in
`v` have every key once, and lengths and variant numbers fit their fields. -/
def Shape.Restores : {α : Type} → Shape α → α → Prop
  | _, .leaf c, x => Spec.Restores c x
  | _, .option _, none => True
  | _, .option s, some x => s.Restores x
  | _, .vec s, xs => xs.length ≤ usizeMax ∧ ∀ x ∈ xs, s.Restores x
  | _, .array _ s, xs => ∀ x ∈ xs.val, s.Restores x
  | _, .unit, _ => True
  | _, .cons a b, x => a.Restores x.1 ∧ b.Restores x.2
  | _, .enum n _ f, x => n ≤ 2 ^ 32 ∧ (f x.1).Restores x.2
  | _, @Shape.map _ _ _ k s _, m => m.entries.length ≤ usizeMax ∧ (m.entries.map Prod.fst).Nodup ∧
      ∀ p ∈ m.entries, Spec.Restores k p.1 ∧ s.Restores p.2

/-- The same, but the very last field need only be restored if nothing follows it. -/
def Shape.RestoresLast : {α : Type} → Shape α → α → Prop
  | _, .leaf c, x => Spec.RestoresLast c x
  | _, .option _, none => True
  | _, .option s, some x => s.RestoresLast x
  | _, .cons a .unit, x => a.RestoresLast x.1
  | _, .cons a b, x => a.Restores x.1 ∧ b.RestoresLast x.2
  | _, .enum n _ f, x => n ≤ 2 ^ 32 ∧ (f x.1).RestoresLast x.2
  | _, s, x => s.Restores x

/-- The values are equal, maps in them being compared as maps: the same keys with the same values. -/
def Shape.Same : {α : Type} → Shape α → α → α → Prop
  | _, .leaf _, x, y => x = y
  | _, .option s, x, y => bothSame s.Same x y
  | _, .vec s, xs, ys => allSame s.Same xs ys
  | _, .array _ s, xs, ys => allSame s.Same xs.val ys.val
  | _, .unit, _, _ => True
  | _, .cons a b, x, y => a.Same x.1 y.1 ∧ b.Same x.2 y.2
  | _, .enum _ T f, x, y => ∃ (i : _) (a b : T i), x = ⟨i, a⟩ ∧ y = ⟨i, b⟩ ∧ (f i).Same a b
  | _, @Shape.map _ _ _ _ s _, m, m' => (m'.entries.map Prod.fst).Nodup ∧
      ∀ key, bothSame s.Same (m.entries.lookup key) (m'.entries.lookup key)

/-- No maps anywhere. -/
def Shape.NoMaps : {α : Type} → Shape α → Prop
  | _, .leaf _ => True
  | _, .option s => s.NoMaps
  | _, .vec s => s.NoMaps
  | _, .array _ s => s.NoMaps
  | _, .unit => True
  | _, .cons a b => a.NoMaps ∧ b.NoMaps
  | _, .enum _ _ f => ∀ i, (f i).NoMaps
  | _, @Shape.map _ _ _ _ _ _ => False

/-- All hand-written codecs in the definition have the property (of keys too). -/
def Shape.Codecs (P : ∀ {α : Type}, Codec α → Prop) : {α : Type} → Shape α → Prop
  | _, .leaf c => P c
  | _, .option s => s.Codecs P
  | _, .vec s => s.Codecs P
  | _, .array _ s => s.Codecs P
  | _, .unit => True
  | _, .cons a b => a.Codecs P ∧ b.Codecs P
  | _, .enum _ _ f => ∀ i, (f i).Codecs P
  | _, @Shape.map _ _ _ k s _ => P k ∧ s.Codecs P

/-! ## Lemmas -/

abbrev tokSize (ts : List Tok) : Nat := (ts.map Tok.size).sum

theorem flat_length (e : Endian) (ts : List Tok) : (flat e ts).length = tokSize ts := by
  simp only [flat, flatMap_bytes_length]

theorem Composite.de_eq_ok {α : Type} {s : Shape α} {e : Endian} {r r' : Bytes} {v : Composite s} :
    (Deserialize.de e : De (Composite s)) r = .ok (v, r') ↔ s.de e r = .ok (v.val, r') := by
  have hd : (Deserialize.de e : De (Composite s)) = (do
    let v ← s.de e
    Pure.pure ⟨v⟩) := rfl
  rw [hd, De.bind_eq_ok]
  constructor
  · rintro ⟨a, r1, h1, h2⟩
    simp only [De.pure_run, Outcome.ok.injEq, Prod.mk.injEq] at h2
    obtain ⟨rfl, rfl⟩ := h2
    exact h1
  · intro h
    exact ⟨_, _, h, rfl⟩

/-- What restoring means inside the proofs. -/
def Back {α : Type} (f : α → Outcome (List Tok)) (d : De α) (R : α → α → Prop) (v : α) : Prop :=
  ∀ ts rest, f v = .ok ts → tokSize ts + rest.length ≤ usizeMax →
    ∃ v' ts', R v v' ∧ d (flat .big ts ++ rest) = .ok (v', rest) ∧
      f v' = .ok ts' ∧ tokSize ts' = tokSize ts

theorem vecLoop_back {α : Type} {f : α → Outcome (List Tok)} {d : De α} {R : α → α → Prop} :
    ∀ (vs : List α) (ts : List Tok) (rest : Bytes), (∀ v ∈ vs, Back f d R v) → serSeq f vs = .ok ts →
      tokSize ts + rest.length ≤ usizeMax →
      ∃ vs' ts', allSame R vs vs' ∧ vecLoop d vs.length (flat .big ts ++ rest) = .ok (vs', rest) ∧
        serSeq f vs' = .ok ts' ∧ tokSize ts' = tokSize ts ∧ vs'.length = vs.length
  | [], ts, rest, _, h, _ => by
    cases h
    exact ⟨[], [], trivial, rfl, rfl, rfl, rfl⟩
  | v :: vs, ts, rest, hv, h, hl => by
    simp only [serSeq, Outcome.bind_eq_ok, Outcome.pure_eq, Outcome.ok.injEq] at h
    obtain ⟨a, ha, b, hb, rfl⟩ := h
    simp only [tokSize, List.map_append, List.sum_append] at hl
    obtain ⟨v', a', h1, h2, h3, h4⟩ := hv v (by simp) a (flat .big b ++ rest) ha
      (by rw [List.length_append, flat_length]; simp only [tokSize]; omega)
    obtain ⟨vs', b', h5, h6, h7, h8, h9⟩ := vecLoop_back vs b rest (fun x hx => hv x (by simp [hx])) hb
      (by simp only [tokSize]; omega)
    refine ⟨v' :: vs', a' ++ b', ⟨h1, h5⟩, ?_, by simp [serSeq, h3, h7], ?_, by simp [h9]⟩
    · simp only [List.length_cons, vecLoop, flat, List.flatMap_append, List.append_assoc]
      rw [De.bind_ok h2, De.bind_ok h6]
      rfl
    · simp only [tokSize, List.map_append, List.sum_append] at h4 h8 ⊢
      omega

theorem variant_arm {n : Nat} {T : Fin n → Type} {f : (i : Fin n) → De (T i)} {i : Fin n} {m : Nat}
    (hm : m = i.val) {x : T i} {r r' : Bytes} (h : f i r = .ok (x, r')) :
    (if h : m < n then (do
      let x ← f ⟨m, h⟩
      Pure.pure ⟨⟨m, h⟩, x⟩ : De ((i : Fin n) × T i))
    else De.fail (.custom "invalid value: expected variant index")) r = .ok (⟨i, x⟩, r') := by
  subst hm
  simp only [i.isLt, dif_pos]
  rw [De.bind_ok h]
  rfl

section Maps
variable {κ ν : Type} [DecidableEq κ]

theorem lookup_iff {l : List (κ × ν)} (hn : (l.map Prod.fst).Nodup) (key : κ) (x : ν) :
    l.lookup key = some x ↔ (key, x) ∈ l := by
  induction l with
  | nil => simp
  | cons p l ih =>
    simp only [List.map_cons, List.nodup_cons] at hn
    rw [lookup_pair]
    by_cases h : key = p.1
    · subst h
      simp only [if_true, Option.some.injEq, List.mem_cons]
      constructor
      · rintro rfl; exact .inl rfl
      · rintro (h | h)
        · rw [← h]
        · exact absurd (List.mem_map.mpr ⟨_, h, rfl⟩) hn.1
    · simp only [if_neg h, ih hn.2, List.mem_cons]
      constructor
      · exact .inr
      · rintro (rfl | h')
        · exact absurd rfl h
        · exact h'

theorem lookup_perm {l l' : List (κ × ν)} (hn : (l.map Prod.fst).Nodup) (hp : l'.Perm l) (key : κ) :
    l'.lookup key = l.lookup key := by
  have hn' : (l'.map Prod.fst).Nodup := (hp.map Prod.fst).nodup_iff.mpr hn
  apply Option.ext
  intro x
  rw [lookup_iff hn', lookup_iff hn, hp.mem_iff]

theorem lookup_allSame {R : ν → ν → Prop} : ∀ {l l' : List (κ × ν)},
    allSame (fun p q : κ × ν => p.1 = q.1 ∧ R p.2 q.2) l l' → ∀ key,
      bothSame R (l.lookup key) (l'.lookup key)
  | [], [], _, key => trivial
  | [], _ :: _, h, key => absurd h (by simp [allSame])
  | _ :: _, [], h, key => absurd h (by simp [allSame])
  | p :: l, q :: l', h, key => by
    simp only [allSame] at h
    rw [lookup_pair, lookup_pair, ← h.1.1]
    split
    · exact h.1.2
    · exact lookup_allSame h.2 key

omit [DecidableEq κ] in
theorem keys_allSame {R : ν → ν → Prop} : ∀ {l l' : List (κ × ν)},
    allSame (fun p q : κ × ν => p.1 = q.1 ∧ R p.2 q.2) l l' → l'.map Prod.fst = l.map Prod.fst
  | [], [], _ => rfl
  | [], _ :: _, h => absurd h (by simp [allSame])
  | _ :: _, [], h => absurd h (by simp [allSame])
  | p :: l, q :: l', h => by
    simp only [allSame] at h
    simp only [List.map_cons, keys_allSame h.2, h.1.1]

end Maps

theorem serSeq_perm {α : Type} {f : α → Outcome (List Tok)} {xs ys : List α} {ts : List Tok}
    (h : serSeq f xs = .ok ts) (hp : ys.Perm xs) :
    ∃ ts', serSeq f ys = .ok ts' ∧ tokSize ts' = tokSize ts := by
  let g : α → Nat := fun x => match f x with
    | .ok ts => tokSize ts
    | _ => 0
  have hg : ∀ x ts, f x = .ok ts → g x = tokSize ts := by
    intro x ts h
    simp [g, h]
  obtain ⟨h1, h2⟩ := serSeq_sizes hg h
  obtain ⟨ts', h3⟩ := serSeq_ok (xs := ys) (f := f) (fun y hy => h1 y (hp.mem_iff.mp hy))
  refine ⟨ts', h3, ?_⟩
  have h4 := (serSeq_sizes hg h3).2
  have h5 : (ys.map g).sum = (xs.map g).sum := (hp.map g).sum_nat
  simp only [tokSize] at *
  omega

theorem u64_length {n : Nat} (h : n ≤ usizeMax) : (UInt64.ofNat n).toNat = n := by
  rw [UInt64.toNat_ofNat']
  simp only [usizeMax] at h
  omega

theorem Shape.back {α : Type} (s : Shape α) : ∀ v : α, s.Restores v → Back s.ser (s.de .big) s.Same v := by
  induction s with
  | leaf c =>
    intro v hv ts rest h hl
    exact ⟨v, ts, rfl, hv _ rest ⟨ts, h, rfl⟩
      (by rw [List.length_append]; rw [← flat_length .big] at hl; exact hl), h, rfl⟩
  | option s ih =>
    intro v hv ts rest h hl
    cases v with
    | none => cases h; exact ⟨none, _, trivial, rfl, rfl, rfl⟩
    | some x =>
      simp only [Shape.ser, Outcome.bind_eq_ok, Outcome.pure_eq, Outcome.ok.injEq] at h
      obtain ⟨a, ha, rfl⟩ := h
      obtain ⟨y, a', h1, h2, h3, h4⟩ := ih x hv a rest ha (by simp [tokSize] at hl ⊢; omega)
      refine ⟨some y, .u8 1 :: a', h1, ?_, by simp [Shape.ser, h3], by simp [tokSize] at h4 ⊢; omega⟩
      simp only [Shape.de, deOption, flat, List.flatMap_cons, Tok.bytes, List.cons_append,
        List.nil_append]
      rw [De.bind_ok (deU8_cons _ _)]
      simp only [show (1 : UInt8) ≠ 0 by decide, if_false, if_true]
      rw [De.bind_ok h2]
      rfl
  | vec s ih =>
    intro v hv ts rest h hl
    simp only [Shape.ser, Outcome.bind_eq_ok, Outcome.pure_eq, Outcome.ok.injEq] at h
    obtain ⟨a, ha, rfl⟩ := h
    obtain ⟨vs', a', h1, h2, h3, h4, h5⟩ := vecLoop_back v a rest (fun x hx => ih x (hv.2 x hx)) ha
      (by simp [tokSize] at hl ⊢; omega)
    refine ⟨vs', .u64 (UInt64.ofNat v.length) :: a', h1, ?_, by simp [Shape.ser, h3, h5],
      by simp [tokSize] at h4 ⊢; omega⟩
    simp only [Shape.de, deVec, flat, List.flatMap_cons, List.append_assoc]
    rw [De.bind_ok (deU64_tok .big _ _), u64_length hv.1]
    exact h2
  | array n s ih =>
    intro v hv ts rest h hl
    obtain ⟨vs', a', h1, h2, h3, h4, h5⟩ :=
      vecLoop_back v.val ts rest (fun x hx => ih x (hv x hx)) h hl
    refine ⟨⟨vs', by rw [h5, v.property]⟩, a', h1, ?_, h3, h4⟩
    refine deArray_eq_ok.mpr ?_
    rwa [v.property] at h2
  | unit =>
    intro v hv ts rest h hl
    cases h
    exact ⟨(), [], trivial, rfl, rfl, rfl⟩
  | cons a b iha ihb =>
    intro v hv ts rest h hl
    simp only [Shape.ser, Outcome.bind_eq_ok, Outcome.pure_eq, Outcome.ok.injEq] at h
    obtain ⟨p, hp, q, hq, rfl⟩ := h
    obtain ⟨x, p', h1, h2, h3, h4⟩ := iha v.1 hv.1 p (flat .big q ++ rest) hp
      (by rw [List.length_append, flat_length]; simp [tokSize] at hl ⊢; omega)
    obtain ⟨y, q', h5, h6, h7, h8⟩ := ihb v.2 hv.2 q rest hq (by simp [tokSize] at hl ⊢; omega)
    refine ⟨(x, y), p' ++ q', ⟨h1, h5⟩, ?_, by simp [Shape.ser, h3, h7],
      by simp [tokSize] at h4 h8 ⊢; omega⟩
    simp only [Shape.de, flat, List.flatMap_append, List.append_assoc]
    rw [De.bind_ok h2, De.bind_ok h6]
    rfl
  | enum n T f ih =>
    intro v hv ts rest h hl
    obtain ⟨i, x⟩ := v
    simp only [Shape.ser, Outcome.bind_eq_ok, Outcome.pure_eq, Outcome.ok.injEq] at h
    obtain ⟨a, ha, rfl⟩ := h
    obtain ⟨y, a', h1, h2, h3, h4⟩ := ih i x hv.2 a rest ha (by simp [tokSize] at hl ⊢; omega)
    have hn : (UInt32.ofNat i.val).toNat = i.val := by
      rw [UInt32.toNat_ofNat']
      have := hv.1
      have := i.isLt
      omega
    refine ⟨⟨i, y⟩, .u32 (UInt32.ofNat i.val) :: a', ⟨i, x, y, rfl, rfl, h1⟩, ?_,
      by simp [Shape.ser, h3], by simp [tokSize] at h4 ⊢; omega⟩
    simp only [Shape.de, flat, List.flatMap_cons, List.append_assoc]
    rw [De.bind_ok (deU32_tok .big _ _)]
    exact variant_arm (f := fun i => (f i).de .big) hn h2
  | map k s o ih =>
    intro m hm ts rest h hs
    obtain ⟨hl, hn, hp⟩ := hm
    simp only [Shape.ser] at h
    rw [Outcome.bind_eq_ok] at h
    obtain ⟨a, ha, h⟩ := h
    cases h
    obtain ⟨es, a', h1, h2, h3, h4, h5⟩ := vecLoop_back (R := fun p q => p.1 = q.1 ∧ s.Same p.2 q.2)
      (d := do
        let a ← k.de .big
        let b ← s.de .big
        Pure.pure (a, b)) m.entries a rest (by
        intro p hp' ts rest h hl
        simp only [Outcome.bind_eq_ok, Outcome.pure_eq, Outcome.ok.injEq] at h
        obtain ⟨x, hx, y, hy, rfl⟩ := h
        obtain ⟨hk, hv⟩ := hp p hp'
        obtain ⟨z, y', h1, h2, h3, h4⟩ := ih p.2 hv y rest hy (by simp [tokSize] at hl ⊢; omega)
        refine ⟨(p.1, z), x ++ y', ⟨rfl, h1⟩, ?_, by simp [hx, h3], by simp [tokSize] at h4 ⊢; omega⟩
        simp only [flat, List.flatMap_append, List.append_assoc]
        rw [De.bind_ok (hk _ _ ⟨x, hx, rfl⟩ (by
          rw [List.length_append, List.length_append, flat_length, flat_length]
          simp [tokSize] at hl ⊢; omega)), De.bind_ok h2]
        rfl) ha (by simp [tokSize] at hs ⊢; omega)
    have hkeys := keys_allSame h1
    have hes : es.foldl mapInsert [] = es := by
      rw [foldl_distinct (by simpa [hkeys] using hn)]; rfl
    have hperm := o.perm es
    obtain ⟨a'', h6, h7⟩ := serSeq_perm h3 hperm
    have hlen : (o.order es).length = m.entries.length := by rw [hperm.length_eq, h5]
    refine ⟨⟨o.order es⟩, .u64 (UInt64.ofNat m.entries.length) :: a'', ⟨?_, ?_⟩, ?_, ?_,
      by simp [tokSize] at h4 h7 ⊢; omega⟩
    · exact ((hperm.map Prod.fst).nodup_iff).mpr (by rw [hkeys]; exact hn)
    · intro key
      rw [lookup_perm (by rw [hkeys]; exact hn) hperm]
      exact lookup_allSame h1 key
    · simp only [Shape.de, deVec, flat, List.flatMap_cons, List.append_assoc]
      rw [De.bind_ok (a := es) (r' := rest) (by
        rw [De.bind_ok (deU64_tok .big _ _), u64_length hl]
        exact h2)]
      rw [hes]
      rfl
    · simp only [Shape.ser, h6, hlen]
      rfl

/-- A codec that restores a value restores it at the end too. -/
theorem RestoresLast_of {α : Type} {c : Codec α} {v : α} (h : Spec.Restores c v) : Spec.RestoresLast c v := by
  intro w hw hl
  simpa using h w [] hw (by simpa using hl)

def BackLast {α : Type} (f : α → Outcome (List Tok)) (d : De α) (R : α → α → Prop) (v : α) : Prop :=
  ∀ ts, f v = .ok ts → tokSize ts ≤ usizeMax → ∃ v' ts', R v v' ∧ d (flat .big ts) = .ok (v', []) ∧
    f v' = .ok ts' ∧ tokSize ts' = tokSize ts

theorem BackLast_of {α : Type} {f : α → Outcome (List Tok)} {d : De α} {R : α → α → Prop} {v : α}
    (h : Back f d R v) : BackLast f d R v := by
  intro ts hts hl
  have := h ts [] hts (by simpa using hl)
  simpa using this

theorem Shape.backLast {α : Type} (s : Shape α) :
    ∀ v : α, s.RestoresLast v → BackLast s.ser (s.de .big) s.Same v := by
  induction s with
  | leaf c =>
    intro v hv ts h hl
    exact ⟨v, ts, rfl, hv _ ⟨ts, h, rfl⟩ (by rw [← flat_length .big] at hl; exact hl), h, rfl⟩
  | option s ih =>
    intro v hv ts h hl
    cases v with
    | none => cases h; exact ⟨none, _, trivial, rfl, rfl, rfl⟩
    | some x =>
      simp only [Shape.ser, Outcome.bind_eq_ok, Outcome.pure_eq, Outcome.ok.injEq] at h
      obtain ⟨a, ha, rfl⟩ := h
      obtain ⟨y, a', h1, h2, h3, h4⟩ := ih x hv a ha (by simp [tokSize] at hl ⊢; omega)
      refine ⟨some y, .u8 1 :: a', h1, ?_, by simp [Shape.ser, h3], by simp [tokSize] at h4 ⊢; omega⟩
      simp only [Shape.de, deOption, flat, List.flatMap_cons, Tok.bytes, List.cons_append,
        List.nil_append]
      rw [De.bind_ok (deU8_cons _ _)]
      simp only [show (1 : UInt8) ≠ 0 by decide, if_false, if_true]
      rw [De.bind_ok h2]
      rfl
  | cons a b iha ihb =>
    intro v hv ts h hl
    simp only [Shape.ser, Outcome.bind_eq_ok, Outcome.pure_eq, Outcome.ok.injEq] at h
    obtain ⟨p, hp, q, hq, rfl⟩ := h
    simp only [tokSize, List.map_append, List.sum_append] at hl
    have split : (a.RestoresLast v.1 ∧ q = [] ∧ (∀ r, b.de .big r = .ok (v.2, r)) ∧ b.Same v.2 v.2) ∨
        (a.Restores v.1 ∧ b.RestoresLast v.2) := by
      cases b with
      | unit => cases hq; exact .inl ⟨hv, rfl, fun _ => rfl, trivial⟩
      | leaf c => exact .inr hv
      | option s => exact .inr hv
      | vec s => exact .inr hv
      | array n s => exact .inr hv
      | cons x y => exact .inr hv
      | enum n T f => exact .inr hv
      | map k s o => exact .inr hv
    rcases split with ⟨hv, rfl, hd, hs⟩ | ⟨hva, hvb⟩
    · obtain ⟨x, p', h1, h2, h3, h4⟩ := iha v.1 hv p hp (by simp [tokSize] at hl ⊢; omega)
      refine ⟨(x, v.2), p' ++ [], ⟨h1, hs⟩, ?_, by simp [Shape.ser, h3, hq], by simpa using h4⟩
      simp only [Shape.de, List.append_nil]
      rw [De.bind_ok h2, De.bind_ok (hd [])]
      rfl
    · obtain ⟨x, p', h1, h2, h3, h4⟩ := Shape.back a v.1 hva p (flat .big q) hp
        (by rw [flat_length]; simp [tokSize] at hl ⊢; omega)
      obtain ⟨y, q', h5, h6, h7, h8⟩ := ihb v.2 hvb q hq (by simp [tokSize] at hl ⊢; omega)
      refine ⟨(x, y), p' ++ q', ⟨h1, h5⟩, ?_, by simp [Shape.ser, h3, h7],
        by simp [tokSize] at h4 h8 ⊢; omega⟩
      simp only [Shape.de, flat, List.flatMap_append]
      rw [De.bind_ok h2, De.bind_ok h6]
      rfl
  | enum n T f ih =>
    intro v hv ts h hl
    obtain ⟨i, x⟩ := v
    simp only [Shape.ser, Outcome.bind_eq_ok, Outcome.pure_eq, Outcome.ok.injEq] at h
    obtain ⟨a, ha, rfl⟩ := h
    obtain ⟨y, a', h1, h2, h3, h4⟩ := ih i x hv.2 a ha (by simp [tokSize] at hl ⊢; omega)
    have hn : (UInt32.ofNat i.val).toNat = i.val := by
      rw [UInt32.toNat_ofNat']
      have := hv.1
      have := i.isLt
      omega
    refine ⟨⟨i, y⟩, .u32 (UInt32.ofNat i.val) :: a', ⟨i, x, y, rfl, rfl, h1⟩, ?_,
      by simp [Shape.ser, h3], by simp [tokSize] at h4 ⊢; omega⟩
    simp only [Shape.de, flat, List.flatMap_cons]
    rw [De.bind_ok (deU32_tok .big _ _)]
    exact variant_arm (f := fun i => (f i).de .big) hn h2
  | vec s _ => intro v hv; exact BackLast_of (Shape.back (.vec s) v hv)
  | array n s _ => intro v hv; exact BackLast_of (Shape.back (.array n s) v hv)
  | unit => intro v hv; exact BackLast_of (Shape.back .unit v hv)
  | map k s o _ => intro v hv; exact BackLast_of (Shape.back (.map k s o) v hv)

theorem Shape.same_eq {α : Type} (s : Shape α) : s.NoMaps → ∀ x y : α, s.Same x y → x = y := by
  have all : ∀ {α : Type} {R : α → α → Prop}, (∀ x y, R x y → x = y) → ∀ xs ys, allSame R xs ys → xs = ys := by
    intro α R h xs
    induction xs with
    | nil => intro ys hs; cases ys <;> simp_all [allSame]
    | cons x xs ih =>
      intro ys hs
      cases ys with
      | nil => simp [allSame] at hs
      | cons y ys => rw [h _ _ hs.1, ih _ hs.2]
  induction s with
  | leaf c => intro _ x y h; exact h
  | option s ih =>
    intro hn x y h
    cases x <;> cases y <;> simp only [Shape.Same, bothSame] at h
    · rfl
    · rw [ih hn _ _ h]
  | vec s ih => intro hn x y h; exact all (ih hn) _ _ h
  | array n s ih => intro hn x y h; exact Subtype.ext (all (ih hn) _ _ h)
  | unit => intro _ x y _; rfl
  | cons a b iha ihb => intro hn x y h; exact Prod.ext (iha hn.1 _ _ h.1) (ihb hn.2 _ _ h.2)
  | enum n T f ih =>
    rintro hn x y ⟨i, a, b, rfl, rfl, h⟩
    rw [ih i (hn i) _ _ h]
  | map k s o ih => intro hn; exact absurd hn (by simp [Shape.NoMaps])

/-- What is read can be written; the lengths are related by `R`. -/
def Sized (R : Nat → Nat → Prop) {α : Type} (f : α → Outcome (List Tok)) (d : De α) : Prop :=
  ∀ r r' v, r.length ≤ usizeMax → d r = .ok (v, r') →
    ∃ u ts, r = u ++ r' ∧ f v = .ok ts ∧ R u.length (tokSize ts)

/-- Relations of lengths that are compatible with writing one thing after the other. -/
structure Additive (R : Nat → Nat → Prop) : Prop where
  refl : ∀ n, R n n
  add : ∀ a b c d, R a b → R c d → R (a + c) (b + d)

theorem vecLoop_sized {R : Nat → Nat → Prop} (hR : Additive R) {α : Type} {f : α → Outcome (List Tok)}
    {d : De α} (hd : Sized R f d) :
    ∀ (n : Nat) (r r' : Bytes) (vs : List α), r.length ≤ usizeMax → vecLoop d n r = .ok (vs, r') →
      vs.length = n ∧ ∃ u ts, r = u ++ r' ∧ serSeq f vs = .ok ts ∧ R u.length (tokSize ts) := by
  intro n
  induction n with
  | zero =>
    intro r r' vs _ h
    simp only [vecLoop, De.pure_run, Outcome.ok.injEq, Prod.mk.injEq] at h
    obtain ⟨rfl, rfl⟩ := h
    exact ⟨rfl, [], [], rfl, rfl, hR.refl _⟩
  | succ n ih =>
    intro r r' vs hl h
    simp only [vecLoop, De.bind_eq_ok, De.pure_run, Outcome.ok.injEq, Prod.mk.injEq] at h
    obtain ⟨a, r1, h1, as, r2, h2, rfl, rfl⟩ := h
    obtain ⟨u1, ts1, rfl, e1, e2⟩ := hd _ _ _ hl h1
    obtain ⟨hlen, u2, ts2, rfl, e3, e4⟩ := ih _ _ _ (by simp at hl; omega) h2
    refine ⟨by simp [hlen], u1 ++ u2, ts1 ++ ts2, by simp, by simp [serSeq, e1, e3], ?_⟩
    simp only [tokSize, List.length_append, List.map_append, List.sum_append] at *
    exact hR.add _ _ _ _ e2 e4

theorem pair_sized {R : Nat → Nat → Prop} (hR : Additive R) {α β : Type} {f : α → Outcome (List Tok)}
    {g : β → Outcome (List Tok)} {d : De α} {d' : De β} (hd : Sized R f d) (hd' : Sized R g d') :
    Sized R (fun p : α × β => do
      let a ← f p.1
      let b ← g p.2
      Pure.pure (a ++ b)) (do
      let a ← d
      let b ← d'
      Pure.pure (a, b)) := by
  intro r r' v hl h
  simp only [De.bind_eq_ok, De.pure_run, Outcome.ok.injEq, Prod.mk.injEq] at h
  obtain ⟨x, r1, h1, y, r2, h2, rfl, rfl⟩ := h
  obtain ⟨u1, ts1, rfl, e1, e2⟩ := hd _ _ _ hl h1
  obtain ⟨u2, ts2, rfl, e3, e4⟩ := hd' _ _ _ (by simp at hl; omega) h2
  refine ⟨u1 ++ u2, ts1 ++ ts2, by simp, by simp [e1, e3], ?_⟩
  simp only [tokSize, List.length_append, List.map_append, List.sum_append] at *
  exact hR.add _ _ _ _ e2 e4

theorem Shape.sized {R : Nat → Nat → Prop} (hR : Additive R) {α : Type} (s : Shape α)
    (hn : s.NoMaps ∨ ∀ a b c, R a b → c ≤ b → R a c)
    (hc : s.Codecs (fun c => Sized R c.ser (c.de .big))) : Sized R s.ser (s.de .big) := by
  induction s with
  | leaf c => exact hc
  | option s ih =>
    intro r r' v hl h
    simp only [Shape.de, deOption, De.bind_eq_ok, deU8_eq_ok] at h
    obtain ⟨b, r1, rfl, h⟩ := h
    split at h
    · simp only [De.pure_run, Outcome.ok.injEq, Prod.mk.injEq] at h
      obtain ⟨rfl, rfl⟩ := h
      exact ⟨[b], _, rfl, rfl, hR.refl 1⟩
    · split at h
      · simp only [De.bind_eq_ok, De.pure_run, Outcome.ok.injEq, Prod.mk.injEq] at h
        obtain ⟨a, r2, h1, rfl, rfl⟩ := h
        obtain ⟨u, ts, rfl, h2, h3⟩ := ih hn hc _ _ _ (by simp at hl; omega) h1
        refine ⟨b :: u, .u8 1 :: ts, rfl, by simp [Shape.ser, h2], ?_⟩
        have := hR.add _ _ _ _ (hR.refl 1) h3
        simpa [tokSize, Tok.size, Nat.add_comm] using this
      · simp at h
  | vec s ih =>
    intro r r' v hl h
    simp only [Shape.de, deVec, De.bind_eq_ok, deU64_eq_ok] at h
    obtain ⟨n, r1, rfl, h⟩ := h
    obtain ⟨hlen, u, ts, rfl, h1, h2⟩ :=
      vecLoop_sized hR (ih hn hc) _ _ _ _ (by simp at hl; omega) h
    refine ⟨_, .u64 n :: ts, (List.append_assoc _ _ _).symm, by simp [Shape.ser, h1, hlen], ?_⟩
    have := hR.add _ _ _ _ (hR.refl 8) h2
    simpa [tokSize, Tok.size, Tok.bytes] using this
  | array n s ih =>
    intro r r' v hl h
    exact (vecLoop_sized hR (ih hn hc) _ _ _ _ hl (deArray_eq_ok.mp h)).2
  | unit =>
    intro r r' v _ h
    simp only [Shape.de, De.pure_run, Outcome.ok.injEq, Prod.mk.injEq] at h
    exact ⟨[], [], by simp [h.2], rfl, hR.refl _⟩
  | cons a b iha ihb =>
    exact pair_sized hR (iha (hn.imp And.left id) hc.1) (ihb (hn.imp And.right id) hc.2)
  | enum n T f ih =>
    intro r r' v hl h
    simp only [Shape.de, De.bind_eq_ok, deU32_eq_ok] at h
    obtain ⟨i, r1, rfl, h⟩ := h
    split at h
    · rename_i hi
      simp only [De.bind_eq_ok, De.pure_run, Outcome.ok.injEq, Prod.mk.injEq] at h
      obtain ⟨x, r2, h1, rfl, rfl⟩ := h
      obtain ⟨u, ts, rfl, e1, e2⟩ := ih _ (hn.imp (fun h => h _) id) (hc _) _ _ _ (by simp at hl; omega) h1
      refine ⟨_, .u32 i :: ts, (List.append_assoc _ _ _).symm, by simp [Shape.ser, e1], ?_⟩
      have := hR.add _ _ _ _ (hR.refl 4) e2
      simpa [tokSize, Tok.size, Tok.bytes] using this
    · simp at h
  | map k s o ih =>
    rcases hn with hn | hn
    · exact absurd hn (by simp [Shape.NoMaps])
    intro r r' m hl h
    simp only [Shape.de, deVec] at h
    rw [De.bind_eq_ok] at h
    obtain ⟨es, r1, h1, h⟩ := h
    simp only [De.pure_run, Outcome.ok.injEq, Prod.mk.injEq] at h
    obtain ⟨rfl, rfl⟩ := h
    rw [De.bind_eq_ok] at h1
    obtain ⟨n, r2, h2, h1⟩ := h1
    rw [deU64_eq_ok] at h2
    subst h2
    obtain ⟨hlen, u, ts, rfl, h3, h4⟩ :=
      vecLoop_sized hR (pair_sized hR hc.1 (ih (.inr hn) hc.2)) _ _ _ _ (by simp at hl; omega) h1
    let f := fun p : _ × _ => (do
      let a ← k.ser p.1
      let b ← s.ser p.2
      Pure.pure (a ++ b) : Outcome (List Tok))
    let g : _ → Nat := fun x => match f x with
      | .ok ts => tokSize ts
      | _ => 0
    have hg : ∀ x ts, f x = .ok ts → g x = tokSize ts := by
      intro x ts h
      simp [g, h]
    obtain ⟨h5, h6⟩ := serSeq_sizes hg h3
    obtain ⟨ts', h7⟩ := serSeq_ok (f := f) (xs := es.foldl mapInsert []) (by
      intro x hx
      rcases foldl_mem hx with hx | hx
      · simp at hx
      · exact h5 x hx)
    have h8 := (serSeq_sizes hg h7).2
    have h9 := foldl_size g (es := es) (m := [])
    simp only [List.map_nil, List.sum_nil] at h9
    obtain ⟨ts'', h10, h11⟩ := serSeq_perm h7 (o.perm _)
    refine ⟨_, .u64 (UInt64.ofNat (o.order (es.foldl mapInsert [])).length) :: ts'',
      (List.append_assoc _ _ _).symm, ?_, ?_⟩
    · simp only [Shape.ser]
      rw [Outcome.bind_eq_ok]
      exact ⟨ts'', h10, rfl⟩
    · have := hR.add _ _ _ _ (hR.refl 8) (hn _ _ (tokSize ts'') h4 (by simp only [tokSize] at *; omega))
      simpa [tokSize, Tok.size, Tok.bytes] using this

theorem Shape.ser_ne_panic {α : Type} (s : Shape α) (hc : s.Codecs NeverPanics) : ∀ v, s.ser v ≠ .panic := by
  induction s with
  | leaf c => exact hc.1
  | option s ih =>
    intro v h
    cases v with
    | none => simp [Shape.ser] at h
    | some x =>
      have := ih hc x
      simp only [Shape.ser] at h
      cases h1 : s.ser x <;> simp_all
  | vec s ih =>
    intro v h
    have := serSeq_ne_panic (ih hc) v
    simp only [Shape.ser] at h
    cases h1 : serSeq s.ser v <;> simp_all
  | array n s ih => intro v; exact serSeq_ne_panic (ih hc) v.val
  | unit => intro v h; simp [Shape.ser] at h
  | cons a b iha ihb =>
    intro v h
    have h1 := iha hc.1 v.1
    have h2 := ihb hc.2 v.2
    simp only [Shape.ser] at h
    cases h3 : a.ser v.1 <;> cases h4 : b.ser v.2 <;> simp_all
  | enum n T f ih =>
    intro v h
    have h1 := ih v.1 (hc v.1) v.2
    simp only [Shape.ser] at h
    cases h3 : (f v.1).ser v.2 <;> simp_all
  | map k s o ih =>
    intro m h
    have := serSeq_ne_panic (f := fun p : _ × _ => do
      let a ← k.ser p.1
      let b ← s.ser p.2
      pure (a ++ b)) (by
        intro p h
        have h1 := hc.1.1 p.1
        have h2 := ih hc.2 p.2
        cases h3 : k.ser p.1 <;> cases h4 : s.ser p.2 <;> simp_all) m.entries
    simp only [Shape.ser] at h
    generalize serSeq _ m.entries = o at this h
    cases o <;> simp_all

theorem Shape.de_ne_panic {α : Type} (s : Shape α) (hc : s.Codecs NeverPanics) :
    ∀ r, s.de .big r ≠ .panic := by
  induction s with
  | leaf c => exact hc.2
  | option s ih =>
    intro r h
    simp only [Shape.de, deOption, De.bind_eq_panic] at h
    rcases h with h | ⟨b, r1, _, h⟩
    · exact deU8_ne_panic _ h
    · split at h
      · simp at h
      · split at h
        · simp only [De.bind_eq_panic] at h
          rcases h with h | ⟨_, _, _, h⟩
          · exact ih hc _ h
          · simp at h
        · simp at h
  | vec s ih =>
    intro r h
    simp only [Shape.de, deVec, De.bind_eq_panic] at h
    rcases h with h | ⟨_, _, _, h⟩
    · exact deU64_ne_panic _ _ h
    · exact vecLoop_ne_panic (ih hc) _ _ h
  | array n s ih =>
    intro r h
    simp only [Shape.de, deArray, De.bind_eq_panic] at h
    rcases h with h | ⟨_, _, _, h⟩
    · exact vecLoop_ne_panic (ih hc) _ _ h
    · split at h <;> simp at h
  | unit => intro r h; simp [Shape.de] at h
  | cons a b iha ihb =>
    intro r h
    simp only [Shape.de, De.bind_eq_panic] at h
    rcases h with h | ⟨_, _, _, h | ⟨_, _, _, h⟩⟩
    · exact iha hc.1 _ h
    · exact ihb hc.2 _ h
    · simp at h
  | enum n T f ih =>
    intro r h
    simp only [Shape.de, De.bind_eq_panic] at h
    rcases h with h | ⟨_, _, _, h⟩
    · exact deU32_ne_panic _ _ h
    · split at h
      · simp only [De.bind_eq_panic] at h
        rcases h with h | ⟨_, _, _, h⟩
        · exact ih _ (hc _) _ h
        · simp at h
      · simp at h
  | map k s o ih =>
    intro r h
    simp only [Shape.de, deVec, De.bind_eq_panic] at h
    rcases h with (h | ⟨_, _, _, h⟩) | ⟨_, _, _, h⟩
    · exact deU64_ne_panic _ _ h
    · refine vecLoop_ne_panic ?_ _ _ h
      intro r h
      simp only [De.bind_eq_panic] at h
      rcases h with h | ⟨_, _, _, h | ⟨_, _, _, h⟩⟩
      · exact hc.1.2 _ h
      · exact ih hc.2 _ h
      · simp at h
    · simp at h

/-! ## C85 -/

theorem Composite.serialize_eq {α : Type} {s : Shape α} {v : Composite s} {ts : List Tok}
    (h : s.ser v.val = .ok ts) : Bincode.serialize .big v = .ok (flat .big ts) :=
  Bincode.serialize_of_ser .big h

/-- C85. A payload struct of an application, with hand-written codecs, crate payloads and maps at any depth,
that `add` accepts reads back from the packet, whatever else is in the packet, with every map in it having
the same keys and values; the cursor is then behind it.  All that is needed is that every hand-written codec
restores the values it is given. -/
theorem C85 {α : Type} (s : Shape α) (v : α) (hv : s.Restores v) (p q : Packet)
    (h : p.add (⟨v⟩ : Composite s) = (.ok (), q)) (post : Bytes) (hl : (q.bytes ++ post).length ≤ usizeMax) :
    ∃ v', s.Same v v' ∧ nextPayload (Composite s) ⟨⟨q.bytes ++ post⟩, p.bytes.length⟩ =
      (.ok ⟨v'⟩, ⟨⟨q.bytes ++ post⟩, q.bytes.length⟩) := by
  rw [add_ok_iff] at h
  obtain ⟨w, hw, rfl⟩ := h
  rw [Bincode.serialize_eq_ok] at hw
  obtain ⟨ts, hts, rfl⟩ := hw
  have hts : s.ser v = .ok ts := hts
  simp only [List.length_append] at hl
  obtain ⟨v', ts', h1, h2, h3, h4⟩ := s.back v hv ts post hts (by rw [← flat_length .big]; simp only [flat]; omega)
  refine ⟨v', h1, ?_⟩
  have hs := Bincode.size_of_serialize (Composite.serialize_eq (s := s) (v := ⟨v'⟩) h3)
  rw [nextPayload_of_de (v := ⟨v'⟩) (r' := post) (by simp) (Composite.de_eq_ok.mpr (by
    simp only [List.append_assoc, drop_pre]; exact h2)) hs]
  have : (flat .big ts').length = (flat .big ts).length := by rw [flat_length, flat_length, h4]
  simp only [this, List.length_append]

/-- C85. Without maps it reads back identical. -/
theorem C85_equal {α : Type} (s : Shape α) (hn : s.NoMaps) (v : α) (hv : s.Restores v) (p q : Packet)
    (h : p.add (⟨v⟩ : Composite s) = (.ok (), q)) (post : Bytes) (hl : (q.bytes ++ post).length ≤ usizeMax) :
    nextPayload (Composite s) ⟨⟨q.bytes ++ post⟩, p.bytes.length⟩ =
      (.ok ⟨v⟩, ⟨⟨q.bytes ++ post⟩, q.bytes.length⟩) := by
  obtain ⟨v', h1, h2⟩ := C85 s v hv p q h post hl
  rw [← s.same_eq hn v v' h1] at h2
  exact h2

/-- C85. As the last payload of a packet the struct may end in something that takes the rest of the packet
(`RawEnd`, an introduction request or response). -/
theorem C85_last {α : Type} (s : Shape α) (v : α) (hv : s.RestoresLast v) (p q : Packet)
    (h : p.add (⟨v⟩ : Composite s) = (.ok (), q)) (hl : q.bytes.length ≤ usizeMax) :
    ∃ v', s.Same v v' ∧ nextPayload (Composite s) ⟨q, p.bytes.length⟩ = (.ok ⟨v'⟩, ⟨q, q.bytes.length⟩) := by
  rw [add_ok_iff] at h
  obtain ⟨w, hw, rfl⟩ := h
  rw [Bincode.serialize_eq_ok] at hw
  obtain ⟨ts, hts, rfl⟩ := hw
  have hts : s.ser v = .ok ts := hts
  simp only [List.length_append] at hl
  obtain ⟨v', ts', h1, h2, h3, h4⟩ := s.backLast v hv ts hts (by rw [← flat_length .big]; simp only [flat]; omega)
  refine ⟨v', h1, ?_⟩
  have hs := Bincode.size_of_serialize (Composite.serialize_eq (s := s) (v := ⟨v'⟩) h3)
  rw [nextPayload_of_de (v := ⟨v'⟩) (r' := []) (by simp) (Composite.de_eq_ok.mpr (by
    simp only [drop_pre]; exact h2)) hs]
  have : (flat .big ts').length = (flat .big ts).length := by rw [flat_length, flat_length, h4]
  simp only [this, List.length_append]

theorem Shape.Codecs.mono {P Q : ∀ {α : Type}, Codec α → Prop} (h : ∀ {α : Type} (c : Codec α), P c → Q c)
    {α : Type} (s : Shape α) : s.Codecs P → s.Codecs Q := by
  induction s with
  | leaf c => exact h c
  | map k s o ih => exact fun hx => ⟨h k hx.1, ih hx.2⟩
  | option s ih => exact ih
  | vec s ih => exact ih
  | array n s ih => exact ih
  | unit => exact id
  | cons a b iha ihb => exact fun h => ⟨iha h.1, ihb h.2⟩
  | enum n T f ih => exact fun h i => ih i (h i)

theorem Composite.read {R : Nat → Nat → Prop} {α : Type} {s : Shape α} (hs : Sized R s.ser (s.de .big))
    {d d' : PacketDeserializer} {v : Composite s} (hl : d.pntr.bytes.length ≤ usizeMax)
    (h : d.nextPayload (Composite s) = (.ok v, d')) :
    ∃ u r' n, d.pntr.bytes.drop d.index = u ++ r' ∧ d.index ≤ d.pntr.bytes.length ∧
      (Deserialize.de .big : De (Composite s)) (d.pntr.bytes.drop d.index) = .ok (v, r') ∧
      d' = ⟨d.pntr, d.index + n⟩ ∧ R u.length n := by
  have hi : d.index ≤ d.pntr.bytes.length := by
    unfold nextPayload sliceFrom at h
    by_cases hx : d.index ≤ d.pntr.bytes.length
    · exact hx
    · simp [hx] at h
  obtain ⟨w, hw, hd'⟩ := C64_moves_by_size _ d d' v h
  rw [nextPayload_inside hi] at h
  cases hd : (Deserialize.de .big : De (Composite s)) (d.pntr.bytes.drop d.index) with
  | err e => simp [hd] at h
  | panic => simp [hd] at h
  | ok x =>
    obtain ⟨v', r'⟩ := x
    have : v' = v := by
      simp only [hd] at h
      cases h2 : Bincode.serializedSize v' with
      | ok ts => simp only [h2, Prod.mk.injEq, Outcome.ok.injEq] at h; exact h.1
      | err e => simp [h2] at h
      | panic => simp [h2] at h
    subst this
    obtain ⟨u, ts, h1, h2, h3⟩ := hs _ _ _ (by simp; omega) (Composite.de_eq_ok.mp hd)
    rw [Composite.serialize_eq h2, Outcome.ok.injEq] at hw
    exact ⟨u, r', w.length, h1, hi, rfl, hd', by rw [← hw, flat_length]; exact h3⟩

/-- C85. If every hand-written codec writes as much as it reads, and there are no maps, then so does the
struct: after reading one the cursor is just behind what was read. -/
theorem C85_cursor {α : Type} (s : Shape α) (hn : s.NoMaps) (hc : s.Codecs ReadsWhatItWrites) :
    CursorExactFor (Composite s) := by
  have hs := s.sized (R := Eq) ⟨fun _ => rfl, by omega⟩ (.inl hn) (Shape.Codecs.mono (by
    intro α c h r r' v hl hd
    obtain ⟨u, w, h1, ⟨ts, h2, rfl⟩, h3⟩ := h r r' v hl hd
    exact ⟨u, ts, h1, h2, by rw [h3, ← flat_length .big]⟩) s hc)
  intro d d' v hl h
  obtain ⟨u, r', n, h1, h2, h3, h4, h5⟩ := Composite.read hs hl h
  exact ⟨n, h4, u, r', h1, h5, h3⟩

/-- C85. If no hand-written codec writes more than it reads, reading a struct (with or without maps) leaves
the cursor within the packet. -/
theorem C85_inside {α : Type} (s : Shape α) (hc : s.Codecs WritesNoMoreThanItReads)
    (d d' : PacketDeserializer) (v : Composite s) (hl : d.pntr.bytes.length ≤ usizeMax)
    (h : d.nextPayload (Composite s) = (.ok v, d')) :
    d'.pntr = d.pntr ∧ d.index ≤ d'.index ∧ d'.index ≤ d'.pntr.bytes.length := by
  have hs := s.sized (R := fun a b => b ≤ a) ⟨fun _ => Nat.le_refl _, by omega⟩ (.inr (by omega))
    (Shape.Codecs.mono (by
      intro α c h r r' v hl hd
      obtain ⟨u, w, h1, ⟨ts, h2, rfl⟩, h3⟩ := h r r' v hl hd
      exact ⟨u, ts, h1, h2, by rw [← flat_length .big]; exact h3⟩) s hc)
  obtain ⟨u, r', n, h1, h2, h3, rfl, h5⟩ := Composite.read hs hl h
  have := congrArg List.length h1
  simp only [List.length_drop, List.length_append] at this
  refine ⟨rfl, ?_, ?_⟩ <;> simp only <;> omega

/-- C85. If no hand-written codec panics, adding a struct never panics, and reading one does not panic
unless the cursor is past the end of the packet. -/
theorem C85_no_panic {α : Type} (s : Shape α) (hc : s.Codecs NeverPanics) :
    (∀ (p : Packet) (v : Composite s), (p.add v).1 ≠ .panic) ∧
    ∀ d : PacketDeserializer, d.index ≤ d.pntr.bytes.length →
      (d.nextPayload (Composite s)).1 ≠ .panic := by
  constructor
  · intro p v h
    unfold Packet.add Bincode.serialize at h
    have h1 : (Serialize.ser v : Outcome (List Tok)) ≠ .panic := s.ser_ne_panic hc v.val
    cases h2 : (Serialize.ser v : Outcome (List Tok)) with
    | panic => exact h1 h2
    | ok a => simp [h2] at h
    | err e => simp [h2] at h
  · intro d hi h
    rw [nextPayload_inside hi] at h
    cases hd : (Deserialize.de .big : De (Composite s)) (d.pntr.bytes.drop d.index) with
    | err e => simp [hd] at h
    | panic =>
      have hdef : (Deserialize.de .big : De (Composite s)) = (do
        let v ← s.de .big
        Pure.pure ⟨v⟩) := rfl
      rw [hdef, De.bind_eq_panic] at hd
      rcases hd with hd | ⟨_, _, _, hd⟩
      · exact s.de_ne_panic hc _ hd
      · simp at hd
    | ok x =>
      obtain ⟨v, r'⟩ := x
      simp only [hd, Bincode.serializedSize] at h
      have h1 : (Serialize.ser v : Outcome (List Tok)) ≠ .panic := s.ser_ne_panic hc v.val
      cases h2 : (Serialize.ser v : Outcome (List Tok)) with
      | panic => exact h1 h2
      | ok a => simp [h2] at h
      | err e => simp [h2] at h

/-- C85. The contracts are closed under composition: a composite type may itself be a field of another, or
a key. -/
theorem C85_closed {α : Type} (s : Shape α) :
    (s.Codecs NeverPanics → NeverPanics (Codec.of (Composite s))) ∧
    (s.Codecs WritesNoMoreThanItReads → WritesNoMoreThanItReads (Codec.of (Composite s))) ∧
    (s.NoMaps → s.Codecs ReadsWhatItWrites → ReadsWhatItWrites (Codec.of (Composite s))) ∧
    (s.NoMaps → ∀ v, s.Restores v → Spec.Restores (Codec.of (Composite s)) ⟨v⟩) ∧
    (s.NoMaps → ∀ v, s.RestoresLast v → Spec.RestoresLast (Codec.of (Composite s)) ⟨v⟩) := by
  refine ⟨?_, ?_, ?_, ?_, ?_⟩
  · intro hc
    refine ⟨fun v => s.ser_ne_panic hc v.val, fun r hd => ?_⟩
    have hdef : (Codec.of (Composite s)).de .big = (do
      let v ← s.de .big
      Pure.pure ⟨v⟩) := rfl
    rw [hdef, De.bind_eq_panic] at hd
    rcases hd with hd | ⟨_, _, _, hd⟩
    · exact s.de_ne_panic hc _ hd
    · simp at hd
  · intro hc r r' v hl hd
    have hs := s.sized (R := fun a b => b ≤ a) ⟨fun _ => Nat.le_refl _, by omega⟩ (.inr (by omega))
      (Shape.Codecs.mono (by
        intro α c h r r' v hl hd
        obtain ⟨u, w, h1, ⟨ts, h2, rfl⟩, h3⟩ := h r r' v hl hd
        exact ⟨u, ts, h1, h2, by rw [← flat_length .big]; exact h3⟩) s hc)
    obtain ⟨u, ts, h1, h2, h3⟩ := hs r r' v.val hl (Composite.de_eq_ok.mp hd)
    exact ⟨u, _, h1, ⟨ts, h2, rfl⟩, by rw [← flat_length .big] at h3; exact h3⟩
  · intro hn hc r r' v hl hd
    have hs := s.sized (R := Eq) ⟨fun _ => rfl, by omega⟩ (.inl hn) (Shape.Codecs.mono (by
      intro α c h r r' v hl hd
      obtain ⟨u, w, h1, ⟨ts, h2, rfl⟩, h3⟩ := h r r' v hl hd
      exact ⟨u, ts, h1, h2, by rw [h3, ← flat_length .big]⟩) s hc)
    obtain ⟨u, ts, h1, h2, h3⟩ := hs r r' v.val hl (Composite.de_eq_ok.mp hd)
    exact ⟨u, _, h1, ⟨ts, h2, rfl⟩, by rw [← flat_length .big] at h3; exact h3⟩
  · rintro hn v hv w rest ⟨ts, hts, rfl⟩ hl
    obtain ⟨v', _, h1, h2, _, _⟩ := s.back v hv ts rest hts (by
      rw [← flat_length .big]; rw [List.length_append] at hl; exact hl)
    rw [← s.same_eq hn v v' h1] at h2
    exact Composite.de_eq_ok.mpr h2
  · rintro hn v hv w ⟨ts, hts, rfl⟩ hl
    obtain ⟨v', _, h1, h2, _, _⟩ := s.backLast v hv ts hts (by rw [← flat_length .big]; exact hl)
    rw [← s.same_eq hn v v' h1] at h2
    exact Composite.de_eq_ok.mpr h2

/-- Reading structs of the given types one after the other, going on after errors. -/
def readShapes : List ((α : Type) × Shape α) → PacketDeserializer → Outcome PacketDeserializer
  | [], d => .ok d
  | ⟨_, s⟩ :: ss, d =>
    match d.nextPayload (Composite s) with
    | (.panic, _) => .panic
    | (_, d') => readShapes ss d'

/-- C85. So if the hand-written codecs neither panic nor write more than they read, an application may read
any sequence of such structs from any received bytes without a panic. -/
theorem C85_safe (ss : List ((α : Type) × Shape α))
    (hp : ∀ x ∈ ss, x.2.Codecs NeverPanics) (hc : ∀ x ∈ ss, x.2.Codecs WritesNoMoreThanItReads)
    (d : PacketDeserializer) (hl : d.pntr.bytes.length ≤ usizeMax) (hi : d.index ≤ d.pntr.bytes.length) :
    ∃ d', readShapes ss d = .ok d' ∧ d'.pntr = d.pntr ∧ d'.index ≤ d.pntr.bytes.length := by
  induction ss generalizing d with
  | nil => exact ⟨d, rfl, rfl, hi⟩
  | cons x ss ih =>
    obtain ⟨α, s⟩ := x
    have h1 := (C85_no_panic s (hp ⟨α, s⟩ (by simp))).2 d hi
    have ih := fun d => ih (fun x hx => hp x (by simp [hx])) (fun x hx => hc x (by simp [hx])) d
    simp only [readShapes]
    cases h2 : d.nextPayload (Composite s) with
    | mk o d' =>
      cases o with
      | panic => simp [h2] at h1
      | ok v =>
        obtain ⟨e1, e2, e3⟩ := C85_inside s (hc ⟨α, s⟩ (by simp)) d d' v hl h2
        obtain ⟨d'', e4, e5, e6⟩ := ih d' (by rw [e1]; exact hl) e3
        exact ⟨d'', e4, by rw [e5, e1], by rw [← e1]; exact e6⟩
      | err e =>
        have hd : d' = d := by
          rw [nextPayload_inside hi] at h2
          cases h3 : (Deserialize.de .big : De (Composite s)) (d.pntr.bytes.drop d.index) with
          | err e => simp only [h3, Prod.mk.injEq] at h2; exact h2.2.symm
          | panic => simp [h3] at h2
          | ok y =>
            obtain ⟨v, r'⟩ := y
            simp only [h3] at h2
            cases h4 : Bincode.serializedSize v with
            | ok n => simp [h4] at h2
            | panic => simp [h4] at h2
            | err e => simp only [h4, Prod.mk.injEq] at h2; exact h2.2.symm
        subst hd
        exact ih _ hl hi

/-! ### The types of the crate as fields -/

theorem WritesNoMoreThanItReads_of {α : Type} {c : Codec α} (h : ReadsWhatItWrites c) :
    WritesNoMoreThanItReads c := by
  intro r r' v hl hd
  obtain ⟨u, w, h1, h2, h3⟩ := h r r' v hl hd
  exact ⟨u, w, h1, h2, by omega⟩

/-- C85. The types of the crate, and everything derived from them, may be used as fields: all of them but
authentication payloads write as much as they read and never panic; those with an end of their own are restored
wherever they are, the others at the end. -/
theorem C85_fields (k : Kind) (hk : k ≠ .auth) :
    ReadsWhatItWrites (Codec.of k.Ty) ∧ WritesNoMoreThanItReads (Codec.of k.Ty) ∧
    NeverPanics (Codec.of k.Ty) ∧
    (k.SelfDelimiting → ∀ v : k.Ty, k.Fits v → Spec.Restores (Codec.of k.Ty) v) ∧
    ∀ v : k.Ty, k.CanBeLast v → k.Fits v → Spec.RestoresLast (Codec.of k.Ty) v := by
  have hx := k.sizeExact hk
  have h1 : ReadsWhatItWrites (Codec.of k.Ty) := by
    intro r r' v hl hd
    obtain ⟨u, hu, hs⟩ := hx.size .big r r' v hl hd
    unfold Bincode.serializedSize at hs
    cases hser : (Serialize.ser v : Outcome (List Tok)) with
    | err e => simp [hser] at hs
    | panic => simp [hser] at hs
    | ok ts =>
      simp only [hser, Outcome.ok.injEq] at hs
      exact ⟨u, _, hu, ⟨ts, hser, rfl⟩, by rw [flatMap_bytes_length]; omega⟩
  refine ⟨h1, WritesNoMoreThanItReads_of h1, ⟨k.ser_ne_panic, hx.noPanic .big⟩, ?_, ?_⟩
  · rintro hs v hf w rest ⟨ts, hts, rfl⟩ hl
    exact k.readBack hs v _ hf (Bincode.serialize_of_ser .big hts) (by
      simp only [List.length_append] at hl; omega) rest
  · rintro v hc hf w ⟨ts, hts, rfl⟩ hl
    exact k.readBack_last v _ hc hf (Bincode.serialize_of_ser .big hts) hl

/-- C85. Authentication payloads as fields are restored, write no more than they read and do not panic when
written; but they may write less than was read, and reading them may panic. -/
theorem C85_auth_field :
    (∀ v, Spec.Restores (Codec.of BinMemberAuthenticationPayload) v) ∧
    WritesNoMoreThanItReads (Codec.of BinMemberAuthenticationPayload) ∧
    (∀ v, (Codec.of BinMemberAuthenticationPayload).ser v ≠ .panic) ∧
    ¬ ReadsWhatItWrites (Codec.of BinMemberAuthenticationPayload) ∧
    ∃ r, (Codec.of BinMemberAuthenticationPayload).de .big r = .panic := by
  have key : ∀ r r' v, (Deserialize.de .big : De BinMemberAuthenticationPayload) r = .ok (v, r') →
      nextPayload BinMemberAuthenticationPayload ⟨⟨r⟩, 0⟩ = (.ok v, ⟨⟨r⟩, 0 + 76⟩) := by
    intro r r' v hd
    have hs : Bincode.serializedSize v = .ok 76 := by
      rw [Bincode.size_of_serialize (BinMemberAuthenticationPayload.ser_eq .big v), authBytes_length]
    exact nextPayload_of_de (by simp) (by simpa using hd) hs
  have hw : ∀ v : BinMemberAuthenticationPayload,
      WrittenAs (Codec.of BinMemberAuthenticationPayload) v (authBytes .big v) := by
    intro v
    exact Bincode.serialize_eq_ok.mp (BinMemberAuthenticationPayload.ser_eq .big v)
  refine ⟨?_, ?_, Kind.ser_ne_panic .auth, ?_, ⟨[0, 3, 1, 2, 3], by decide +kernel⟩⟩
  · rintro v w rest ⟨ts, hts, rfl⟩ hl
    exact Kind.readBack .auth trivial v _ trivial (Bincode.serialize_of_ser .big hts) (by
      simp only [List.length_append] at hl; omega) rest
  · intro r r' v hl hd
    obtain ⟨n, _, h74, _, _, u, rest, h1, h2, h3⟩ := C17_auth _ _ v (key r r' v hd)
    simp only [List.drop_zero] at h1 h3
    have hd : (Deserialize.de .big : De BinMemberAuthenticationPayload) r = .ok (v, r') := hd
    rw [hd] at h3
    simp only [Outcome.ok.injEq, Prod.mk.injEq, true_and] at h3
    subst h3
    exact ⟨u, _, h1, hw v, by rw [authBytes_length]; omega⟩
  · intro h
    have hd : (Deserialize.de .big : De BinMemberAuthenticationPayload) longAuth =
        .ok (⟨FixedBytes.replicate 32 7, FixedBytes.replicate 32 7⟩, [2, 3, 4]) := by
      decide +kernel
    obtain ⟨u, w, h1, ⟨ts, h2, rfl⟩, h3⟩ := h _ _ _ (by decide +kernel) hd
    obtain ⟨ts', h4, h5⟩ := hw ⟨FixedBytes.replicate 32 7, FixedBytes.replicate 32 7⟩
    rw [h4, Outcome.ok.injEq] at h2
    subst h2
    rw [← h5, authBytes_length] at h3
    have h6 := congrArg List.length h1
    have : longAuth.length = 80 := by decide +kernel
    simp only [List.length_append, this, h3] at h6
    simp at h6

/-- C85. A field with `#[serde(skip)]` comes back if it has its default value. -/
theorem C85_skip {α : Type} (dflt : α) :
    ReadsWhatItWrites (Codec.skip dflt) ∧ NeverPanics (Codec.skip dflt) ∧
    ∀ v, Spec.Restores (Codec.skip dflt) v ↔ v = dflt := by
  refine ⟨?_, ⟨by simp [Codec.skip], by simp [Codec.skip]⟩, ?_⟩
  · intro r r' v _ hd
    simp only [Codec.skip, De.pure_run, Outcome.ok.injEq, Prod.mk.injEq] at hd
    exact ⟨[], [], by simp [hd.2], ⟨[], rfl, rfl⟩, rfl⟩
  · intro v
    constructor
    · intro h
      have := h [] [] ⟨[], rfl, rfl⟩ (by simp)
      simp only [Codec.skip, List.append_nil, De.pure_run, Outcome.ok.injEq, Prod.mk.injEq, and_true] at this
      exact this.symm
    · rintro rfl w rest ⟨ts, hts, rfl⟩ _
      cases hts
      rfl

/-- C85. The structs of C25 and C80 are among these: taken as a composite of the crate's building blocks, such
a struct is written and read the same. -/
theorem C85_derived (s : Sch) : s.shape.ser = s.ser ∧ ∀ e, s.shape.de e = s.de e := by
  induction s with
  | option s ih =>
    refine ⟨?_, fun e => ?_⟩
    · funext v
      cases v <;> simp only [Sch.shape, Shape.ser, Sch.ser, ih.1]
    · simp only [Sch.shape, Shape.de, Sch.de, ih.2]
  | vec s ih => exact ⟨by funext v; simp only [Sch.shape, Shape.ser, Sch.ser, ih.1],
      fun e => by simp only [Sch.shape, Shape.de, Sch.de, ih.2]⟩
  | array n s ih => exact ⟨by funext v; simp only [Sch.shape, Shape.ser, Sch.ser, ih.1],
      fun e => by simp only [Sch.shape, Shape.de, Sch.de, ih.2]⟩
  | cons a b iha ihb => exact ⟨by funext v; simp only [Sch.shape, Shape.ser, Sch.ser, iha.1, ihb.1],
      fun e => by simp only [Sch.shape, Shape.de, Sch.de, iha.2, ihb.2]⟩
  | enum n f ih => exact ⟨by funext v; simp only [Sch.shape, Shape.ser, Sch.ser, (ih _).1],
      fun e => by simp only [Sch.shape, Shape.de, Sch.de, (ih _).2]⟩
  | _ => exact ⟨rfl, fun _ => rfl⟩

/-! ### An example -/

/-- A map that is iterated backwards, seen from the order of insertion. -/
def backwards (κ ν : Type) : MapOrder κ ν := ⟨List.reverse, List.reverse_perm⟩

/-- `struct { auth: BinMemberAuthenticationPayload, counts: HashMap<u8, Option<u16>>, cache: u32 (skipped),
request: IntroductionRequestPayload }`. -/
def compositeShape := Shape.cons (.leaf (Codec.of BinMemberAuthenticationPayload))
  (.cons (.map (Codec.ofSch .u8) (.option (.leaf (Codec.ofSch .u16))) (backwards _ _))
    (.cons (.leaf (Codec.skip (0 : UInt32)))
      (.cons (.leaf (Codec.of IntroductionRequestPayload)) .unit)))

def compositeValue : Composite compositeShape :=
  ⟨(⟨FixedBytes.replicate 32 1, FixedBytes.replicate 32 2⟩, ⟨[(5, some 7), (6, none)]⟩, 0,
    ⟨⟨.v4 1 2 3 4 5⟩, ⟨.v4 1 2 3 4 6⟩, ⟨.v4 1 2 3 4 7⟩, true, .PUBLIC, 9, ⟨[1, 2]⟩⟩, ())⟩

/-- The hypotheses of `C85_last` hold of it. -/
example : compositeShape.RestoresLast compositeValue.val ∧
    ∃ q, Packet.add ⟨[0, 2]⟩ compositeValue = (.ok (), q) ∧ q.bytes.length = 115 := by
  refine ⟨⟨C85_auth_field.1 _, ⟨by decide, by decide, ?_⟩, (C85_skip 0).2.2 0 |>.mpr rfl, ?_⟩,
    ⟨_, rfl, by decide +kernel⟩⟩
  · have h8 := (C85_fields (.derived .u8) (by simp)).2.2.2.1 trivial
    have h16 := (C85_fields (.derived .u16) (by simp)).2.2.2.1 trivial
    have r8 : ∀ x : UInt8, Spec.Restores (Codec.ofSch .u8) x := by
      intro x w rest hw hl
      have := h8 ⟨x⟩ trivial w rest hw hl
      exact Derived.de_eq_ok.mp this
    have r16 : ∀ x : UInt16, Spec.Restores (Codec.ofSch .u16) x := by
      intro x w rest hw hl
      have := h16 ⟨x⟩ trivial w rest hw hl
      exact Derived.de_eq_ok.mp this
    intro p hp
    simp only [compositeValue, List.mem_cons, List.not_mem_nil, or_false] at hp
    rcases hp with rfl | rfl
    · exact ⟨r8 _, r16 _⟩
    · exact ⟨r8 _, trivial⟩
  · exact (C85_fields .introRequest (by simp)).2.2.2.2 _ trivial trivial

/-- Its map does come back in another order. -/
example : (match (nextPayload (Composite compositeShape) ⟨(Packet.add ⟨[0, 2]⟩ compositeValue).2, 2⟩).1 with
      | .ok v => v.val.2.1.entries
      | _ => []) = [(6, none), (5, some 7)] := by decide +kernel

/-- A struct that `C85_safe` covers. -/
example : (Shape.cons (.leaf (Codec.of IntroductionResponsePayload)) .unit).Codecs NeverPanics ∧
    (Shape.cons (.leaf (Codec.of IntroductionResponsePayload)) .unit).Codecs WritesNoMoreThanItReads :=
  ⟨⟨(C85_fields .introResponse (by simp)).2.2.1, trivial⟩,
    ⟨(C85_fields .introResponse (by simp)).2.1, trivial⟩⟩

/-! ## Cases for the theorems above -/

/-- A pair of a time and a length-prefixed string, both read by their own codecs. -/
def pairShape := Shape.cons (.leaf (Codec.of TimeDistributionPayload)) (.cons (.leaf (Codec.of VarLen16)) .unit)

/-- `C85_cursor` and `C85_equal`: that pair behind one byte and before another. -/
example (q : Packet) (h : Packet.add ⟨[1]⟩ (⟨(⟨3⟩, ⟨[7, 8]⟩, ())⟩ : Composite pairShape) = (.ok (), q)) :
    CursorExactFor (Composite pairShape) ∧
    nextPayload (Composite pairShape) ⟨⟨q.bytes ++ [9]⟩, 1⟩ = (.ok ⟨(⟨3⟩, ⟨[7, 8]⟩, ())⟩, ⟨⟨q.bytes ++ [9]⟩, q.bytes.length⟩) := by
  have ht := C85_fields .time (by simp)
  have hv := C85_fields .varlen16 (by simp)
  have hl : (q.bytes ++ [9]).length ≤ usizeMax := by
    have h' := congrArg Prod.snd h
    simp only at h'
    rw [← h']
    decide +kernel
  exact ⟨C85_cursor pairShape ⟨trivial, trivial, trivial⟩ ⟨ht.1, hv.1, trivial⟩,
    C85_equal pairShape ⟨trivial, trivial, trivial⟩ (⟨3⟩, ⟨[7, 8]⟩, ())
      ⟨ht.2.2.2.1 trivial _ trivial, hv.2.2.2.1 trivial _ trivial, trivial⟩ ⟨[1]⟩ q h [9] hl⟩

/-- `C85`: the same pair. -/
example (q : Packet) (h : Packet.add ⟨[1]⟩ (⟨(⟨3⟩, ⟨[7, 8]⟩, ())⟩ : Composite pairShape) = (.ok (), q)) :=
  C85 pairShape (⟨3⟩, ⟨[7, 8]⟩, ())
    ⟨(C85_fields .time (by simp)).2.2.2.1 trivial _ trivial, (C85_fields .varlen16 (by simp)).2.2.2.1 trivial _ trivial, trivial⟩
    ⟨[1]⟩ q h [9] (by
      have h' := congrArg Prod.snd h
      simp only at h'
      rw [← h']
      decide +kernel)

/-- `C85_inside`: an introduction response. -/
example (d d' : PacketDeserializer) (v : Composite (Shape.cons (.leaf (Codec.of IntroductionResponsePayload)) .unit))
    (hl : d.pntr.bytes.length ≤ usizeMax) (h : d.nextPayload (Composite _) = (.ok v, d')) :=
  C85_inside (Shape.cons (.leaf (Codec.of IntroductionResponsePayload)) .unit) ⟨(C85_fields .introResponse (by simp)).2.1, trivial⟩ d d' v hl h

end Ipv8
