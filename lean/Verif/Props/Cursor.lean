import Verif.Props.Packet
/-!
# Property C64: the cursor moves by the size of the value, not by what was read
-/

namespace Ipv8
open Spec PacketDeserializer

/-- C64. For every payload type, with any codec: after a successful read the cursor has moved by the
number of bytes the value would be written with, whatever the codec consumed; the packet is
untouched. -/
theorem C64_moves_by_size (α : Type) [Ipv8Payload α] [Serialize α] [Deserialize α]
    (d d' : PacketDeserializer) (v : α) (h : d.nextPayload α = (.ok v, d')) :
    ∃ w, Bincode.serialize .big v = .ok w ∧ d' = ⟨d.pntr, d.index + w.length⟩ := by
  have hi : d.index ≤ d.pntr.bytes.length := by
    unfold nextPayload sliceFrom at h
    by_cases hx : d.index ≤ d.pntr.bytes.length
    · exact hx
    · simp [hx] at h
  rw [nextPayload_inside hi] at h
  cases hd : (Deserialize.de .big : De α) (d.pntr.bytes.drop d.index) with
  | err e => simp [hd] at h
  | panic => simp [hd] at h
  | ok x =>
    obtain ⟨v', r'⟩ := x
    simp only [hd] at h
    cases hs : Bincode.serializedSize v' with
    | err e => simp [hs] at h
    | panic => simp [hs] at h
    | ok n =>
      simp only [hs, Prod.mk.injEq, Outcome.ok.injEq] at h
      obtain ⟨rfl, rfl⟩ := h
      have : ∃ w, Bincode.serialize .big v' = .ok w := by
        unfold Bincode.serializedSize at hs
        unfold Bincode.serialize
        cases h2 : Serialize.ser v' with
        | ok ts => exact ⟨_, rfl⟩
        | err e => simp [h2] at hs
        | panic => simp [h2] at hs
      obtain ⟨w, hw⟩ := this
      have h3 := Bincode.size_of_serialize hw
      rw [hs] at h3
      simp only [Outcome.ok.injEq] at h3
      exact ⟨w, hw, by rw [h3]⟩

/-- C17 for any payload type: after a successful read the cursor has moved by exactly the bytes
consumed. -/
def CursorExactFor (α : Type) [Ipv8Payload α] [Serialize α] [Deserialize α] : Prop :=
  ∀ (d d' : PacketDeserializer) (v : α), d.pntr.bytes.length ≤ usizeMax →
    d.nextPayload α = (.ok v, d') →
      ∃ n, d' = ⟨d.pntr, d.index + n⟩ ∧ Consumes α (d.pntr.bytes.drop d.index) v n

/-- C64. For every payload type, with any codec: a failing read leaves cursor and packet alone, and the error is
that of the codec on what is unread, or the one with which `add` would refuse the value that was read. -/
theorem C64_fails (α : Type) [Ipv8Payload α] [Serialize α] [Deserialize α]
    (d d' : PacketDeserializer) (e : Error) (h : d.nextPayload α = (.err e, d')) :
    d' = d ∧ ((Deserialize.de .big : De α) (d.pntr.bytes.drop d.index) = .err e ∨
      ∃ v r, (Deserialize.de .big : De α) (d.pntr.bytes.drop d.index) = .ok (v, r) ∧
        ∀ p : Packet, p.add v = (.err e, p)) := by
  have hi : d.index ≤ d.pntr.bytes.length := by
    unfold nextPayload sliceFrom at h
    by_cases hx : d.index ≤ d.pntr.bytes.length
    · exact hx
    · simp [hx] at h
  rw [nextPayload_inside hi] at h
  cases hd : (Deserialize.de .big : De α) (d.pntr.bytes.drop d.index) with
  | err e' =>
    simp only [hd, Prod.mk.injEq, Outcome.err.injEq] at h
    exact ⟨h.2.symm, .inl (by rw [h.1])⟩
  | panic => simp [hd] at h
  | ok x =>
    obtain ⟨v, r⟩ := x
    simp only [hd, Bincode.serializedSize] at h
    cases hs : (Serialize.ser v : Outcome (List Tok)) with
    | ok ts => simp [hs] at h
    | panic => simp [hs] at h
    | err e' =>
      simp only [hs, Prod.mk.injEq, Outcome.err.injEq] at h
      obtain ⟨rfl, rfl⟩ := h
      exact ⟨rfl, .inr ⟨v, r, rfl, fun p => by simp [Packet.add, Bincode.serialize, hs]⟩⟩

/-- C64. The cursor of a payload type is exact if and only if what can be read of it is as long as what
would be written for it. -/
theorem C64_exact_iff (α : Type) [Ipv8Payload α] [Serialize α] [Deserialize α]
    (hser : ∀ (r r' : Bytes) (v : α), (Deserialize.de .big : De α) r = .ok (v, r') →
      ∃ w, Bincode.serialize .big v = .ok w) :
    CursorExactFor α ↔
      ∀ (r r' w : Bytes) (v : α), r.length ≤ usizeMax →
        (Deserialize.de .big : De α) r = .ok (v, r') → Bincode.serialize .big v = .ok w →
          ∃ c, r = c ++ r' ∧ c.length = w.length := by
  constructor
  · intro h r r' w v hl hd hw
    have hn : nextPayload α ⟨⟨r⟩, 0⟩ = (.ok v, ⟨⟨r⟩, 0 + w.length⟩) := by
      rw [nextPayload_inside (by simp)]
      simp only [List.drop_zero, hd, Bincode.size_of_serialize hw]
    obtain ⟨n, h1, c, rest, h3, h4, h5⟩ := h _ _ _ hl hn
    simp only [List.drop_zero] at h3 h5
    rw [hd] at h5
    simp only [Outcome.ok.injEq, Prod.mk.injEq, true_and] at h5
    subst h5
    simp only [PacketDeserializer.mk.injEq, true_and] at h1
    exact ⟨c, h3, by omega⟩
  · intro h d d' v hl hn
    have hi : d.index ≤ d.pntr.bytes.length := by
      unfold nextPayload sliceFrom at hn
      by_cases hx : d.index ≤ d.pntr.bytes.length
      · exact hx
      · simp [hx] at hn
    obtain ⟨w, hw, rfl⟩ := C64_moves_by_size α d d' v hn
    rw [nextPayload_inside hi] at hn
    cases hd : (Deserialize.de .big : De α) (d.pntr.bytes.drop d.index) with
    | err e => simp [hd] at hn
    | panic => simp [hd] at hn
    | ok x =>
      obtain ⟨v', r'⟩ := x
      obtain ⟨w', hw'⟩ := hser _ _ _ hd
      simp only [hd, Bincode.size_of_serialize hw', Prod.mk.injEq, Outcome.ok.injEq] at hn
      obtain ⟨rfl, _⟩ := hn
      obtain ⟨c, h1, h2⟩ := h _ _ w _ (by simp; omega) hd hw
      exact ⟨w.length, rfl, c, r', h1, h2, by rw [hd]⟩

/-! ## Maps -/

section Insert
variable {κ ν : Type} [DecidableEq κ]

theorem mem_mapInsert {m : List (κ × ν)} {p q : κ × ν} (h : q ∈ mapInsert m p) : q ∈ m ∨ q = p := by
  induction m with
  | nil => simp only [mapInsert, List.mem_singleton] at h; exact .inr h
  | cons a m ih =>
    simp only [mapInsert] at h
    split at h
    · rename_i he
      rcases List.mem_cons.mp h with rfl | h
      · right; rw [he]
      · exact .inl (List.mem_cons_of_mem _ h)
    · rcases List.mem_cons.mp h with rfl | h
      · simp
      · rcases ih h with h | h
        · exact .inl (List.mem_cons_of_mem _ h)
        · exact .inr h

theorem mapInsert_new {m : List (κ × ν)} {p : κ × ν} (h : p.1 ∉ m.map Prod.fst) :
    mapInsert m p = m ++ [p] := by
  induction m with
  | nil => rfl
  | cons a m ih =>
    simp only [List.map_cons, List.mem_cons, not_or] at h
    simp only [mapInsert, if_neg (Ne.symm h.1), ih h.2, List.cons_append]

theorem mapInsert_keys_known {m : List (κ × ν)} {p : κ × ν} (h : p.1 ∈ m.map Prod.fst) :
    (mapInsert m p).map Prod.fst = m.map Prod.fst := by
  induction m with
  | nil => simp at h
  | cons a m ih =>
    simp only [mapInsert]
    split
    · rfl
    · rename_i hne
      simp only [List.map_cons, List.mem_cons] at h
      rw [List.map_cons, List.map_cons, ih (h.resolve_left (Ne.symm hne))]

theorem mapInsert_nodup {m : List (κ × ν)} {p : κ × ν} (h : (m.map Prod.fst).Nodup) :
    ((mapInsert m p).map Prod.fst).Nodup := by
  by_cases hp : p.1 ∈ m.map Prod.fst
  · rw [mapInsert_keys_known hp]; exact h
  · rw [mapInsert_new hp, List.map_append, List.nodup_append]
    refine ⟨h, by simp, ?_⟩
    intro a ha b hb
    simp only [List.map_cons, List.map_nil, List.mem_singleton] at hb
    rintro rfl
    exact hp (hb ▸ ha)

theorem lookup_pair (a : κ × ν) (m : List (κ × ν)) (x : κ) :
    (a :: m).lookup x = if x = a.1 then some a.2 else m.lookup x := by
  obtain ⟨y, z⟩ := a
  rw [List.lookup_cons]
  by_cases h : x = y
  · simp [h]
  · simp [h, beq_eq_false_iff_ne.mpr h]

theorem mapInsert_lookup (m : List (κ × ν)) (p : κ × ν) (x : κ) :
    (mapInsert m p).lookup x = if x = p.1 then some p.2 else m.lookup x := by
  induction m with
  | nil => simp only [mapInsert, lookup_pair, List.lookup_nil]
  | cons a m ih =>
    simp only [mapInsert]
    split
    · rename_i he
      simp only [lookup_pair, he]
      by_cases h : x = p.1 <;> simp [h]
    · rename_i hne
      simp only [lookup_pair, ih]
      by_cases h : x = a.1
      · simp [h, hne]
      · simp [h]

theorem mapInsert_size (g : κ × ν → Nat) (m : List (κ × ν)) (p : κ × ν) :
    ((mapInsert m p).map g).sum ≤ (m.map g).sum + g p := by
  induction m with
  | nil => simp [mapInsert]
  | cons a m ih =>
    simp only [mapInsert]
    split
    · rename_i he
      have : ((a.1, p.2) : κ × ν) = p := by rw [he]
      simp only [List.map_cons, List.sum_cons, this]
      omega
    · simp only [List.map_cons, List.sum_cons]
      omega

theorem mapInsert_size_known {g : κ × ν → Nat} (hg : ∀ q, 0 < g q) {m : List (κ × ν)} {p : κ × ν}
    (h : p.1 ∈ m.map Prod.fst) : ((mapInsert m p).map g).sum < (m.map g).sum + g p := by
  induction m with
  | nil => simp at h
  | cons a m ih =>
    simp only [mapInsert]
    split
    · rename_i he
      have : ((a.1, p.2) : κ × ν) = p := by rw [he]
      have := hg a
      simp only [List.map_cons, List.sum_cons]
      rw [show ((a.1, p.2) : κ × ν) = p by rw [he]]
      omega
    · rename_i hne
      simp only [List.map_cons, List.mem_cons] at h
      have := ih (h.resolve_left (Ne.symm hne))
      simp only [List.map_cons, List.sum_cons]
      omega

theorem foldl_mem {es m : List (κ × ν)} {q : κ × ν} (h : q ∈ es.foldl mapInsert m) :
    q ∈ m ∨ q ∈ es := by
  induction es generalizing m with
  | nil => exact .inl h
  | cons p es ih =>
    rcases ih h with h | h
    · rcases mem_mapInsert h with h | rfl
      · exact .inl h
      · exact .inr (by simp)
    · exact .inr (List.mem_cons_of_mem _ h)

theorem foldl_nodup {es m : List (κ × ν)} (h : (m.map Prod.fst).Nodup) :
    ((es.foldl mapInsert m).map Prod.fst).Nodup := by
  induction es generalizing m with
  | nil => exact h
  | cons p es ih => exact ih (mapInsert_nodup h)

theorem foldl_lookup {es m : List (κ × ν)} {x : κ} :
    (es.foldl mapInsert m).lookup x = (es.reverse.lookup x).or (m.lookup x) := by
  induction es generalizing m with
  | nil => simp
  | cons p es ih =>
    simp only [List.foldl_cons, ih, mapInsert_lookup, List.reverse_cons, List.lookup_append,
      lookup_pair, List.lookup_nil]
    cases es.reverse.lookup x with
    | some y => simp
    | none =>
      by_cases h : x = p.1
      · simp [h]
      · simp [h]

theorem foldl_size (g : κ × ν → Nat) {es m : List (κ × ν)} :
    ((es.foldl mapInsert m).map g).sum ≤ (m.map g).sum + (es.map g).sum := by
  induction es generalizing m with
  | nil => simp
  | cons p es ih =>
    have h1 := ih (m := mapInsert m p)
    have h2 := mapInsert_size g m p
    simp only [List.foldl_cons, List.map_cons, List.sum_cons]
    omega

theorem foldl_distinct {es m : List (κ × ν)} (h : ((m ++ es).map Prod.fst).Nodup) :
    es.foldl mapInsert m = m ++ es := by
  induction es generalizing m with
  | nil => simp
  | cons p es ih =>
    have hp : p.1 ∉ m.map Prod.fst := by
      rw [List.map_append, List.nodup_append] at h
      intro hm
      exact h.2.2 _ hm p.1 (by simp) rfl
    rw [List.foldl_cons, mapInsert_new hp, ih (by simpa using h)]
    simp

theorem foldl_size_repeated {g : κ × ν → Nat} (hg : ∀ q, 0 < g q) {es m : List (κ × ν)}
    (hm : (m.map Prod.fst).Nodup) (h : ¬ ((m ++ es).map Prod.fst).Nodup) :
    ((es.foldl mapInsert m).map g).sum < (m.map g).sum + (es.map g).sum := by
  induction es generalizing m with
  | nil => simp at h; exact absurd hm h
  | cons p es ih =>
    simp only [List.foldl_cons, List.map_cons, List.sum_cons]
    by_cases hp : p.1 ∈ m.map Prod.fst
    · have h1 := foldl_size g (es := es) (m := mapInsert m p)
      have h2 := mapInsert_size_known hg hp
      omega
    · have := ih (m := mapInsert m p) (mapInsert_nodup hm) (by rw [mapInsert_new hp]; simpa using h)
      rw [mapInsert_new hp] at this ⊢
      simp only [List.map_append, List.sum_append, List.map_cons, List.map_nil, List.sum_cons,
        List.sum_nil] at this
      omega

end Insert

/-- The bytes of a value. -/
def Sch.size (s : Sch) (x : s.Ty) : Nat :=
  match s.ser x with
  | .ok ts => (ts.map Tok.size).sum
  | _ => 0

theorem serSeq_sizes {α : Type} {f : α → Outcome (List Tok)} {g : α → Nat}
    (hg : ∀ x ts, f x = .ok ts → g x = (ts.map Tok.size).sum) :
    ∀ {xs : List α} {ts : List Tok}, serSeq f xs = .ok ts →
      (∀ x ∈ xs, ∃ t, f x = .ok t) ∧ (ts.map Tok.size).sum = (xs.map g).sum
  | [], ts, h => by
    simp only [serSeq, Outcome.ok.injEq] at h
    subst h
    simp
  | x :: xs, ts, h => by
    simp only [serSeq, Outcome.bind_eq_ok, Outcome.pure_eq, Outcome.ok.injEq] at h
    obtain ⟨a, ha, b, hb, rfl⟩ := h
    obtain ⟨h1, h2⟩ := serSeq_sizes hg hb
    refine ⟨?_, ?_⟩
    · intro y hy
      rcases List.mem_cons.mp hy with rfl | hy
      · exact ⟨a, ha⟩
      · exact h1 y hy
    · simp only [List.map_append, List.sum_append, List.map_cons, List.sum_cons, h2, hg x a ha]

theorem serSeq_ok {α : Type} {f : α → Outcome (List Tok)} :
    ∀ {xs : List α}, (∀ x ∈ xs, ∃ t, f x = .ok t) → ∃ ts, serSeq f xs = .ok ts
  | [], _ => ⟨[], rfl⟩
  | x :: xs, h => by
    obtain ⟨a, ha⟩ := h x (by simp)
    obtain ⟨b, hb⟩ := serSeq_ok (xs := xs) (fun y hy => h y (by simp [hy]))
    exact ⟨a ++ b, by simp [serSeq, ha, hb]⟩

variable {k v : Sch} [DecidableEq k.Ty]

theorem MapPayload.de_eq_ok {e : Endian} {r r' : Bytes} {m : MapPayload k v} :
    (Deserialize.de e : De (MapPayload k v)) r = .ok (m, r') ↔
      ∃ es, (Sch.vec (.cons k v)).de e r = .ok (es, r') ∧ m.entries = es.foldl mapInsert [] := by
  have hd : (Deserialize.de e : De (MapPayload k v)) = (do
    let es ← (Sch.vec (.cons k v)).de e
    Pure.pure ⟨es.foldl mapInsert []⟩) := rfl
  rw [hd, De.bind_eq_ok]
  constructor
  · rintro ⟨es, r1, h1, h2⟩
    simp only [De.pure_run, Outcome.ok.injEq, Prod.mk.injEq] at h2
    obtain ⟨rfl, rfl⟩ := h2
    exact ⟨es, h1, rfl⟩
  · rintro ⟨es, h1, h2⟩
    refine ⟨es, r', h1, ?_⟩
    rw [← h2]
    rfl

theorem Sch.vec_ser_ok {s : Sch} {xs : List s.Ty} {ts : List Tok} (h : (Sch.vec s).ser xs = .ok ts) :
    ∃ a, serSeq s.ser xs = .ok a ∧ ts = .u64 (UInt64.ofNat xs.length) :: a := by
  simp only [Sch.ser, Outcome.bind_eq_ok, Outcome.pure_eq, Outcome.ok.injEq] at h
  obtain ⟨a, h1, h2⟩ := h
  exact ⟨a, h1, h2.symm⟩

theorem Sch.size_eq {s : Sch} {x : s.Ty} {ts : List Tok} (h : s.ser x = .ok ts) :
    s.size x = (ts.map Tok.size).sum := by
  simp [Sch.size, h]

/-- C64. Reading a map. The front of the unread part is a list of pairs `es`, encoded like a vector of
pairs; the result maps every key to the value of its last pair; it has each key once.  The cursor never
moves past the end of those pairs, and stops exactly there if no key is repeated. -/
theorem C64_map (d d' : PacketDeserializer) (m : MapPayload k v)
    (h : d.nextPayload (MapPayload k v) = (.ok m, d')) :
    ∃ (es : List (k.Ty × v.Ty)) (c rest : Bytes),
      d.pntr.bytes.drop d.index = c ++ rest ∧
      Bincode.serialize .big (⟨es⟩ : Derived (.vec (.cons k v))) = .ok c ∧
      (∀ key, m.entries.lookup key = es.reverse.lookup key) ∧
      (m.entries.map Prod.fst).Nodup ∧
      d'.pntr = d.pntr ∧ d.index + 8 ≤ d'.index ∧ d'.index ≤ d.index + c.length ∧
      ((es.map Prod.fst).Nodup → m.entries = es ∧ d'.index = d.index + c.length) ∧
      ((∀ key ts, k.ser key = .ok ts → ts ≠ []) → ¬ (es.map Prod.fst).Nodup →
        d'.index < d.index + c.length) := by
  have hi : d.index ≤ d.pntr.bytes.length := by
    unfold nextPayload sliceFrom at h
    by_cases hx : d.index ≤ d.pntr.bytes.length
    · exact hx
    · simp [hx] at h
  obtain ⟨w, hw, rfl⟩ := C64_moves_by_size _ d d' m h
  rw [nextPayload_inside hi] at h
  cases hd : (Deserialize.de .big : De (MapPayload k v)) (d.pntr.bytes.drop d.index) with
  | err e => simp [hd] at h
  | panic => simp [hd] at h
  | ok x =>
    obtain ⟨m', rest⟩ := x
    simp only [hd, Bincode.serializedSize] at h
    have : m' = m := by
      cases h2 : (Serialize.ser m' : Outcome (List Tok)) with
      | ok ts => simp only [h2, Prod.mk.injEq, Outcome.ok.injEq] at h; exact h.1
      | err e => simp [h2] at h
      | panic => simp [h2] at h
    subst this
    clear h
    obtain ⟨es, he, hm⟩ := MapPayload.de_eq_ok.mp hd
    obtain ⟨ts, hts, hr⟩ := Sch.de_exact .big _ _ _ _ he
    have hser : (Serialize.ser (⟨es⟩ : Derived (.vec (.cons k v))) : Outcome (List Tok)) = .ok ts := hts
    have hc := Bincode.serialize_of_ser .big hser
    obtain ⟨a, ha, rfl⟩ := Sch.vec_ser_ok hts
    rw [Bincode.serialize_eq_ok] at hw
    obtain ⟨ts2, hts2, rfl⟩ := hw
    have hts2 : (Sch.vec (.cons k v)).ser m'.entries = .ok ts2 := hts2
    obtain ⟨b, hb, rfl⟩ := Sch.vec_ser_ok hts2
    have hg : ∀ (x : (Sch.cons k v).Ty) ts, (Sch.cons k v).ser x = .ok ts →
      (Sch.cons k v).size x = (ts.map Tok.size).sum := fun x ts h => Sch.size_eq h
    obtain ⟨h1, h2⟩ := serSeq_sizes hg ha
    obtain ⟨h3, h4⟩ := serSeq_sizes hg hb
    have hlen : ∀ (t : Tok) (ts : List Tok), (List.flatMap (Tok.bytes .big) (t :: ts)).length =
        t.size + (ts.map Tok.size).sum := by
      intro t ts
      rw [flatMap_bytes_length]; rfl
    refine ⟨es, _, rest, hr, hc, ?_, ?_, rfl, ?_, ?_, ?_, ?_⟩
    · intro key; rw [hm, foldl_lookup]; simp
    · rw [hm]; exact foldl_nodup (by simp)
    · simp only [hlen, Tok.size]; omega
    · simp only [hlen, Tok.size, h2, h4, hm]
      have := foldl_size (Sch.cons k v).size (es := es) (m := [])
      simp only [List.map_nil, List.sum_nil] at this
      omega
    · intro hn
      have h5 : m'.entries = es := by rw [hm, foldl_distinct (by simpa using hn)]; rfl
      refine ⟨h5, ?_⟩
      simp only [hlen, Tok.size, h2, h4, h5]
    · intro hk hn
      simp only [hlen, Tok.size, h2, h4, hm]
      -- sizes are compared on the pairs that can be written
      have hpos : ∀ q ∈ es, 0 < (Sch.cons k v).size q := by
        intro q hq
        obtain ⟨t, ht⟩ := h1 q hq
        rw [Sch.size_eq ht]
        simp only [Sch.ser, Outcome.bind_eq_ok, Outcome.pure_eq, Outcome.ok.injEq] at ht
        obtain ⟨x, hx, y, hy, rfl⟩ := ht
        have := hk _ _ hx
        cases x with
        | nil => exact absurd rfl this
        | cons t x =>
          simp only [List.cons_append, List.map_cons, List.sum_cons]
          have : 0 < t.size := by cases t <;> simp [Tok.size]
          omega
      let g : k.Ty × v.Ty → Nat := fun q => max 1 ((Sch.cons k v).size q)
      have e1 : ∀ l : List (k.Ty × v.Ty), (∀ q ∈ l, q ∈ es) →
          (l.map g).sum = (l.map (Sch.cons k v).size).sum := by
        intro l hl
        congr 1
        apply List.map_congr_left
        intro q hq
        have := hpos q (hl q hq)
        simp only [g]
        omega
      have h6 := foldl_size_repeated (g := g) (fun q => by simp only [g]; omega) (es := es) (m := [])
        (by simp) (by simpa using hn)
      rw [e1 es (fun q hq => hq), e1 _ (fun q hq => (foldl_mem hq).resolve_left (by simp))] at h6
      simp only [List.map_nil, List.sum_nil] at h6
      omega

/-- C64. A map that `add` accepts reads back identically anywhere in a packet, and the cursor is then
behind it. -/
theorem C64_map_roundtrip (hk : k.SelfDelimiting) (hv : v.SelfDelimiting) (m : MapPayload k v)
    (hn : (m.entries.map Prod.fst).Nodup) (hf : (Sch.vec (.cons k v)).Fits m.entries) (p q : Packet)
    (h : p.add m = (.ok (), q)) (post : Bytes) :
    nextPayload (MapPayload k v) ⟨⟨q.bytes ++ post⟩, p.bytes.length⟩ =
      (.ok m, ⟨⟨q.bytes ++ post⟩, q.bytes.length⟩) := by
  obtain ⟨w, hw, rfl⟩ := add_ok_iff.mp h
  have hw' := hw
  rw [Bincode.serialize_eq_ok] at hw
  obtain ⟨ts, h1, rfl⟩ := hw
  have h1 : (Sch.vec (.cons k v)).ser m.entries = .ok ts := h1
  refine (nextPayload_of_de (r' := post) (by simp) ?_ (Bincode.size_of_serialize hw')).trans (by simp)
  simp only [List.append_assoc, drop_pre]
  refine MapPayload.de_eq_ok.mpr ⟨m.entries, ?_, ?_⟩
  · exact Sch.roundtrip .big (.vec (.cons k v)) ⟨hk, hv⟩ m.entries ts post hf h1
  · rw [foldl_distinct (by simpa using hn)]; rfl

/-- C64. The cursor law of C17 fails for maps: with a repeated key the cursor stays inside the map. -/
theorem C64_map_false : ¬ CursorExactFor (MapPayload .u8 .u8) := by
  intro h
  have hr : nextPayload (MapPayload .u8 .u8) ⟨⟨[0, 0, 0, 0, 0, 0, 0, 2, 1, 5, 1, 6, 9]⟩, 0⟩ =
      (.ok ⟨[(1, 6)]⟩, ⟨⟨[0, 0, 0, 0, 0, 0, 0, 2, 1, 5, 1, 6, 9]⟩, 10⟩) := by rfl
  obtain ⟨n, h1, c, rest, h3, h4, h5⟩ := h _ _ _ (by decide) hr
  have hd : (Deserialize.de .big : De (MapPayload .u8 .u8)) [0, 0, 0, 0, 0, 0, 0, 2, 1, 5, 1, 6, 9] =
      .ok (⟨[(1, 6)]⟩, [9]) := by rfl
  simp only [List.drop_zero] at h3 h5
  rw [hd] at h5
  simp only [Outcome.ok.injEq, Prod.mk.injEq, true_and] at h5
  subst h5
  have := congrArg List.length h3
  simp only [PacketDeserializer.mk.injEq, true_and] at h1
  simp at this
  omega

/-- What happens next in that packet: the byte `1` of the second pair is read as the next payload. -/
example : nextPayload (Derived .u8) ⟨⟨[0, 0, 0, 0, 0, 0, 0, 2, 1, 5, 1, 6, 9]⟩, 10⟩ =
    (.ok ⟨1⟩, ⟨⟨[0, 0, 0, 0, 0, 0, 0, 2, 1, 5, 1, 6, 9]⟩, 11⟩) := rfl

/-- The hypotheses of `C64_map_roundtrip` are met: a map with two keys and strings as values. -/
example : (Packet.add ⟨[7]⟩ (⟨[(1, "a"), (2, "bc")]⟩ : MapPayload .u8 .string)).1 = .ok () ∧
    (([(1, "a"), (2, "bc")] : List (UInt8 × String)).map Prod.fst).Nodup :=
  ⟨by decide +kernel, by decide⟩

/-- The hypothesis on keys of `C64_map` is met by one-byte keys. -/
example : ∀ key ts, Sch.ser .u8 key = .ok ts → ts ≠ [] := by
  intro key ts h
  simp only [Sch.ser, Outcome.ok.injEq] at h
  simp [← h]

/-- C64. Every type the crate defines or derives, except authentication payloads, has an exact cursor
in the sense used here. -/
theorem C64_exact_types (κ : Kind) (hκ : κ ≠ .auth) : CursorExactFor κ.Ty := by
  intro d d' x hl h
  obtain ⟨n, h1, _, h3⟩ := C17_partial κ hκ d d' x hl h
  exact ⟨n, h1, h3⟩

/-! ## Codecs written by hand -/

/-- A payload whose reader accepts an older version without the second field:
`impl Deserialize` uses `next_element()?.unwrap_or(0)`-style defaults, `impl Serialize` always writes
both fields. -/
structure Versioned where
  a : UInt8
  b : UInt8

instance : Ipv8Payload Versioned := ⟨⟩
instance : Serialize Versioned := ⟨fun x => .ok [.u8 x.a, .u8 x.b]⟩
instance : Deserialize Versioned where
  de _ := fun r =>
    match r with
    | [] => .err .eof
    | [a] => .ok (⟨a, 0⟩, [])
    | a :: b :: r => .ok (⟨a, b⟩, r)

/-- C64. With a hand-written codec the cursor can pass the end of the packet, and then the next read
panics: a successful read does not promise that reading on is safe. -/
theorem C64_overshoot : ∃ d d' v, nextPayload Versioned d = (.ok v, d') ∧
    d.index ≤ d.pntr.bytes.length ∧ d'.index > d'.pntr.bytes.length ∧
    ∀ (α : Type) [Ipv8Payload α] [Serialize α] [Deserialize α], nextPayload α d' = (.panic, d') :=
  ⟨⟨⟨[5]⟩, 0⟩, ⟨⟨[5]⟩, 2⟩, ⟨5, 0⟩, rfl, by decide, by decide, fun _ _ _ _ => rfl⟩

/-- A payload whose writer refuses what its reader accepts. -/
structure Picky where
  a : UInt8

instance : Ipv8Payload Picky := ⟨⟩
instance : Serialize Picky := ⟨fun v => if v.a = 0 then .err (.custom "zero") else .ok [.u8 v.a]⟩
instance : Deserialize Picky := ⟨fun _ => do let a ← deU8; pure ⟨a⟩⟩

/-- The hypothesis of `C64_fails` is met in both ways. -/
example : nextPayload Picky ⟨⟨[0, 1]⟩, 0⟩ = (.err (.custom "zero"), ⟨⟨[0, 1]⟩, 0⟩) ∧
    nextPayload Picky ⟨⟨[]⟩, 0⟩ = (.err .eof, ⟨⟨[]⟩, 0⟩) := ⟨rfl, rfl⟩

/-! ## Cases for the theorems above -/

/-- `C64_exact_types` and `C64_exact_iff`: for length-prefixed strings; and, the other way round, for `Versioned` neither
side holds. -/
example : CursorExactFor VarLen16 ∧ ¬ CursorExactFor Versioned := by
  refine ⟨C64_exact_types .varlen16 (fun h => nomatch h), fun h => ?_⟩
  have hv := (C64_exact_iff Versioned (fun _ _ v _ => ⟨_, rfl⟩)).mp h [5] [] [5, 0] ⟨5, 0⟩ (by decide) rfl rfl
  obtain ⟨c, h1, h2⟩ := hv
  simp only [List.append_nil] at h1
  subst h1
  simp at h2

/-- `C64_moves_by_size`: a `VarLen16`. -/
example (v : VarLen16) (d' : PacketDeserializer) (h : (PacketDeserializer.mk ⟨[0, 1, 7, 9]⟩ 0).nextPayload VarLen16 = (.ok v, d')) :=
  C64_moves_by_size VarLen16 _ d' v h

end Ipv8
