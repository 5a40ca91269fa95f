import Verif.Model.Serde
/-!
# Lemmas about the serde/bincode layer
-/

namespace Ipv8

/-! ## Outcome and De -/

@[simp] theorem Outcome.pure_eq {α : Type} (a : α) : (pure a : Outcome α) = .ok a := rfl
@[simp] theorem Outcome.ok_bind {α β : Type} (a : α) (f : α → Outcome β) :
    (Outcome.ok a >>= f) = f a := rfl
@[simp] theorem Outcome.err_bind {α β : Type} (e : Error) (f : α → Outcome β) :
    (Outcome.err e >>= f) = .err e := rfl
@[simp] theorem Outcome.panic_bind {α β : Type} (f : α → Outcome β) :
    ((Outcome.panic : Outcome α) >>= f) = .panic := rfl

@[simp] theorem Outcome.ofOption_some {α : Type} (e : Error) (a : α) :
    Outcome.ofOption e (some a) = .ok a := rfl
@[simp] theorem Outcome.ofOption_none {α : Type} (e : Error) :
    (Outcome.ofOption e none : Outcome α) = .err e := rfl

@[simp] theorem De.pure_run {α : Type} (a : α) (r : Bytes) :
    (Pure.pure a : De α) r = .ok (a, r) := rfl
theorem De.bind_run {α β : Type} (m : De α) (f : α → De β) (r : Bytes) :
    (m >>= f) r = match m r with
      | .ok (a, r') => f a r'
      | .err e => .err e
      | .panic => .panic := rfl
@[simp] theorem De.fail_run {α : Type} (e : Error) (r : Bytes) : (De.fail e : De α) r = .err e := rfl

theorem De.bind_ok {α β : Type} {m : De α} {f : α → De β} {r r' : Bytes} {a : α}
    (h : m r = .ok (a, r')) : (m >>= f) r = f a r' := by
  rw [De.bind_run, h]

theorem De.bind_err {α β : Type} {m : De α} {f : α → De β} {r : Bytes} {e : Error}
    (h : m r = .err e) : (m >>= f) r = .err e := by
  rw [De.bind_run, h]

theorem De.bind_panic {α β : Type} {m : De α} {f : α → De β} {r : Bytes}
    (h : m r = .panic) : (m >>= f) r = .panic := by
  rw [De.bind_run, h]

/-- Inversion of a successful composition. -/
theorem De.bind_eq_ok {α β : Type} {m : De α} {f : α → De β} {r r'' : Bytes} {b : β} :
    (m >>= f) r = .ok (b, r'') ↔ ∃ a r', m r = .ok (a, r') ∧ f a r' = .ok (b, r'') := by
  rw [De.bind_run]
  cases h : m r with
  | ok x => obtain ⟨a, r'⟩ := x; simp [Outcome.ok.injEq, Prod.mk.injEq]; grind
  | err e => simp
  | panic => simp

theorem De.bind_eq_panic {α β : Type} {m : De α} {f : α → De β} {r : Bytes} :
    (m >>= f) r = .panic ↔ m r = .panic ∨ ∃ a r', m r = .ok (a, r') ∧ f a r' = .panic := by
  rw [De.bind_run]
  cases h : m r with
  | ok x => obtain ⟨a, r'⟩ := x; simp [Outcome.ok.injEq, Prod.mk.injEq]; grind
  | err e => simp
  | panic => simp

/-! ## Integers -/

@[simp] theorem leBytes_length (k x : Nat) : (leBytes k x).length = k := by
  induction k generalizing x with
  | zero => rfl
  | succ k ih => simp [leBytes, ih]

@[simp] theorem intBytes_length (e : Endian) (k x : Nat) : (intBytes e k x).length = k := by
  cases e <;> simp [intBytes]

theorem ofLE_leBytes (k x : Nat) : ofLE (leBytes k x) = x % 256 ^ k := by
  induction k generalizing x with
  | zero => simp [leBytes, ofLE, Nat.mod_one]
  | succ k ih =>
    simp only [leBytes, ofLE, ih, UInt8.toNat_ofNat', Nat.reducePow]
    rw [Nat.pow_succ, Nat.mul_comm (256 ^ k) 256, Nat.mod_mul]

theorem ofLE_lt (l : Bytes) : ofLE l < 256 ^ l.length := by
  induction l with
  | nil => simp [ofLE]
  | cons b l ih =>
    simp only [ofLE, List.length_cons, Nat.pow_succ]
    have := b.toNat_lt
    omega

theorem leBytes_ofLE (l : Bytes) : leBytes l.length (ofLE l) = l := by
  induction l with
  | nil => rfl
  | cons b l ih =>
    have hb := b.toNat_lt
    simp only [ofLE, List.length_cons, leBytes]
    have h1 : (b.toNat + 256 * ofLE l) / 256 = ofLE l := by omega
    have h2 : UInt8.ofNat (b.toNat + 256 * ofLE l) = b := by
      apply UInt8.toNat_inj.mp
      rw [UInt8.toNat_ofNat']
      omega
    rw [h1, h2, ih]

theorem ofInt_intBytes (e : Endian) (k x : Nat) : ofInt e (intBytes e k x) = x % 256 ^ k := by
  cases e <;> simp [ofInt, intBytes, ofLE_leBytes]

theorem intBytes_ofInt (e : Endian) (l : Bytes) : intBytes e l.length (ofInt e l) = l := by
  cases e with
  | little => simp [ofInt, intBytes, leBytes_ofLE]
  | big =>
    have := leBytes_ofLE l.reverse
    simp only [List.length_reverse] at this
    simp [ofInt, intBytes, this]

theorem ofInt_lt (e : Endian) (l : Bytes) : ofInt e l < 256 ^ l.length := by
  cases e with
  | little => exact ofLE_lt l
  | big => simpa [ofInt] using ofLE_lt l.reverse

/-! ## Readers of primitives -/

@[simp] theorem deU8_cons (b : UInt8) (r : Bytes) : deU8 (b :: r) = .ok (b, r) := rfl
@[simp] theorem deU8_nil : deU8 [] = .err .eof := rfl

theorem deU8_eq_ok {r r' : Bytes} {b : UInt8} : deU8 r = .ok (b, r') ↔ r = b :: r' := by
  cases r with
  | nil => simp
  | cons c r => simp

theorem deU8_ne_panic (r : Bytes) : deU8 r ≠ .panic := by
  cases r <;> simp

theorem deInt_intBytes (e : Endian) (k x : Nat) (rest : Bytes) :
    deInt e k (intBytes e k x ++ rest) = .ok (x % 256 ^ k, rest) := by
  unfold deInt
  have h1 : ¬ (intBytes e k x ++ rest).length < k := by simp
  rw [if_neg h1]
  have h2 : (intBytes e k x ++ rest).take k = intBytes e k x := by
    rw [List.take_append_of_le_length (by simp), List.take_of_length_le (by simp)]
  have h3 : (intBytes e k x ++ rest).drop k = rest := by
    rw [List.drop_append_of_le_length (by simp), List.drop_of_length_le (by simp)]
    rfl
  rw [h2, h3, ofInt_intBytes]

theorem deInt_eq_ok {e : Endian} {k x : Nat} {r r' : Bytes} :
    deInt e k r = .ok (x, r') ↔ x < 256 ^ k ∧ r = intBytes e k x ++ r' := by
  constructor
  · intro h
    unfold deInt at h
    split at h
    · simp at h
    · rename_i hlt
      simp only [Outcome.ok.injEq, Prod.mk.injEq] at h
      have hk : (r.take k).length = k := by simp; omega
      constructor
      · rw [← h.1]
        have := ofInt_lt e (r.take k)
        rwa [hk] at this
      · rw [← h.1, ← h.2]
        have := intBytes_ofInt e (r.take k)
        rw [hk] at this
        rw [this, List.take_append_drop]
  · rintro ⟨hx, rfl⟩
    rw [deInt_intBytes, Nat.mod_eq_of_lt hx]

theorem deInt_ne_panic (e : Endian) (k : Nat) (r : Bytes) : deInt e k r ≠ .panic := by
  unfold deInt; split <;> simp

theorem deInt_err {e : Endian} {k : Nat} {r : Bytes} (h : r.length < k) :
    deInt e k r = .err .eof := by
  unfold deInt; rw [if_pos h]

theorem deU16_tok (e : Endian) (x : UInt16) (rest : Bytes) :
    deU16 e ((Tok.u16 x).bytes e ++ rest) = .ok (x, rest) := by
  unfold deU16
  simp only [Tok.bytes]
  rw [De.bind_ok (deInt_intBytes e 2 x.toNat rest)]
  have : x.toNat % 256 ^ 2 = x.toNat := Nat.mod_eq_of_lt x.toNat_lt
  simp [this]

theorem deU32_tok (e : Endian) (x : UInt32) (rest : Bytes) :
    deU32 e ((Tok.u32 x).bytes e ++ rest) = .ok (x, rest) := by
  unfold deU32
  simp only [Tok.bytes]
  rw [De.bind_ok (deInt_intBytes e 4 x.toNat rest)]
  have : x.toNat % 256 ^ 4 = x.toNat := Nat.mod_eq_of_lt x.toNat_lt
  simp [this]

theorem deU64_tok (e : Endian) (x : UInt64) (rest : Bytes) :
    deU64 e ((Tok.u64 x).bytes e ++ rest) = .ok (x, rest) := by
  unfold deU64
  simp only [Tok.bytes]
  rw [De.bind_ok (deInt_intBytes e 8 x.toNat rest)]
  have : x.toNat % 256 ^ 8 = x.toNat := Nat.mod_eq_of_lt x.toNat_lt
  simp [this]

theorem deU128_tok (e : Endian) (x : BitVec 128) (rest : Bytes) :
    deU128 e ((Tok.u128 x).bytes e ++ rest) = .ok (x, rest) := by
  unfold deU128
  simp only [Tok.bytes]
  rw [De.bind_ok (deInt_intBytes e 16 x.toNat rest)]
  have : x.toNat % 256 ^ 16 = x.toNat := Nat.mod_eq_of_lt x.isLt
  simp [this]

theorem deU16_eq_ok {e : Endian} {x : UInt16} {r r' : Bytes} :
    deU16 e r = .ok (x, r') ↔ r = (Tok.u16 x).bytes e ++ r' := by
  constructor
  · intro h
    unfold deU16 at h
    rw [De.bind_eq_ok] at h
    obtain ⟨a, r1, h1, h2⟩ := h
    rw [deInt_eq_ok] at h1
    simp only [De.pure_run, Outcome.ok.injEq, Prod.mk.injEq] at h2
    obtain ⟨rfl, rfl⟩ := h2
    simp only [Tok.bytes, UInt16.toNat_ofNat']
    rw [Nat.mod_eq_of_lt h1.1]
    exact h1.2
  · rintro rfl; exact deU16_tok e x r'

theorem deU32_eq_ok {e : Endian} {x : UInt32} {r r' : Bytes} :
    deU32 e r = .ok (x, r') ↔ r = (Tok.u32 x).bytes e ++ r' := by
  constructor
  · intro h
    unfold deU32 at h
    rw [De.bind_eq_ok] at h
    obtain ⟨a, r1, h1, h2⟩ := h
    rw [deInt_eq_ok] at h1
    simp only [De.pure_run, Outcome.ok.injEq, Prod.mk.injEq] at h2
    obtain ⟨rfl, rfl⟩ := h2
    simp only [Tok.bytes, UInt32.toNat_ofNat']
    rw [Nat.mod_eq_of_lt h1.1]
    exact h1.2
  · rintro rfl; exact deU32_tok e x r'

theorem deU64_eq_ok {e : Endian} {x : UInt64} {r r' : Bytes} :
    deU64 e r = .ok (x, r') ↔ r = (Tok.u64 x).bytes e ++ r' := by
  constructor
  · intro h
    unfold deU64 at h
    rw [De.bind_eq_ok] at h
    obtain ⟨a, r1, h1, h2⟩ := h
    rw [deInt_eq_ok] at h1
    simp only [De.pure_run, Outcome.ok.injEq, Prod.mk.injEq] at h2
    obtain ⟨rfl, rfl⟩ := h2
    simp only [Tok.bytes, UInt64.toNat_ofNat']
    rw [Nat.mod_eq_of_lt h1.1]
    exact h1.2
  · rintro rfl; exact deU64_tok e x r'

theorem deU128_eq_ok {e : Endian} {x : BitVec 128} {r r' : Bytes} :
    deU128 e r = .ok (x, r') ↔ r = (Tok.u128 x).bytes e ++ r' := by
  constructor
  · intro h
    unfold deU128 at h
    rw [De.bind_eq_ok] at h
    obtain ⟨a, r1, h1, h2⟩ := h
    rw [deInt_eq_ok] at h1
    simp only [De.pure_run, Outcome.ok.injEq, Prod.mk.injEq] at h2
    obtain ⟨rfl, rfl⟩ := h2
    simp only [Tok.bytes, BitVec.toNat_ofNat]
    rw [Nat.mod_eq_of_lt h1.1]
    exact h1.2
  · rintro rfl; exact deU128_tok e x r'

theorem deU128_ne_panic (e : Endian) (r : Bytes) : deU128 e r ≠ .panic := by
  unfold deU128; intro h
  rw [De.bind_eq_panic] at h
  rcases h with h | ⟨_, _, _, h⟩
  · exact deInt_ne_panic _ _ _ h
  · simp at h

theorem deU16_ne_panic (e : Endian) (r : Bytes) : deU16 e r ≠ .panic := by
  unfold deU16; intro h
  rw [De.bind_eq_panic] at h
  rcases h with h | ⟨_, _, _, h⟩
  · exact deInt_ne_panic _ _ _ h
  · simp at h

theorem deU32_ne_panic (e : Endian) (r : Bytes) : deU32 e r ≠ .panic := by
  unfold deU32; intro h
  rw [De.bind_eq_panic] at h
  rcases h with h | ⟨_, _, _, h⟩
  · exact deInt_ne_panic _ _ _ h
  · simp at h

theorem deU64_ne_panic (e : Endian) (r : Bytes) : deU64 e r ≠ .panic := by
  unfold deU64; intro h
  rw [De.bind_eq_panic] at h
  rcases h with h | ⟨_, _, _, h⟩
  · exact deInt_ne_panic _ _ _ h
  · simp at h

/-! ## Tuple access -/

theorem field_succ {α : Type} (d : De α) (x : Error) (n : Nat) (r : Bytes) :
    field d x (n + 1) r = match d r with
      | .ok (a, r') => .ok ((a, n), r')
      | .err e => .err e
      | .panic => .panic := by
  unfold field nextElement
  simp only [De.bind_run]
  cases d r with
  | ok y => rfl
  | err e => rfl
  | panic => rfl

theorem field_pos {α : Type} (d : De α) (x : Error) {n : Nat} (hn : 0 < n) (r : Bytes) :
    field d x n r = match d r with
      | .ok (a, r') => .ok ((a, n - 1), r')
      | .err e => .err e
      | .panic => .panic := by
  obtain ⟨m, rfl⟩ := Nat.exists_eq_succ_of_ne_zero (Nat.ne_of_gt hn)
  rw [Nat.succ_eq_add_one, field_succ]; rfl

theorem field_ok {α : Type} {d : De α} {x : Error} {n : Nat} {r r' : Bytes} {a : α}
    (hn : 0 < n) (h : d r = .ok (a, r')) : field d x n r = .ok ((a, n - 1), r') := by
  rw [field_pos d x hn, h]

theorem field_eq_ok {α : Type} {d : De α} {x : Error} {n m : Nat} {r r' : Bytes} {a : α}
    (hn : 0 < n) : field d x n r = .ok ((a, m), r') ↔ d r = .ok (a, r') ∧ m = n - 1 := by
  rw [field_pos d x hn]
  cases h : d r with
  | ok y => obtain ⟨b, s⟩ := y; simp; grind
  | err e => simp
  | panic => simp

theorem field_eq_panic {α : Type} {d : De α} {x : Error} {n : Nat} {r : Bytes}
    (hn : 0 < n) : field d x n r = .panic ↔ d r = .panic := by
  rw [field_pos d x hn]
  cases h : d r with
  | ok y => obtain ⟨b, s⟩ := y; simp
  | err e => simp
  | panic => simp

/-- Inversion of `field` followed by more code, with the budget computed. -/
theorem bind_field_eq_ok {α β : Type} {d : De α} {x : Error} {n : Nat} {f : α × Nat → De β}
    {r r'' : Bytes} {b : β} (hn : 0 < n) :
    (field d x n >>= f) r = .ok (b, r'') ↔
      ∃ a r', d r = .ok (a, r') ∧ f (a, n - 1) r' = .ok (b, r'') := by
  rw [De.bind_run, field_pos d x hn]
  cases h : d r with
  | ok y => obtain ⟨a, s⟩ := y; simp [Outcome.ok.injEq, Prod.mk.injEq]; grind
  | err e => simp
  | panic => simp

theorem bind_field_eq_panic {α β : Type} {d : De α} {x : Error} {n : Nat} {f : α × Nat → De β}
    {r : Bytes} (hn : 0 < n) :
    (field d x n >>= f) r = .panic ↔
      d r = .panic ∨ ∃ a r', d r = .ok (a, r') ∧ f (a, n - 1) r' = .panic := by
  rw [De.bind_run, field_pos d x hn]
  cases h : d r with
  | ok y => obtain ⟨a, s⟩ := y; simp [Outcome.ok.injEq, Prod.mk.injEq]; grind
  | err e => simp
  | panic => simp

/-- Reading `k` single bytes within the budget is taking `k` bytes. -/
theorem repeatField_deU8 (x : Error) (k n : Nat) (h : k ≤ n) (r : Bytes) :
    repeatField deU8 x k n r =
      if k ≤ r.length then .ok ((r.take k, n - k), r.drop k) else .err .eof := by
  induction k generalizing n r with
  | zero => simp [repeatField]
  | succ k ih =>
    obtain ⟨m, rfl⟩ := Nat.exists_eq_succ_of_ne_zero (show n ≠ 0 by omega)
    unfold repeatField
    rw [De.bind_run, Nat.succ_eq_add_one, field_succ]
    cases r with
    | nil => simp
    | cons b r =>
      simp only [deU8_cons]
      rw [De.bind_run, ih m (by omega)]
      by_cases hk : k ≤ r.length
      · rw [if_pos hk, if_pos (by simpa using hk)]
        simp
      · rw [if_neg hk, if_neg (by simpa using hk)]

/-- Reading a byte vector of `n` elements is taking `n` bytes. -/
theorem vecLoop_deU8 (n : Nat) (r : Bytes) :
    vecLoop deU8 n r =
      if n ≤ r.length then .ok (r.take n, r.drop n) else .err .eof := by
  induction n generalizing r with
  | zero => simp [vecLoop]
  | succ n ih =>
    unfold vecLoop
    rw [De.bind_run]
    cases r with
    | nil => simp
    | cons b r =>
      simp only [deU8_cons]
      rw [De.bind_run, ih]
      by_cases hk : n ≤ r.length
      · rw [if_pos hk, if_pos (by simpa using hk)]
        simp
      · rw [if_neg hk, if_neg (by simpa using hk)]

/-! ## Tokens -/

@[simp] theorem Tok.bytes_length (e : Endian) (t : Tok) : (t.bytes e).length = t.size := by
  cases t <;> simp [Tok.bytes, Tok.size]

/-- The size pass counts exactly the bytes the writing pass produces. -/
theorem flatMap_bytes_length (e : Endian) (ts : List Tok) :
    (ts.flatMap (Tok.bytes e)).length = (ts.map Tok.size).sum := by
  induction ts with
  | nil => rfl
  | cons t ts ih => simp [ih]

@[simp] theorem flatMap_u8 (e : Endian) (l : Bytes) :
    (l.map Tok.u8).flatMap (Tok.bytes e) = l := by
  induction l with
  | nil => rfl
  | cons b l ih => simp only [List.map_cons, List.flatMap_cons, ih, Tok.bytes]; rfl

/-! ## bincode entry points -/

theorem Bincode.serialize_of_ser {α : Type} [Serialize α] {v : α} {ts : List Tok} (e : Endian)
    (h : Serialize.ser v = .ok ts) :
    Bincode.serialize e v = .ok (ts.flatMap (Tok.bytes e)) := by
  simp [Bincode.serialize, h]

theorem Bincode.serializedSize_of_ser {α : Type} [Serialize α] {v : α} {ts : List Tok}
    (h : Serialize.ser v = .ok ts) :
    Bincode.serializedSize v = .ok ((ts.map Tok.size).sum) := by
  simp [Bincode.serializedSize, h]

end Ipv8
