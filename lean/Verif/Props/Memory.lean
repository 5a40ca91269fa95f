import Verif.Model.Memory
import Verif.Props.Cost
/-!
# Property C92: reading takes memory linear in the length of the packet
-/

namespace Ipv8
open Spec

/-! ## Specification -/

/-- Whatever the bytes are, and whether it succeeds, fails or panics, the reader requests at most `a * n + b` bytes of
memory on `n` bytes. -/
def MemoryAtMost {α : Type} (c : CDe α) (a b : Nat) : Prop := ∀ r, (c r).2 ≤ a * r.length + b

/-- A standard library that never gives a vector more than room for eight elements out of thin air. -/
def Rt.Std (rt : Rt) : Prop := ∀ z, rt.low z ≤ 8

/-- Memory that a successful read needs whatever the length, at most. -/
def Sch.extra : Sch → Nat
  | .rawEnd => 8
  | .option s => s.extra
  | .array n s => n * s.extra
  | .cons a b => a.extra + b.extra
  | .enum _ f => (List.ofFn fun i => (f i).extra).sum
  | _ => 0

/-- Memory per byte read, at most. -/
def Sch.room (rt : Rt) : Sch → Nat
  | .string => 1
  | .varlen16 => 4
  | .varlen32 => 4
  | .varlen64 => 4
  | .nested => 4
  | .rawEnd => 4
  | .option s => s.room rt
  | .vec s => s.room rt + s.extra + 4 * rt.size s
  | .array _ s => s.room rt
  | .cons a b => a.room rt + b.room rt
  | .enum _ f => (List.ofFn fun i => (f i).room rt).sum
  | _ => 0

/-- Memory that a failed read may have requested whatever the length, at most: what serde reserved for elements that
were announced and did not come. -/
def Sch.waste (rt : Rt) : Sch → Nat
  | .varlen64 => rt.spare 1
  | .rawEnd => 8
  | .option s => s.waste rt
  | .vec s => rt.size s * rt.spare (rt.size s) + s.waste rt
  | .array n s => n * s.waste rt
  | .cons a b => a.waste rt + b.waste rt
  | .enum _ f => (List.ofFn fun i => (f i).waste rt).sum
  | _ => 0

/-! ## Same answers -/

theorem same_take {β : Type} {c : CDe β} {d : De β} (n : Nat) (h : SameReader c d) :
    SameReader (CDe.take n >>= fun _ => c) d := fun r => h r

theorem same_mfield {α : Type} {c : CDe α} {d : De α} (h : SameReader c d) (e : Error) :
    ∀ n, SameReader (mfield c e n) (field d e n)
  | 0 => fun _ => rfl
  | n + 1 => by
    intro r
    have h1 : SameReader (mfield c e (n + 1)) (d >>= fun a => pure (a, n)) := same_bind h fun _ => same_pure _
    rw [h1 r]
    show De.bind d _ r = De.bind (De.bind d _) _ r
    unfold De.bind
    cases d r <;> rfl

theorem same_mrepeat (rt : Rt) (e : Error) : ∀ k n cap len,
    SameReader (mloop (rt.low 1) 1 (fun n => CDe.free (field deU8 e n)) k n cap len) (repeatField deU8 e k n)
  | 0, _, _, _ => same_pure _
  | k + 1, _, _, _ =>
    same_bind (same_free _) fun _ => same_take _ (same_bind (same_mrepeat rt e k _ _ _) fun _ => same_pure _)

theorem same_mloop {α : Type} {c : CDe α} {d : De α} (h : SameReader c d) (low size : Nat) : ∀ k cap len,
    SameReader (mloop low size (fun (_ : Unit) => do let a ← c; pure (a, ())) k () cap len)
      (vecLoop d k >>= fun l => pure (l, ()))
  | 0, _, _ => fun _ => rfl
  | k + 1, cap, len => by
    have h1 : SameReader (mloop low size (fun (_ : Unit) => do let a ← c; pure (a, ())) (k + 1) () cap len)
        ((d >>= fun a => pure (a, ())) >>= fun x => (vecLoop d k >>= fun l => pure (l, ())) >>= fun y =>
          pure (x.1 :: y.1, y.2)) :=
      same_bind (same_bind h fun _ => same_pure _) fun _ =>
        same_take _ (same_bind (same_mloop h low size k _ _) fun _ => same_pure _)
    intro r
    rw [h1 r]
    show De.bind (De.bind d _) _ r = De.bind (De.bind d _) _ r
    unfold De.bind
    cases d r with
    | ok x =>
      obtain ⟨a, r'⟩ := x
      show De.bind (De.bind (vecLoop d k) _) _ r' = De.bind (De.bind (vecLoop d k) _) _ r'
      unfold De.bind
      cases vecLoop d k r' <;> rfl
    | err e => rfl
    | panic => rfl

theorem same_mvec {α : Type} {c : CDe α} {d : De α} (h : SameReader c d) (rt : Rt) (size : Nat) (e : Endian) :
    SameReader (mdeVec rt size e c) (deVec e d) := by
  refine same_bind (same_free _) fun n => same_take _ ?_
  have h1 := same_bind (f := fun x => (pure x.1 : CDe (List α))) (g := fun x => pure x.1)
    (same_mloop h (rt.low size) size n.toNat (min n.toNat (rt.spare size)) 0) fun _ => same_pure _
  intro r
  rw [show vecLoop d n.toNat r = ((vecLoop d n.toNat >>= fun l => pure (l, ())) >>= fun x => (pure x.1 : De _)) r from ?_]
  · exact h1 r
  · show _ = De.bind (De.bind _ _) _ r
    unfold De.bind
    cases vecLoop d n.toNat r <;> rfl

theorem same_marr {α : Type} {c : CDe α} {d : De α} (h : SameReader c d) :
    ∀ n, SameReader (marrLoop c n) (vecLoop d n)
  | 0 => same_pure _
  | n + 1 => same_bind h fun _ => same_bind (same_marr h n) fun _ => same_pure _

theorem same_mraw (rt : Rt) : ∀ n cap len r, (mrawLoop rt n cap len r).1 = rawLoop n r
  | 0, _, _, _ => rfl
  | n + 1, cap, len, r => by
    simp only [mrawLoop, rawLoop]
    cases deU8 r with
    | ok x => simp only [same_mraw rt n]
    | err e => rfl
    | panic => rfl

theorem msame_varlen16 (rt : Rt) (e : Endian) :
    SameReader (MDeserialize.mde rt e : CDe VarLen16) (Deserialize.de e) :=
  same_bind (same_free _) fun _ => same_bind (same_mrepeat rt _ _ _ _ _) fun _ => same_pure _

theorem msame_varlen32 (rt : Rt) (e : Endian) :
    SameReader (MDeserialize.mde rt e : CDe VarLen32) (Deserialize.de e) :=
  same_bind (same_free _) fun _ => same_bind (same_mrepeat rt _ _ _ _ _) fun _ => same_pure _

theorem msame_varlen64 (rt : Rt) (e : Endian) :
    SameReader (MDeserialize.mde rt e : CDe VarLen64) (Deserialize.de e) :=
  same_bind (same_mvec (same_free _) rt _ _) fun _ => same_pure _

theorem msame_rawEnd (rt : Rt) (e : Endian) :
    SameReader (MDeserialize.mde rt e : CDe RawEnd) (Deserialize.de e) := by
  intro r
  simp only [MDeserialize.mde, Deserialize.de, same_mraw]

theorem msame_nested (rt : Rt) (e : Endian) :
    SameReader (MDeserialize.mde rt e : CDe NestedPacket) (Deserialize.de e) :=
  same_bind (msame_varlen16 rt e) fun _ => same_pure _

theorem msame_header (rt : Rt) (e : Endian) :
    SameReader (MDeserialize.mde rt e : CDe Header) (Deserialize.de e) := by
  refine same_bind (same_free _) fun v0 => same_take _ (same_bind (same_free _) fun v1 => same_take _ ?_)
  simp only
  split
  · exact same_bind (same_free _) fun _ => same_bind (same_free _) fun _ => same_take _ (same_pure _)
  · exact same_free _

theorem msame_introRequest (rt : Rt) (e : Endian) :
    SameReader (MDeserialize.mde rt e : CDe IntroductionRequestPayload) (Deserialize.de e) :=
  same_bind (same_free _) fun _ => same_bind (same_free _) fun _ => same_bind (same_free _) fun _ =>
    same_bind (same_free _) fun _ => same_bind (same_free _) fun _ =>
      same_bind (same_mfield (msame_rawEnd rt e) _ _) fun _ => same_pure _

theorem msame_introResponse (rt : Rt) (e : Endian) :
    SameReader (MDeserialize.mde rt e : CDe IntroductionResponsePayload) (Deserialize.de e) :=
  same_bind (same_free _) fun _ => same_bind (same_free _) fun _ => same_bind (same_free _) fun _ =>
    same_bind (same_free _) fun _ => same_bind (same_free _) fun _ => same_bind (same_free _) fun _ =>
      same_bind (same_free _) fun _ => same_bind (same_mfield (msame_rawEnd rt e) _ _) fun _ => same_pure _

theorem msame_auth (rt : Rt) (e : Endian) :
    SameReader (MDeserialize.mde rt e : CDe BinMemberAuthenticationPayload) (Deserialize.de e) :=
  same_bind (msame_varlen16 rt e) fun _ => same_free _

theorem same_mbuffer (e : Endian) : SameReader (mbuffer e) (deVec e deU8) := by
  intro r
  unfold mbuffer
  cases deVec e deU8 r <;> rfl

theorem msame_sch (rt : Rt) (e : Endian) (s : Sch) : SameReader (s.mde rt e) (s.de e) := by
  induction s with
  | string =>
    refine same_bind (same_mbuffer e) fun bs => ?_
    split
    · exact same_pure _
    · exact same_free _
  | varlen16 => exact msame_varlen16 rt e
  | varlen32 => exact msame_varlen32 rt e
  | varlen64 => exact msame_varlen64 rt e
  | nested => exact msame_nested rt e
  | rawEnd => exact msame_rawEnd rt e
  | option s ih =>
    refine same_bind (same_free _) fun b => ?_
    split
    · exact same_pure _
    · split
      · exact same_bind ih fun _ => same_pure _
      · exact same_free _
  | vec s ih => exact same_mvec ih rt _ e
  | array n s ih =>
    refine same_bind (same_marr ih _) fun xs => ?_
    split
    · exact same_pure _
    · exact same_free _
  | unit => exact same_pure _
  | cons a b iha ihb => exact same_bind iha fun _ => same_bind ihb fun _ => same_pure _
  | enum n f ih =>
    refine same_bind (same_free _) fun i => ?_
    split
    · exact same_bind (ih _) fun _ => same_pure _
    · exact same_free _
  | _ => exact same_free _

/-! ## How much memory -/

/-- On success the reader has consumed at least `m` bytes and requested at most `C` bytes of memory per byte consumed
and `D` more; otherwise at most `C` per byte there is and `F` more. -/
def Mem {α : Type} (C D F m : Nat) (c : CDe α) : Prop := ∀ r,
  match c r with
  | (.ok (_, r'), n) => ∃ u, r = u ++ r' ∧ m ≤ u.length ∧ n ≤ C * u.length + D
  | (_, n) => n ≤ C * r.length + F

theorem Mem.atMost {α : Type} {C D F m : Nat} {c : CDe α} (h : Mem C D F m c) (hD : D ≤ F) : MemoryAtMost c C F := by
  intro r
  have := h r
  cases hc : c r with
  | mk o n =>
    rw [hc] at this
    cases o with
    | ok x =>
      obtain ⟨u, rfl, _, h2⟩ := this
      simp only at h2 ⊢
      rw [List.length_append, Nat.mul_add]
      omega
    | err e => exact this
    | panic => exact this

theorem Mem.mono {α : Type} {C D F m C' D' F' m' : Nat} {c : CDe α} (h : Mem C D F m c) (hC : C ≤ C') (hD : D ≤ D')
    (hF : F ≤ F') (hm : m' ≤ m) : Mem C' D' F' m' c := by
  intro r
  have h0 := h r
  cases hc : c r with
  | mk o n =>
    rw [hc] at h0
    cases o with
    | ok x =>
      obtain ⟨u, h1, h2, h3⟩ := h0
      have := Nat.mul_le_mul_right u.length hC
      exact ⟨u, h1, by omega, by omega⟩
    | err e => have := Nat.mul_le_mul_right r.length hC; simp only at h0 ⊢; omega
    | panic => have := Nat.mul_le_mul_right r.length hC; simp only at h0 ⊢; omega

theorem Mem.pure {α : Type} (C D F : Nat) (a : α) : Mem C D F 0 (Pure.pure a : CDe α) :=
  fun r => ⟨[], rfl, by simp, by show (0 : Nat) ≤ _; omega⟩

theorem Mem.fail {α : Type} (C D F m : Nat) (e : Error) : Mem C D F m (CDe.free (De.fail e) : CDe α) := by
  intro r
  show (0 : Nat) ≤ _
  omega

theorem Mem.take (C D F n : Nat) (h : n ≤ D) : Mem C D F 0 (CDe.take n) :=
  fun r => ⟨[], rfl, by simp, by show n ≤ _; simpa using h⟩

theorem Mem.bind {α β : Type} {C D1 F1 m1 D2 F2 m2 D F m : Nat} {c : CDe α} {f : α → CDe β} (h : Mem C D1 F1 m1 c)
    (hf : ∀ a, Mem C D2 F2 m2 (f a)) (hD : D1 + D2 ≤ D) (hF1 : F1 ≤ F) (hF2 : D1 + F2 ≤ F) (hm : m ≤ m1 + m2) :
    Mem C D F m (c >>= f) := by
  intro r
  show match CDe.bind c f r with
    | (.ok (_, r'), n) => ∃ u, r = u ++ r' ∧ m ≤ u.length ∧ n ≤ C * u.length + D
    | (_, n) => n ≤ C * r.length + F
  have h0 := h r
  unfold CDe.bind
  cases hc : c r with
  | mk o n =>
    rw [hc] at h0
    cases o with
    | err e => simp only at h0 ⊢; omega
    | panic => simp only at h0 ⊢; omega
    | ok x =>
      obtain ⟨a, r'⟩ := x
      obtain ⟨u, rfl, h2, h3⟩ := h0
      have h4 := hf a r'
      simp only
      cases hfa : f a r' with
      | mk o' n' =>
        rw [hfa] at h4
        cases o' with
        | ok y =>
          obtain ⟨v, rfl, h5, h6⟩ := h4
          refine ⟨u ++ v, by simp, ?_, ?_⟩
          · simp only [List.length_append]; omega
          · simp only [List.length_append, Nat.mul_add]; omega
        | err e => simp only [List.length_append, Nat.mul_add] at h4 ⊢; omega
        | panic => simp only [List.length_append, Nat.mul_add] at h4 ⊢; omega

theorem Mem.then {α β : Type} {C D F m : Nat} {c : CDe α} (h : Mem C D F m c) (f : α → β) :
    Mem C D F m (c >>= fun a => Pure.pure (f a)) := by
  intro r
  have h0 := h r
  show match CDe.bind c (fun a => CDe.pure (f a)) r with
    | (.ok (_, r'), n) => ∃ u, r = u ++ r' ∧ m ≤ u.length ∧ n ≤ C * u.length + D
    | (_, n) => n ≤ C * r.length + F
  unfold CDe.bind
  cases hc : c r with
  | mk o n =>
    rw [hc] at h0
    cases o <;> exact h0

/-- Something that requests no memory. -/
theorem Mem.free {α : Type} {A B m : Nat} {c : CDe α} {d : De α} (h : Lin A B m c) (hs : SameReader c d) (C : Nat) :
    Mem C 0 0 m (CDe.free d) := by
  intro r
  have h0 := h r
  have h1 := hs r
  show match (d r, 0) with
    | (.ok (_, r'), n) => ∃ u, r = u ++ r' ∧ m ≤ u.length ∧ n ≤ C * u.length + 0
    | (_, n) => n ≤ C * r.length + 0
  cases hc : c r with
  | mk o n =>
    rw [hc] at h0 h1
    simp only at h1
    rw [← h1]
    cases o with
    | ok x =>
      obtain ⟨u, h2, h3, _⟩ := h0
      exact ⟨u, h2, h3, Nat.zero_le _⟩
    | err e => exact Nat.zero_le _
    | panic => exact Nat.zero_le _

/-- The bytes before pay for what does not depend on the length. -/
theorem Mem.absorb {α β : Type} {C D F m1 m2 D' F' m : Nat} {c : CDe α} {f : α → CDe β} (h : Mem C 0 0 m1 c)
    (h0 : ∀ r, (c r).2 = 0) (hf : ∀ a, Mem C D F m2 (f a)) (hD : D ≤ C * m1 + D') (hF : F ≤ C * m1 + F')
    (hm : m ≤ m1 + m2) : Mem C D' F' m (c >>= f) := by
  intro r
  show match CDe.bind c f r with
    | (.ok (_, r'), n) => ∃ u, r = u ++ r' ∧ m ≤ u.length ∧ n ≤ C * u.length + D'
    | (_, n) => n ≤ C * r.length + F'
  have h1 := h r
  have h2 := h0 r
  unfold CDe.bind
  cases hc : c r with
  | mk o n =>
    rw [hc] at h1 h2
    simp only at h2
    subst h2
    cases o with
    | err e => exact Nat.zero_le _
    | panic => exact Nat.zero_le _
    | ok x =>
      obtain ⟨a, r'⟩ := x
      obtain ⟨u, rfl, h3, h4⟩ := h1
      have h5 := hf a r'
      have h6 : C * m1 ≤ C * u.length := Nat.mul_le_mul_left _ h3
      simp only
      cases hfa : f a r' with
      | mk o' n' =>
        rw [hfa] at h5
        cases o' with
        | ok y =>
          obtain ⟨v, rfl, h7, h8⟩ := h5
          refine ⟨u ++ v, by simp, ?_, ?_⟩
          · simp only [List.length_append]; omega
          · simp only [List.length_append, Nat.mul_add]; omega
        | err e => simp only [List.length_append, Nat.mul_add] at h5 ⊢; omega
        | panic => simp only [List.length_append, Nat.mul_add] at h5 ⊢; omega

/-- What `k` pushes on a vector with this capacity and length request, in elements. -/
def grown (low : Nat) : (cap len k : Nat) → Nat
  | _, _, 0 => 0
  | cap, len, k + 1 => pushMem low 1 cap len + grown low (pushCap low cap len) (len + 1) k

theorem pushMem_size (low size cap len : Nat) : pushMem low size cap len = size * pushMem low 1 cap len := by
  unfold pushMem
  split <;> simp

/-- Doubling: all the buffers together are at most four times what was pushed. -/
theorem grown_le (low : Nat) : ∀ k cap len, len ≤ cap →
    grown low cap len k = 0 ∨ grown low cap len k + 2 * cap ≤ 4 * (len + k) + low
  | 0, _, _, _ => .inl rfl
  | k + 1, cap, len, h => by
    by_cases hl : len < cap
    · have h1 : pushCap low cap len = cap := by simp [pushCap, hl]
      have h2 : pushMem low 1 cap len = 0 := by simp [pushMem, hl]
      have ih := grown_le low k cap (len + 1) (by omega)
      simp only [grown, h1, h2]
      omega
    · have h1 : pushCap low cap len = max (max (2 * cap) (len + 1)) low := by simp [pushCap, hl]
      have h2 : pushMem low 1 cap len = max (max (2 * cap) (len + 1)) low := by simp [pushMem, hl, h1]
      have hc : len + 1 ≤ max (max (2 * cap) (len + 1)) low := by omega
      have ih := grown_le low k _ (len + 1) hc
      simp only [grown, h1, h2]
      omega

/-- A loop that pushes: the elements' own memory, and that of the vector. -/
theorem loop_mem {α σ : Type} {C D F m low size : Nat} {d : σ → CDe (α × σ)} (h : ∀ s, Mem C D F m (d s)) :
    ∀ k s cap len r, match mloop low size d k s cap len r with
      | (.ok (_, r'), x) => ∃ u, r = u ++ r' ∧ k * m ≤ u.length ∧
          x ≤ C * u.length + k * D + size * grown low cap len k
      | (_, x) => ∃ j, j < k ∧ j * m ≤ r.length ∧
          x ≤ C * r.length + j * D + size * grown low cap len j + F
  | 0, s, cap, len, r => ⟨[], rfl, by simp, by show (0 : Nat) ≤ _; omega⟩
  | k + 1, s, cap, len, r => by
    have h0 := h s r
    have hs : mloop low size d (k + 1) s cap len r = CDe.bind (d s) (fun x => CDe.bind (CDe.take (pushMem low size cap len))
        fun _ => CDe.bind (mloop low size d k x.2 (pushCap low cap len) (len + 1)) fun y =>
          CDe.pure (x.1 :: y.1, y.2)) r := rfl
    rw [hs]
    simp only [CDe.bind, CDe.take, CDe.pure]
    cases hd : d s r with
    | mk o x =>
      rw [hd] at h0
      cases o with
      | err e => exact ⟨0, by omega, by omega, by simp only [grown] at *; omega⟩
      | panic => exact ⟨0, by omega, by omega, by simp only [grown] at *; omega⟩
      | ok y =>
        obtain ⟨⟨a, s'⟩, r'⟩ := y
        obtain ⟨u, rfl, h1, h2⟩ := h0
        have ih := loop_mem (low := low) (size := size) h k s' (pushCap low cap len) (len + 1) r'
        simp only
        have hp := pushMem_size low size cap len
        cases hl : mloop low size d k s' (pushCap low cap len) (len + 1) r' with
        | mk o' x' =>
          rw [hl] at ih
          cases o' with
          | ok z =>
            obtain ⟨v, rfl, h3, h4⟩ := ih
            refine ⟨u ++ v, by simp, ?_, ?_⟩
            · simp only [List.length_append, Nat.succ_mul]; omega
            · simp only [List.length_append, Nat.mul_add, Nat.succ_mul, grown]; omega
          | err e =>
            obtain ⟨j, hj, h3, h4⟩ := ih
            refine ⟨j + 1, by omega, ?_, ?_⟩
            · simp only [List.length_append, Nat.succ_mul]; omega
            · simp only [List.length_append, Nat.mul_add, Nat.succ_mul, grown]; omega
          | panic =>
            obtain ⟨j, hj, h3, h4⟩ := ih
            refine ⟨j + 1, by omega, ?_, ?_⟩
            · simp only [List.length_append, Nat.succ_mul]; omega
            · simp only [List.length_append, Nat.mul_add, Nat.succ_mul, grown]; omega

theorem mem_u8field (C : Nat) (e : Error) (n : Nat) : Mem C 0 0 1 (CDe.free (field deU8 e n)) :=
  Mem.free (lin_u8.field e n) (same_field (same_prim _) e n) C

theorem mem_bytes {rt : Rt} (hr : rt.Std) (e : Error) (k n : Nat) : Mem 4 8 8 0 (mbytes rt e k n) := by
  intro r
  have h := loop_mem (low := rt.low 1) (size := 1) (fun s => mem_u8field 0 e s) k n 0 0 r
  have hl := hr 1
  unfold mbytes
  cases hm : mloop (rt.low 1) 1 (fun n => CDe.free (field deU8 e n)) k n 0 0 r with
  | mk o x =>
    rw [hm] at h
    cases o with
    | ok y =>
      obtain ⟨u, h1, h2, h3⟩ := h
      have h4 := grown_le (rt.low 1) k 0 0 (Nat.le_refl _)
      exact ⟨u, h1, Nat.zero_le _, by omega⟩
    | err y =>
      obtain ⟨j, hj, h2, h3⟩ := h
      have h4 := grown_le (rt.low 1) j 0 0 (Nat.le_refl _)
      simp only; omega
    | panic =>
      obtain ⟨j, hj, h2, h3⟩ := h
      have h4 := grown_le (rt.low 1) j 0 0 (Nat.le_refl _)
      simp only; omega

theorem mem_varlen16 {rt : Rt} (hr : rt.Std) (e : Endian) : Mem 4 0 0 2 (MDeserialize.mde rt e : CDe VarLen16) :=
  Mem.absorb (Mem.free ((lin_u16 e).field _ _) (same_field (same_prim _) _ _) 4) (fun _ => rfl)
    (fun _ => Mem.then (mem_bytes hr _ _ _) _) (by omega) (by omega) (by omega)

theorem mem_varlen32 {rt : Rt} (hr : rt.Std) (e : Endian) : Mem 4 0 0 4 (MDeserialize.mde rt e : CDe VarLen32) :=
  Mem.absorb (Mem.free ((lin_u32 e).field _ _) (same_field (same_prim _) _ _) 4) (fun _ => rfl)
    (fun _ => Mem.then (mem_bytes hr _ _ _) _) (by omega) (by omega) (by omega)

theorem mem_vec {α : Type} {rt : Rt} (hr : rt.Std) {C D F m size : Nat} {c : CDe α} (hm : 1 ≤ m) (h : Mem C D F m c)
    (e : Endian) : Mem (C + D + 4 * size) 0 (size * rt.spare size + F) 8 (mdeVec rt size e c) := by
  refine Mem.absorb (D := 8 * size) (F := 8 * size + size * rt.spare size + F) (m2 := 0)
    (Mem.free (lin_u64 e) (same_prim _) _) (fun _ => rfl) ?_ (by omega) (by omega) (by omega)
  intro n
  generalize n.toNat = k
  have hd : ∀ s : Unit, Mem C D F m (c >>= fun a => Pure.pure (a, s)) := fun s => Mem.then h _
  intro r
  have h1 := loop_mem (low := rt.low size) (size := size) (fun _ : Unit => Mem.then h fun a => (a, ())) k () (min k (rt.spare size)) 0 r
  generalize (fun _ : Unit => c >>= fun a => Pure.pure (a, ())) = dd at h1 ⊢
  simp only [bind, Pure.pure]
  unfold CDe.bind CDe.take CDe.pure
  simp only
  have hl := hr size
  have hg : ∀ j, min k (rt.spare size) + grown (rt.low size) (min k (rt.spare size)) 0 j ≤
      max (min k (rt.spare size)) (4 * j + 8) := by
    intro j
    have := grown_le (rt.low size) j (min k (rt.spare size)) 0 (Nat.zero_le _)
    omega
  have key : ∀ j l, j * m ≤ l → j ≤ l ∧ j * D ≤ D * l ∧ size * (4 * j + 8) ≤ 4 * size * l + 8 * size := by
    intro j l hj
    have h2 : j ≤ l := Nat.le_trans (Nat.le_mul_of_pos_right j hm) hj
    have h3 : size * (4 * j) ≤ size * (4 * l) := Nat.mul_le_mul_left _ (by omega)
    refine ⟨h2, by rw [Nat.mul_comm]; exact Nat.mul_le_mul_left _ h2, ?_⟩
    rw [Nat.mul_add, Nat.mul_comm 4 size, Nat.mul_assoc]
    omega
  cases hq : mloop (rt.low size) size dd k ()
      (min k (rt.spare size)) 0 r with
  | mk o x =>
    rw [hq] at h1
    have fail : (∃ j, j < k ∧ j * m ≤ r.length ∧
        x ≤ C * r.length + j * D + size * grown (rt.low size) (min k (rt.spare size)) 0 j + F) →
        size * min k (rt.spare size) + x ≤ (C + D + 4 * size) * r.length + (8 * size + size * rt.spare size + F) := by
      rintro ⟨j, hj, h2, h3⟩
      obtain ⟨h4, h5, h6⟩ := key j _ h2
      have h7 : min k (rt.spare size) + grown (rt.low size) (min k (rt.spare size)) 0 j ≤ (4 * j + 8) + rt.spare size := by
        have := hg j
        omega
      have h8 := Nat.mul_le_mul_left size h7
      simp only [Nat.mul_add] at h8 h6
      rw [Nat.add_mul, Nat.add_mul]
      omega
    cases o with
    | ok y =>
      obtain ⟨u, h2, h3, h4⟩ := h1
      refine ⟨u, h2, Nat.zero_le _, ?_⟩
      obtain ⟨h5, h6, h7⟩ := key k _ h3
      have h8 : min k (rt.spare size) + grown (rt.low size) (min k (rt.spare size)) 0 k ≤ 4 * k + 8 := by
        have := hg k
        omega
      have h9 := Nat.mul_le_mul_left size h8
      simp only [Nat.mul_add] at h9 h7
      rw [Nat.add_mul, Nat.add_mul]
      simp only
      omega
    | err y => simpa only using fail h1
    | panic => simpa only using fail h1

theorem mem_varlen64 {rt : Rt} (hr : rt.Std) (e : Endian) :
    Mem 4 0 (rt.spare 1) 8 (MDeserialize.mde rt e : CDe VarLen64) := by
  have h := mem_vec (size := 1) hr (Nat.le_refl 1) (Mem.free lin_u8 (same_prim _) 0) e
  exact Mem.then (h.mono (by omega) (by omega) (by omega) (Nat.le_refl _)) _

theorem mem_raw (rt : Rt) : ∀ n cap len r, ∃ u, r = u ++ (mrawLoop rt n cap len r).1.2 ∧
    (mrawLoop rt n cap len r).2 = grown (rt.low 1) cap len u.length
  | 0, _, _, r => ⟨[], rfl, rfl⟩
  | n + 1, _, _, [] => ⟨[], rfl, rfl⟩
  | n + 1, cap, len, b :: r => by
    obtain ⟨u, h1, h2⟩ := mem_raw rt n (pushCap (rt.low 1) cap len) (len + 1) r
    refine ⟨b :: u, ?_, ?_⟩
    · simpa [mrawLoop, deU8] using h1
    · simp only [mrawLoop, deU8, List.length_cons, grown, h2]

theorem mem_rawEnd {rt : Rt} (hr : rt.Std) (e : Endian) : Mem 4 8 8 0 (MDeserialize.mde rt e : CDe RawEnd) := by
  intro r
  obtain ⟨u, h1, h2⟩ := mem_raw rt usizeMax 0 0 r
  refine ⟨u, h1, Nat.zero_le _, ?_⟩
  have h3 := grown_le (rt.low 1) u.length 0 0 (Nat.le_refl _)
  have h4 := hr 1
  show (mrawLoop rt usizeMax 0 0 r).2 ≤ _
  omega

theorem mem_nested {rt : Rt} (hr : rt.Std) (e : Endian) :
    Mem 4 0 0 2 (MDeserialize.mde rt e : CDe NestedPacket) := Mem.then (mem_varlen16 hr e) _

theorem Mem.lift {α : Type} (C : Nat) (o : Outcome α) : Mem C 0 0 0 (CDe.free (De.lift o)) := by
  intro r
  cases o with
  | ok a => exact ⟨[], rfl, by simp, Nat.zero_le _⟩
  | err e => exact Nat.zero_le _
  | panic => exact Nat.zero_le _

theorem mem_auth {rt : Rt} (hr : rt.Std) (e : Endian) :
    Mem 4 0 0 2 (MDeserialize.mde rt e : CDe BinMemberAuthenticationPayload) :=
  Mem.bind (mem_varlen16 hr e) (fun _ => Mem.lift 4 _) (by omega) (by omega) (by omega) (by omega)

theorem Mem.field {α : Type} {C D F m : Nat} {c : CDe α} (h : Mem C D F m c) (e : Error) :
    ∀ n, Mem C D F m (mfield c e n)
  | 0 => Mem.fail _ _ _ _ _
  | _ + 1 => Mem.then h _

theorem Mem.skip {α β : Type} {C D F m1 m2 : Nat} {c : CDe α} {f : α → CDe β} (h : Mem C 0 0 m1 c)
    (hf : ∀ a, Mem C D F m2 (f a)) : Mem C D F (m1 + m2) (c >>= f) :=
  Mem.bind h hf (by omega) (by omega) (by omega) (by omega)

theorem mem_introRequest {rt : Rt} (hr : rt.Std) (e : Endian) :
    Mem 4 8 8 21 (MDeserialize.mde rt e : CDe IntroductionRequestPayload) := by
  have fa := fun err n => Mem.free ((lin_address e).field err n) (same_field (same_address e) err n) 4
  have fb := fun err n => Mem.free ((lin_bits e).field err n) (same_field (same_bits e) err n) 4
  have fu := fun err n => Mem.free ((lin_u16 e).field err n) (same_field (same_prim _) err n) 4
  exact Mem.skip (fa _ _) fun _ => Mem.skip (fa _ _) fun _ => Mem.skip (fa _ _) fun _ => Mem.skip (fb _ _) fun _ =>
    Mem.skip (fu _ _) fun _ => Mem.then ((mem_rawEnd hr e).field _ _) _

theorem mem_introResponse {rt : Rt} (hr : rt.Std) (e : Endian) :
    Mem 4 8 8 33 (MDeserialize.mde rt e : CDe IntroductionResponsePayload) := by
  have fa := fun err n => Mem.free ((lin_address e).field err n) (same_field (same_address e) err n) 4
  have fb := fun err n => Mem.free ((lin_bits e).field err n) (same_field (same_bits e) err n) 4
  have fu := fun err n => Mem.free ((lin_u16 e).field err n) (same_field (same_prim _) err n) 4
  exact Mem.skip (fa _ _) fun _ => Mem.skip (fa _ _) fun _ => Mem.skip (fa _ _) fun _ => Mem.skip (fa _ _) fun _ =>
    Mem.skip (fa _ _) fun _ => Mem.skip (fb _ _) fun _ => Mem.skip (fu _ _) fun _ =>
      Mem.then ((mem_rawEnd hr e).field _ _) _

theorem mem_header {rt : Rt} (hr : rt.Std) (e : Endian) :
    Mem 0 28 28 0 (MDeserialize.mde rt e : CDe Header) := by
  have hl := hr 1
  have hA : pushMem (rt.low 1) 1 0 0 + pushMem (rt.low 1) 1 (pushCap (rt.low 1) 0 0) 1 ≤ 8 := by
    unfold pushMem pushCap
    simp only [Nat.lt_irrefl, if_false]
    split <;> omega
  generalize hAe : pushMem (rt.low 1) 1 0 0 = A at hA
  generalize hBe : pushMem (rt.low 1) 1 (pushCap (rt.low 1) 0 0) 1 = B at hA
  simp only [MDeserialize.mde, hAe, hBe]
  refine Mem.bind (D1 := 0) (F1 := 0) (D2 := 28) (F2 := 28) (m1 := 1) (m2 := 0) (mem_u8field 0 _ _) ?_
    (by omega) (by omega) (by omega) (by omega)
  rintro ⟨v0, n0⟩
  refine Mem.bind (D1 := A) (F1 := 0) (D2 := 28 - A) (F2 := 28 - A) (m1 := 0) (m2 := 0)
    (Mem.take _ _ _ _ (Nat.le_refl _)) ?_ (by omega) (by omega) (by omega) (by omega)
  intro _
  refine Mem.bind (D1 := 0) (F1 := 0) (D2 := 28 - A) (F2 := 28 - A) (m1 := 1) (m2 := 0) (mem_u8field 0 _ _) ?_
    (by omega) (by omega) (by omega) (by omega)
  rintro ⟨v1, n1⟩
  refine Mem.bind (D1 := B) (F1 := 0) (D2 := 20) (F2 := 0) (m1 := 0) (m2 := 0)
    (Mem.take _ _ _ _ (Nat.le_refl _)) ?_ (by omega) (by omega) (by omega) (by omega)
  intro _
  simp only
  split
  · refine Mem.bind (D1 := 0) (F1 := 0) (D2 := 20) (F2 := 0) (m1 := 0) (m2 := 0)
      (Mem.free (Lin.repeat (Nat.le_refl 1) lin_u8 _ _ _) (same_repeat (same_prim _) _ _ _) 0) ?_
      (by omega) (by omega) (by omega) (by omega)
    intro x
    refine Mem.bind (D1 := 0) (F1 := 0) (D2 := 20) (F2 := 0) (m1 := 1) (m2 := 0) (mem_u8field 0 _ _) ?_
      (by omega) (by omega) (by omega) (by omega)
    intro y
    intro r
    exact ⟨[], rfl, Nat.zero_le _, by show 20 + 0 ≤ _; omega⟩
  · exact Mem.fail _ _ _ _ _

theorem Mem.arr {α : Type} {C D F m : Nat} {c : CDe α} (h : Mem C D F m c) (hD : D ≤ F) :
    ∀ n, Mem C (n * D) (n * F) (n * m) (marrLoop c n)
  | 0 => (Mem.pure C 0 0 []).mono (Nat.le_refl _) (by omega) (by omega) (by omega)
  | n + 1 => Mem.bind h (fun a => Mem.then (Mem.arr h hD n) _) (by rw [Nat.succ_mul]; omega)
      (by rw [Nat.succ_mul]; omega) (by rw [Nat.succ_mul]; omega) (by rw [Nat.succ_mul]; omega)

theorem Sch.extra_le (rt : Rt) (s : Sch) : s.extra ≤ s.waste rt := by
  induction s with
  | option s ih => exact ih
  | array n s ih => exact Nat.mul_le_mul_left _ ih
  | cons a b iha ihb => simp only [Sch.extra, Sch.waste]; omega
  | enum n f ih =>
    simp only [Sch.extra, Sch.waste]
    have : ∀ l : List (Fin n), (l.map fun i => (f i).extra).sum ≤ (l.map fun i => (f i).waste rt).sum := by
      intro l
      induction l with
      | nil => exact Nat.le_refl _
      | cons i l ihl =>
        have := ih i
        simp only [List.map_cons, List.sum_cons]
        omega
    simpa only [List.map_ofFn, Function.comp_def, id] using this (List.ofFn id)
  | rawEnd => exact Nat.le_refl _
  | _ => exact Nat.zero_le _

theorem bytesLoop_eats : ∀ (n : Nat) (r r' : Bytes) (bs : Bytes), vecLoop deU8 n r = .ok (bs, r') →
    ∃ u, r = u ++ r' ∧ bs.length ≤ u.length
  | 0, r, r', bs, h => by cases h; exact ⟨[], rfl, Nat.le_refl _⟩
  | n + 1, r, r', bs, h => by
    cases r with
    | nil => cases h
    | cons b r =>
      change De.bind (vecLoop deU8 n) (fun as => De.pure (b :: as)) r = _ at h
      unfold De.bind at h
      split at h
      · rename_i as r1 h1
        cases h
        obtain ⟨u, h2, h3⟩ := bytesLoop_eats n r _ as h1
        exact ⟨b :: u, by rw [h2]; rfl, by simpa using h3⟩
      · cases h
      · cases h

theorem mem_buffer (e : Endian) : Mem 1 0 0 8 (mbuffer e) := by
  intro r
  unfold mbuffer
  cases hd : deVec e deU8 r with
  | err x => exact Nat.zero_le _
  | panic => exact Nat.zero_le _
  | ok x =>
    obtain ⟨bs, r'⟩ := x
    have hq : ∃ u, r = u ++ r' ∧ 8 + bs.length ≤ u.length := by
      change De.bind (deU64 e) (fun n => vecLoop deU8 n.toNat) r = _ at hd
      unfold De.bind at hd
      split at hd
      · rename_i n r1 h1
        obtain ⟨u, rfl, h2⟩ := intBind_eats h1
        obtain ⟨v, rfl, h3⟩ := bytesLoop_eats _ _ _ _ hd
        exact ⟨u ++ v, by simp, by simp only [List.length_append]; omega⟩
      · cases hd
      · cases hd
    obtain ⟨u, rfl, hu⟩ := hq
    exact ⟨u, rfl, by omega, by omega⟩

theorem mem_string (rt : Rt) (e : Endian) : Mem 1 0 0 8 (Sch.string.mde rt e) := by
  refine Mem.bind (D2 := 0) (F2 := 0) (m2 := 0) (mem_buffer e) (fun bs => ?_) (Nat.le_refl _) (Nat.le_refl _)
    (Nat.le_refl _) (Nat.le_refl _)
  split
  · exact Mem.pure _ _ _ _
  · exact Mem.fail _ _ _ _ _

theorem mem_sch {rt : Rt} (hr : rt.Std) (e : Endian) (s : Sch) :
    s.NoEmptyElements → Mem (s.room rt) s.extra (s.waste rt) s.minSize (s.mde rt e) := by
  induction s with
  | u8 => intro _; exact Mem.free lin_u8 (same_prim _) _
  | u16 => intro _; exact Mem.free (lin_u16 e) (same_prim _) _
  | u32 => intro _; exact Mem.free (lin_u32 e) (same_prim _) _
  | u64 => intro _; exact Mem.free (lin_u64 e) (same_prim _) _
  | u128 => intro _; exact Mem.free (lin_u128 e) (same_prim _) _
  | i8 => intro h; exact Mem.free (lin_sch e .i8 h) (same_sch e .i8) _
  | i16 => intro h; exact Mem.free (lin_sch e .i16 h) (same_sch e .i16) _
  | i32 => intro h; exact Mem.free (lin_sch e .i32 h) (same_sch e .i32) _
  | i64 => intro h; exact Mem.free (lin_sch e .i64 h) (same_sch e .i64) _
  | bool => intro h; exact Mem.free (lin_sch e .bool h) (same_sch e .bool) _
  | char => intro h; exact Mem.free (lin_sch e .char h) (same_sch e .char) _
  | string => intro _; exact mem_string rt e
  | bits => intro _; exact Mem.free (lin_bits e) (same_bits e) _
  | address => intro _; exact Mem.free (lin_address e) (same_address e) _
  | varlen16 => intro _; exact mem_varlen16 hr e
  | varlen32 => intro _; exact mem_varlen32 hr e
  | varlen64 => intro _; exact mem_varlen64 hr e
  | nested => intro _; exact mem_nested hr e
  | rawEnd => intro _; exact mem_rawEnd hr e
  | option s ih =>
    intro hs
    refine Mem.bind (D1 := 0) (F1 := 0) (D2 := s.extra) (F2 := s.waste rt) (m1 := 1) (m2 := 0)
      (Mem.free lin_u8 (same_prim _) _) (fun b => ?_) (by simp only [Sch.extra]; omega) (by omega)
      (by simp only [Sch.waste]; omega) (by simp only [Sch.minSize]; omega)
    split
    · exact Mem.pure _ _ _ _
    · split
      · exact (Mem.then (ih hs) _).mono (Nat.le_refl _) (Nat.le_refl _) (Nat.le_refl _) (Nat.zero_le _)
      · exact Mem.fail _ _ _ _ _
  | vec s ih =>
    intro hs
    exact (mem_vec (size := rt.size s) hr hs.1 (ih hs.2) e)
  | array n s ih =>
    intro hs
    refine Mem.bind (D2 := 0) (F2 := 0) (m2 := 0) (Mem.arr (ih hs) (s.extra_le rt) n)
      (fun xs => ?_) (Nat.le_refl _) (Nat.le_refl _) (Nat.mul_le_mul_left _ (s.extra_le rt)) (Nat.le_refl _)
    split
    · exact Mem.pure _ _ _ _
    · exact Mem.fail _ _ _ _ _
  | unit => intro _; exact Mem.pure _ _ _ _
  | cons a b iha ihb =>
    intro hs
    have := a.extra_le rt
    have := b.extra_le rt
    refine Mem.bind ((iha hs.1).mono (Nat.le_add_right _ (b.room rt)) (Nat.le_refl _) (Nat.le_refl _) (Nat.le_refl _))
      (fun _ => Mem.then ((ihb hs.2).mono (Nat.le_add_left _ (a.room rt)) (Nat.le_refl _) (Nat.le_refl _)
        (Nat.le_refl _)) _) (Nat.le_refl _) ?_ ?_ (Nat.le_refl _)
    · simp only [Sch.waste]; omega
    · simp only [Sch.waste]; omega
  | enum n f ih =>
    intro hs
    refine Mem.bind (D1 := 0) (F1 := 0) (m1 := 4) (m2 := 0) (D2 := (Sch.enum n f).extra)
      (F2 := (Sch.enum n f).waste rt) (Mem.free (lin_u32 e) (same_prim _) _) (fun i => ?_)
      (by omega) (by omega) (by omega) (Nat.le_refl _)
    split
    · rename_i hi
      exact (Mem.then (ih ⟨i.toNat, hi⟩ (hs _)) _).mono (le_sum_ofFn (fun i => (f i).room rt) _)
        (le_sum_ofFn (fun i => (f i).extra) _) (le_sum_ofFn (fun i => (f i).waste rt) _) (Nat.zero_le _)
    · exact Mem.fail _ _ _ _ _

/-! ## The theorems -/

/-- C92. The readers with their memory answer exactly as those of the model. -/
theorem C92_same (rt : Rt) (e : Endian) :
    SameReader (MDeserialize.mde rt e : CDe Header) (Deserialize.de e) ∧
    SameReader (MDeserialize.mde rt e : CDe Bits) (Deserialize.de e) ∧
    SameReader (MDeserialize.mde rt e : CDe Address) (Deserialize.de e) ∧
    SameReader (MDeserialize.mde rt e : CDe VarLen16) (Deserialize.de e) ∧
    SameReader (MDeserialize.mde rt e : CDe VarLen32) (Deserialize.de e) ∧
    SameReader (MDeserialize.mde rt e : CDe VarLen64) (Deserialize.de e) ∧
    SameReader (MDeserialize.mde rt e : CDe RawEnd) (Deserialize.de e) ∧
    SameReader (MDeserialize.mde rt e : CDe NestedPacket) (Deserialize.de e) ∧
    SameReader (MDeserialize.mde rt e : CDe TimeDistributionPayload) (Deserialize.de e) ∧
    SameReader (MDeserialize.mde rt e : CDe PuncturePayload) (Deserialize.de e) ∧
    SameReader (MDeserialize.mde rt e : CDe PunctureRequestPayload) (Deserialize.de e) ∧
    SameReader (MDeserialize.mde rt e : CDe IntroductionRequestPayload) (Deserialize.de e) ∧
    SameReader (MDeserialize.mde rt e : CDe IntroductionResponsePayload) (Deserialize.de e) ∧
    SameReader (MDeserialize.mde rt e : CDe BinMemberAuthenticationPayload) (Deserialize.de e) ∧
    ∀ s : Sch, SameReader (s.mde rt e) (s.de e) :=
  ⟨msame_header rt e, same_free _, same_free _, msame_varlen16 rt e, msame_varlen32 rt e, msame_varlen64 rt e,
    msame_rawEnd rt e, msame_nested rt e, same_free _, same_free _, same_free _, msame_introRequest rt e,
    msame_introResponse rt e, msame_auth rt e, msame_sch rt e⟩

/-- C92. Whatever bytes somebody sends, reading a header or a payload of the crate from them, successfully or not,
requests at most four times their number and a few bytes of memory, whatever a length field says; only a `VarLen64`
has serde reserve up to a fixed amount before a byte has been seen. -/
theorem C92 (rt : Rt) (hr : rt.Std) (e : Endian) :
    MemoryAtMost (MDeserialize.mde rt e : CDe Header) 0 28 ∧
    MemoryAtMost (MDeserialize.mde rt e : CDe Bits) 0 0 ∧
    MemoryAtMost (MDeserialize.mde rt e : CDe Address) 0 0 ∧
    MemoryAtMost (MDeserialize.mde rt e : CDe VarLen16) 4 0 ∧
    MemoryAtMost (MDeserialize.mde rt e : CDe VarLen32) 4 0 ∧
    MemoryAtMost (MDeserialize.mde rt e : CDe VarLen64) 4 (rt.spare 1) ∧
    MemoryAtMost (MDeserialize.mde rt e : CDe RawEnd) 4 8 ∧
    MemoryAtMost (MDeserialize.mde rt e : CDe NestedPacket) 4 0 ∧
    MemoryAtMost (MDeserialize.mde rt e : CDe TimeDistributionPayload) 0 0 ∧
    MemoryAtMost (MDeserialize.mde rt e : CDe PuncturePayload) 0 0 ∧
    MemoryAtMost (MDeserialize.mde rt e : CDe PunctureRequestPayload) 0 0 ∧
    MemoryAtMost (MDeserialize.mde rt e : CDe IntroductionRequestPayload) 4 8 ∧
    MemoryAtMost (MDeserialize.mde rt e : CDe IntroductionResponsePayload) 4 8 ∧
    MemoryAtMost (MDeserialize.mde rt e : CDe BinMemberAuthenticationPayload) 4 0 :=
  ⟨(mem_header hr e).atMost (Nat.le_refl _), fun _ => Nat.zero_le _, fun _ => Nat.zero_le _,
    (mem_varlen16 hr e).atMost (Nat.le_refl _), (mem_varlen32 hr e).atMost (Nat.le_refl _),
    (mem_varlen64 hr e).atMost (Nat.zero_le _), (mem_rawEnd hr e).atMost (Nat.le_refl _),
    (mem_nested hr e).atMost (Nat.le_refl _), fun _ => Nat.zero_le _, fun _ => Nat.zero_le _, fun _ => Nat.zero_le _,
    (mem_introRequest hr e).atMost (Nat.le_refl _), (mem_introResponse hr e).atMost (Nat.le_refl _),
    (mem_auth hr e).atMost (Nat.le_refl _)⟩

/-- C92. The same holds of payloads an application derives, with constants that depend on the type only, unless the
type has a vector whose elements may be empty. -/
theorem C92_derived (rt : Rt) (hr : rt.Std) (e : Endian) (s : Sch) (hs : s.NoEmptyElements) :
    MemoryAtMost (s.mde rt e) (s.room rt) (s.waste rt) :=
  (mem_sch hr e s hs).atMost (s.extra_le rt)

/-- C92. What a successful read has requested is bounded by the bytes it consumed: what was reserved for nothing is
part of failed reads only. -/
theorem C92_success (rt : Rt) (hr : rt.Std) (e : Endian) (s : Sch) (hs : s.NoEmptyElements) (r r' : Bytes) (v : s.Ty)
    (h : s.de e r = .ok (v, r')) :
    (s.mde rt e r).2 ≤ s.room rt * (r.length - r'.length) + s.extra := by
  have h1 := mem_sch hr e s hs r
  have h2 := msame_sch rt e s r
  rw [h] at h2
  cases hc : s.mde rt e r with
  | mk o n =>
    rw [hc] at h1 h2
    simp only at h2
    subst h2
    obtain ⟨u, rfl, _, h3⟩ := h1
    simpa using h3

theorem be64_read (n : UInt64) : deU64 .big (be64 n.toNat) = .ok (n, []) := by
  rw [← be64_eq]
  have := deU64_tok .big n []
  simpa [Tok.bytes] using this

/-- C92. Eight bytes do make the reader of a `VarLen64` (which fails) request memory, but never more than serde's
bound. -/
theorem C92_reserve (rt : Rt) (n : UInt64) (h : 0 < n.toNat) :
    (MDeserialize.mde rt .big : CDe VarLen64) (be64 n.toNat) = (.err .eof, min n.toNat (rt.spare 1)) := by
  obtain ⟨k, hk⟩ : ∃ k, n.toNat = k + 1 := ⟨n.toNat - 1, by omega⟩
  have hf : mloop (rt.low 1) 1 (fun (_ : Unit) => CDe.free deU8 >>= fun a => Pure.pure (a, ())) n.toNat ()
      (min n.toNat (rt.spare 1)) 0 [] = (.err .eof, 0) := by
    rw [hk]; rfl
  simp only [MDeserialize.mde, mdeVec]
  generalize (fun _ : Unit => CDe.free deU8 >>= fun a => Pure.pure (a, ())) = dd at hf ⊢
  simp only [bind, CDe.bind, CDe.free, CDe.take, be64_read, hf]
  simp

theorem grown_covers (low : Nat) : ∀ k cap len, len ≤ cap → len + k ≤ cap + grown low cap len k
  | 0, _, _, h => by simpa [grown] using h
  | k + 1, cap, len, h => by
    by_cases hl : len < cap
    · have h1 : pushCap low cap len = cap := by simp [pushCap, hl]
      have ih := grown_covers low k cap (len + 1) (by omega)
      simp only [grown, h1]
      omega
    · have h1 : pushCap low cap len = max (max (2 * cap) (len + 1)) low := by simp [pushCap, hl]
      have h2 : pushMem low 1 cap len = max (max (2 * cap) (len + 1)) low := by simp [pushMem, hl, h1]
      have hc : len + 1 ≤ max (max (2 * cap) (len + 1)) low := by omega
      have ih := grown_covers low k _ (len + 1) hc
      simp only [grown, h1, h2]
      omega

theorem empty_mloop {α : Type} (low size : Nat) {c : CDe α} {a : α} (hc : c [] = (.ok (a, []), 0)) : ∀ k cap len,
    mloop low size (fun (_ : Unit) => do let a ← c; pure (a, ())) k () cap len [] =
      (.ok ((List.replicate k a, ()), []), size * grown low cap len k)
  | 0, _, _ => rfl
  | k + 1, cap, len => by
    have ih := empty_mloop low size hc k (pushCap low cap len) (len + 1)
    simp only [bind, pure] at ih
    simp only [mloop, bind, pure]
    generalize hdd : (fun (_ : Unit) => c.bind fun a => CDe.pure (a, ())) = dd at ih ⊢
    have hd : dd () [] = (.ok ((a, ()), []), 0) := by rw [← hdd]; simp [CDe.bind, hc, CDe.pure]
    rw [show (c.bind fun a => CDe.pure (a, ())) = dd () from by rw [← hdd]]
    unfold CDe.bind CDe.take
    simp only [hd, ih, CDe.pure, grown, pushMem_size low size, List.replicate_succ, Nat.mul_add]
    congr 1
    omega

/-- C92. With a vector whose elements may be empty, eight bytes make the reader fill as much memory as the sender
likes: the size of an element times any number up to `2^64 - 1`. -/
theorem C92_empty (rt : Rt) (n : UInt64) :
    rt.size .rawEnd * n.toNat ≤ ((Sch.vec .rawEnd).mde rt .big (be64 n.toNat)).2 := by
  have he : (Sch.rawEnd.mde rt .big) [] = (.ok (⟨[]⟩, []), 0) := by
    obtain ⟨u, h1, h2⟩ := mem_raw rt usizeMax 0 0 []
    have hu : u = [] := by
      cases u with
      | nil => rfl
      | cons b u => cases h1
    subst hu
    have h3 := same_mraw rt usizeMax 0 0 []
    have h4 : rawLoop usizeMax [] = ([], []) := by
      show rawLoop (usizeMax - 1 + 1) [] = _
      rfl
    rw [h4] at h3
    show (Outcome.ok (_, _), _) = _
    rw [h2, h3]
    rfl
  have hm := empty_mloop (rt.low (rt.size .rawEnd)) (rt.size .rawEnd) he n.toNat
    (min n.toNat (rt.spare (rt.size .rawEnd))) 0
  show _ ≤ (mdeVec rt (rt.size .rawEnd) .big (Sch.rawEnd.mde rt .big) (be64 n.toNat)).2
  simp only [mdeVec]
  generalize (fun _ : Unit => Sch.rawEnd.mde rt .big >>= fun a => Pure.pure (a, ())) = dd at hm ⊢
  simp only [bind, CDe.bind, CDe.free, CDe.take, be64_read, hm]
  have h1 := grown_covers (rt.low (rt.size .rawEnd)) n.toNat (min n.toNat (rt.spare (rt.size .rawEnd))) 0 (Nat.zero_le _)
  have h2 := Nat.mul_le_mul_left (rt.size .rawEnd) h1
  simp only [Nat.mul_add, Nat.mul_zero] at h2
  omega

/-! ## `next_payload` -/

/-- The reader of a payload type, with its memory. -/
instance (k : Kind) : MDeserialize k.Ty :=
  match k with
  | .varlen16 => inferInstanceAs (MDeserialize VarLen16)
  | .varlen32 => inferInstanceAs (MDeserialize VarLen32)
  | .varlen64 => inferInstanceAs (MDeserialize VarLen64)
  | .nested => inferInstanceAs (MDeserialize NestedPacket)
  | .time => inferInstanceAs (MDeserialize TimeDistributionPayload)
  | .puncture => inferInstanceAs (MDeserialize PuncturePayload)
  | .punctureRequest => inferInstanceAs (MDeserialize PunctureRequestPayload)
  | .introRequest => inferInstanceAs (MDeserialize IntroductionRequestPayload)
  | .introResponse => inferInstanceAs (MDeserialize IntroductionResponsePayload)
  | .auth => inferInstanceAs (MDeserialize BinMemberAuthenticationPayload)
  | .derived s => inferInstanceAs (MDeserialize (Derived s))

/-- What `Serialize` of a payload copies: `NestedPacket` is the only type of the crate that does
(`serialization/nestedpayload.rs:25`). -/
def Kind.copied : (κ : Kind) → κ.Ty → Nat
  | .nested, x => NestedPacket.copied x
  | .derived s, x => s.copied x.val
  | _, _ => 0

instance (κ : Kind) : Copies κ.Ty := ⟨κ.copied⟩

/-- Memory per byte, at most. -/
def Kind.room (rt : Rt) : Kind → Nat
  | .time => 0
  | .puncture => 0
  | .punctureRequest => 0
  | .derived s => s.room rt
  | _ => 4

/-- Further memory, at most. -/
def Kind.waste (rt : Rt) : Kind → Nat
  | .varlen64 => rt.spare 1
  | .introRequest => 8
  | .introResponse => 8
  | .derived s => s.waste rt
  | _ => 0

theorem msame_kind (rt : Rt) (e : Endian) (κ : Kind) :
    SameReader (MDeserialize.mde rt e : CDe κ.Ty) (Deserialize.de e : De κ.Ty) := by
  cases κ with
  | varlen16 => exact msame_varlen16 rt e
  | varlen32 => exact msame_varlen32 rt e
  | varlen64 => exact msame_varlen64 rt e
  | nested => exact msame_nested rt e
  | time => exact same_free _
  | puncture => exact same_free _
  | punctureRequest => exact same_free _
  | introRequest => exact msame_introRequest rt e
  | introResponse => exact msame_introResponse rt e
  | auth => exact msame_auth rt e
  | derived s => exact same_bind (msame_sch rt e s) fun a => same_pure _

theorem mem_kind {rt : Rt} (hr : rt.Std) (e : Endian) (κ : Kind) (hκ : κ.NoEmptyElements) :
    MemoryAtMost (MDeserialize.mde rt e : CDe κ.Ty) (κ.room rt) (κ.waste rt) := by
  cases κ with
  | varlen16 => exact (mem_varlen16 hr e).atMost (Nat.le_refl _)
  | varlen32 => exact (mem_varlen32 hr e).atMost (Nat.le_refl _)
  | varlen64 => exact (mem_varlen64 hr e).atMost (Nat.zero_le _)
  | nested => exact (mem_nested hr e).atMost (Nat.le_refl _)
  | time => exact fun _ => Nat.zero_le _
  | puncture => exact fun _ => Nat.zero_le _
  | punctureRequest => exact fun _ => Nat.zero_le _
  | introRequest => exact (mem_introRequest hr e).atMost (Nat.le_refl _)
  | introResponse => exact (mem_introResponse hr e).atMost (Nat.le_refl _)
  | auth => exact (mem_auth hr e).atMost (Nat.le_refl _)
  | derived s => exact (Mem.then (mem_sch hr e s hκ) _).atMost (s.extra_le rt)

theorem copiedSeq_le {s : Sch} (ih : ∀ (x : s.Ty) (ts : List Tok), s.ser x = .ok ts → s.copied x ≤ toks ts) :
    ∀ (xs : List s.Ty) (ts : List Tok), serSeq s.ser xs = .ok ts → (List.map s.copied xs).sum ≤ toks ts
  | [], ts, h => by cases h; exact Nat.le_refl _
  | x :: xs, ts, h => by
    simp only [serSeq, Outcome.bind_eq_ok, Outcome.pure_eq, Outcome.ok.injEq] at h
    obtain ⟨p, hp, q, hq, rfl⟩ := h
    have h1 := ih x p hp
    have h2 := copiedSeq_le ih xs q hq
    simp only [toks, List.map_append, List.sum_append, List.map_cons, List.sum_cons] at h1 h2 ⊢
    omega

/-- What `Serialize` copies is part of what it writes. -/
theorem Sch.copied_le (s : Sch) : ∀ (x : s.Ty) (ts : List Tok), s.ser x = .ok ts → s.copied x ≤ toks ts := by
  induction s with
  | option s ih =>
    intro x ts h
    cases x with
    | none => exact Nat.zero_le _
    | some x =>
      simp only [Sch.ser, Outcome.bind_eq_ok, Outcome.pure_eq, Outcome.ok.injEq] at h
      obtain ⟨a, ha, rfl⟩ := h
      have := ih x a ha
      simp only [Sch.copied, toks, List.map_cons, List.sum_cons] at this ⊢
      omega
  | vec s ih =>
    intro x ts h
    obtain ⟨a, ha, rfl⟩ := Sch.vec_ser_ok h
    have := copiedSeq_le ih x a ha
    simp only [Sch.copied, toks, List.map_cons, List.sum_cons] at this ⊢
    omega
  | array n s ih => intro x ts h; exact copiedSeq_le ih x.val ts h
  | cons a b iha ihb =>
    intro x ts h
    simp only [Sch.ser, Outcome.bind_eq_ok, Outcome.pure_eq, Outcome.ok.injEq] at h
    obtain ⟨p, hp, q, hq, rfl⟩ := h
    have h1 := iha _ _ hp
    have h2 := ihb _ _ hq
    simp only [Sch.copied, toks, List.map_append, List.sum_append] at h1 h2 ⊢
    omega
  | enum n f ih =>
    intro x ts h
    obtain ⟨i, x⟩ := x
    simp only [Sch.ser, Outcome.bind_eq_ok, Outcome.pure_eq, Outcome.ok.injEq] at h
    obtain ⟨a, ha, rfl⟩ := h
    have := ih i x a ha
    simp only [Sch.copied, toks, List.map_cons, List.sum_cons] at this ⊢
    omega
  | nested =>
    intro x ts h
    simp only [Sch.ser, Serialize.ser] at h
    split at h
    · simp at h
    · cases h
      have := toks_u8 x.packet.bytes
      simp only [Sch.copied, NestedPacket.copied, toks, List.map_cons, List.sum_cons] at this ⊢
      omega
  | _ => intro x ts h; exact Nat.zero_le _

theorem Kind.copied_le (κ : Kind) (v : κ.Ty) (n : Nat) (h : Bincode.serializedSize v = .ok n) : κ.copied v ≤ n := by
  unfold Bincode.serializedSize at h
  cases hs : (Serialize.ser v : Outcome (List Tok)) with
  | err x => rw [hs] at h; cases h
  | panic => rw [hs] at h; cases h
  | ok ts =>
    rw [hs] at h
    simp only [Outcome.ok.injEq] at h
    subst h
    cases κ with
    | nested => exact Sch.copied_le .nested v ts hs
    | derived s => exact Sch.copied_le s v.val ts hs
    | _ => exact Nat.zero_le _

/-- C92. Counting memory does not change what `next_payload` does. -/
theorem C92_next_same (rt : Rt) (κ : Kind) (d : PacketDeserializer) :
    (d.mnextPayload rt κ.Ty).1 = d.nextPayload κ.Ty := by
  unfold PacketDeserializer.mnextPayload PacketDeserializer.nextPayload
  cases hsl : sliceFrom d.pntr.bytes d.index with
  | ok s =>
    have h := msame_kind rt .big κ s
    simp only [Bincode.deserialize]
    rw [← h]
    cases hc : (MDeserialize.mde rt .big : CDe κ.Ty) s with
    | mk o n =>
      cases o with
      | ok x => cases hz : Bincode.serializedSize x.1 <;> simp [hz]
      | err x => rfl
      | panic => rfl
  | err x => rfl
  | panic => rfl

/-- C92. A `next_payload`, with the size pass it makes to move the cursor, requests memory linear in the bytes that are
left in the packet, whatever they are and whatever comes of it. -/
theorem C92_next (rt : Rt) (hr : rt.Std) (κ : Kind) (hκ : κ.NoEmptyElements) (d : PacketDeserializer)
    (hl : d.pntr.bytes.length ≤ usizeMax) :
    (d.mnextPayload rt κ.Ty).2 ≤ (κ.room rt + 1) * (d.pntr.bytes.length - d.index) + κ.waste rt := by
  unfold PacketDeserializer.mnextPayload
  cases hsl : sliceFrom d.pntr.bytes d.index with
  | ok s =>
    have hs : s.length = d.pntr.bytes.length - d.index := by
      unfold sliceFrom at hsl
      split at hsl
      · simp only [Outcome.ok.injEq] at hsl
        rw [← hsl, List.length_drop]
      · exact absurd hsl (by simp)
    have h1 := mem_kind hr .big κ hκ s
    have h2 := msame_kind rt .big κ s
    rw [hs] at h1
    simp only
    cases hc : (MDeserialize.mde rt .big : CDe κ.Ty) s with
    | mk o n =>
      rw [hc] at h1 h2
      simp only at h1 h2
      have hm : (κ.room rt + 1) * (d.pntr.bytes.length - d.index) + κ.waste rt =
          κ.room rt * (d.pntr.bytes.length - d.index) + κ.waste rt + (d.pntr.bytes.length - d.index) := by
        rw [Nat.add_mul]; omega
      rw [hm]
      cases o with
      | ok x =>
        obtain ⟨v, r'⟩ := x
        simp only
        have hcp : Copies.copied v ≤ d.pntr.bytes.length - d.index := by
          by_cases ha : κ = .auth
          · subst ha; exact Nat.zero_le _
          · obtain ⟨bs, h3, h4⟩ := (κ.sizeExact ha).size .big s r' v (by omega) h2.symm
            have h5 := κ.copied_le v _ h4
            have h6 : s.length = bs.length + r'.length := by rw [h3, List.length_append]
            show κ.copied v ≤ _
            omega
        cases Bincode.serializedSize v <;> simp only <;> omega
      | err x => simp only; omega
      | panic => simp only; omega
  | err x => exact Nat.zero_le _
  | panic => exact Nat.zero_le _

/-! ## Examples -/

/-- Sizes on a 64-bit machine: what matters in the examples is that of a vector. -/
def sizeOf64 : Sch → Nat
  | .u8 => 1
  | .u16 => 2
  | .u32 => 4
  | .u64 => 8
  | _ => 24

/-- The libraries of 2019: at least four elements, 4096 elements reserved. -/
def rt2019 : Rt := ⟨sizeOf64, fun _ => 4, fun _ => 4096⟩

/-- Those of today: at least 8, 4 or 1 elements, a mebibyte reserved. -/
def rt2025 : Rt := ⟨sizeOf64, fun z => if z = 1 then 8 else if z ≤ 1024 then 4 else 1, fun z => 1048576 / z⟩

example : rt2019.Std ∧ rt2025.Std :=
  ⟨fun _ => by simp [rt2019], fun z => by
    simp only [rt2025]
    split
    · omega
    · split <;> omega⟩

/-- A `VarLen32` that announces four gigabytes and has three bytes: eight bytes of memory, and an error. -/
example : (MDeserialize.mde rt2025 .big : CDe VarLen32) [255, 255, 255, 255, 1, 2, 3] = (.err .eof, 8) := by
  simp [MDeserialize.mde]; rfl

/-- Ten bytes: buffers of 8 and 16. -/
example : ((MDeserialize.mde rt2025 .big : CDe VarLen16) [0, 10, 1, 2, 3, 4, 5, 6, 7, 8, 9, 10]).2 = 24 := by rfl

/-- Ten bytes: buffers of 4, 8 and 16. -/
example : ((MDeserialize.mde rt2019 .big : CDe VarLen16) [0, 10, 1, 2, 3, 4, 5, 6, 7, 8, 9, 10]).2 = 28 := by rfl

/-! ## Cases for the theorems above -/

/-- `C92_derived` and `C92_success`: `struct { Vec<u16>, String }`. -/
example (r r' : Bytes) (v : (Sch.cons (.vec .u16) (.cons .string .unit)).Ty)
    (h : (Sch.cons (.vec .u16) (.cons .string .unit)).de .big r = .ok (v, r')) :
    ((Sch.cons (.vec .u16) (.cons .string .unit)).mde rt2025 .big r).2 ≤
      (Sch.cons (.vec .u16) (.cons .string .unit)).room rt2025 * (r.length - r'.length) ∧
    MemoryAtMost ((Sch.cons (.vec .u16) (.cons .string .unit)).mde rt2019 .big)
      ((Sch.cons (.vec .u16) (.cons .string .unit)).room rt2019) ((Sch.cons (.vec .u16) (.cons .string .unit)).waste rt2019) := by
  have hs : (Sch.cons (.vec .u16) (.cons .string .unit)).NoEmptyElements := ⟨⟨by decide, trivial⟩, trivial, trivial⟩
  refine ⟨C92_success rt2025 ?_ .big _ hs r r' v h, C92_derived rt2019 (fun _ => by simp [rt2019]) .big _ hs⟩
  intro z
  simp only [rt2025]
  split
  · omega
  · split <;> omega

/-- `C92_reserve`: eight bytes that announce a string of 2⁶⁴ - 1 bytes make today's library reserve a mebibyte. -/
example : (MDeserialize.mde rt2025 .big : CDe VarLen64) (be64 0xFFFFFFFFFFFFFFFF) = (.err .eof, 1048576) := by
  have h := C92_reserve rt2025 0xFFFFFFFFFFFFFFFF (by decide)
  rw [show (0xFFFFFFFFFFFFFFFF : UInt64).toNat = 0xFFFFFFFFFFFFFFFF by decide] at h
  rw [h]
  simp [rt2025]

/-- `C92_next`: the next `VarLen16` of a packet. -/
example (d : PacketDeserializer) (hl : d.pntr.bytes.length ≤ usizeMax) :
    (d.mnextPayload rt2019 Kind.varlen16.Ty).2 ≤
      (Kind.varlen16.room rt2019 + 1) * (d.pntr.bytes.length - d.index) + Kind.varlen16.waste rt2019 :=
  C92_next rt2019 (fun _ => by simp [rt2019]) .varlen16 trivial d hl

/-- `C92`: the library of 2019. -/
example := C92 rt2019 (fun _ => by simp [rt2019]) .big

end Ipv8
