import Verif.Model.Cost
import Verif.Props.Bounded
/-!
# Property C87: reading takes time linear in the length of the packet
-/

namespace Ipv8
open Spec

/-! ## Specification -/

/-- The counted reader gives the same answers as the one of the model. -/
def SameReader {α : Type} (c : CDe α) (d : De α) : Prop := ∀ r, (c r).1 = d r

/-- Whatever the bytes are, and whether it succeeds, fails or panics, the reader makes at most `a * n + b` steps on
`n` bytes. -/
def StepsAtMost {α : Type} (c : CDe α) (a b : Nat) : Prop := ∀ r, (c r).2 ≤ a * r.length + b

/-- Steps that do not depend on the length, at most. -/
def Sch.base : Sch → Nat
  | .u8 => 1
  | .u16 => 1
  | .u32 => 1
  | .u64 => 1
  | .u128 => 1
  | .i8 => 1
  | .i16 => 1
  | .i32 => 1
  | .i64 => 1
  | .bool => 1
  | .char => 2
  | .string => 3
  | .bits => 1
  | .address => 11
  | .varlen16 => 4
  | .varlen32 => 4
  | .varlen64 => 3
  | .nested => 4
  | .rawEnd => 2
  | .option s => 1 + s.base
  | .vec s => 1 + (s.base + 1)
  | .array n s => n * (s.base + 1) + 1
  | .unit => 0
  | .cons a b => 1 + (a.base + b.base)
  | .enum _ f => 1 + (List.ofFn fun i => (f i).base).sum

/-- Steps per byte, at most. -/
def Sch.slope : Sch → Nat
  | .string => 2
  | .varlen16 => 2
  | .varlen32 => 2
  | .varlen64 => 2
  | .nested => 2
  | .rawEnd => 2
  | .option s => s.slope
  | .vec s => s.slope + s.base + 1
  | .array _ s => s.slope
  | .cons a b => a.slope + b.slope
  | .enum _ f => (List.ofFn fun i => (f i).slope).sum
  | _ => 0

/-! ## Same answers -/

theorem same_pure {α : Type} (a : α) : SameReader (pure a : CDe α) (pure a) := fun _ => rfl

theorem same_prim {α : Type} (d : De α) : SameReader (CDe.prim d) d := fun _ => rfl

theorem same_free {α : Type} (d : De α) : SameReader (CDe.free d) d := fun _ => rfl

theorem same_bind {α β : Type} {c : CDe α} {d : De α} {f : α → CDe β} {g : α → De β} (h : SameReader c d)
    (hf : ∀ a, SameReader (f a) (g a)) : SameReader (c >>= f) (d >>= g) := by
  intro r
  show (CDe.bind c f r).1 = De.bind d g r
  have h1 := h r
  unfold CDe.bind De.bind
  cases hc : c r with
  | mk o n =>
    rw [hc] at h1
    simp only at h1
    rw [← h1]
    cases o with
    | ok x => exact hf x.1 x.2
    | err e => rfl
    | panic => rfl

theorem same_step {β : Type} {c : CDe β} {d : De β} (h : SameReader c d) :
    SameReader (CDe.step >>= fun _ => c) d := fun r => h r

theorem same_next {α : Type} {c : CDe α} {d : De α} (h : SameReader c d) :
    ∀ n, SameReader (cnextElement c n) (nextElement d n)
  | 0 => same_step (same_pure _)
  | _ + 1 => same_step (same_bind h fun _ => same_pure _)

theorem same_field {α : Type} {c : CDe α} {d : De α} (h : SameReader c d) (e : Error) (n : Nat) :
    SameReader (cfield c e n) (field d e n) := by
  refine same_bind (same_next h n) ?_
  rintro ⟨o, k⟩
  cases o with
  | none => exact same_free _
  | some a => exact same_pure _

theorem same_repeat {α : Type} {c : CDe α} {d : De α} (h : SameReader c d) (e : Error) :
    ∀ k n, SameReader (crepeatField c e k n) (repeatField d e k n)
  | 0, _ => same_pure _
  | k + 1, n => same_bind (same_field h e n) fun _ => same_bind (same_repeat h e k _) fun _ => same_pure _

theorem same_loop {α : Type} {c : CDe α} {d : De α} (h : SameReader c d) :
    ∀ n, SameReader (cvecLoop c n) (vecLoop d n)
  | 0 => same_step (same_pure _)
  | n + 1 => same_step (same_bind h fun _ => same_bind (same_loop h n) fun _ => same_pure _)

theorem same_vec {α : Type} {c : CDe α} {d : De α} (h : SameReader c d) (e : Endian) :
    SameReader (cdeVec e c) (deVec e d) :=
  same_bind (same_prim _) fun _ => same_loop h _

theorem same_raw : ∀ n r, (crawLoop n r).1 = rawLoop n r
  | 0, _ => rfl
  | n + 1, r => by
    simp only [crawLoop, rawLoop]
    cases deU8 r with
    | ok x => simp only [same_raw n]
    | err e => rfl
    | panic => rfl

theorem same_bits (e : Endian) : SameReader (CDeserialize.cde e : CDe Bits) (Deserialize.de e) :=
  same_bind (same_prim _) fun _ => same_pure _

theorem same_address (e : Endian) : SameReader (CDeserialize.cde e : CDe Address) (Deserialize.de e) := by
  have h4 : SameReader cdeIpv4 deIpv4 :=
    same_bind (same_field (same_prim _) _ _) fun _ => same_bind (same_field (same_prim _) _ _) fun _ =>
      same_bind (same_field (same_prim _) _ _) fun _ => same_bind (same_field (same_prim _) _ _) fun _ =>
        same_pure _
  exact same_bind (same_field h4 _ _) fun _ => same_bind (same_field (same_prim _) _ _) fun _ => same_pure _

theorem same_varlen16 (e : Endian) : SameReader (CDeserialize.cde e : CDe VarLen16) (Deserialize.de e) :=
  same_bind (same_field (same_prim _) _ _) fun _ => same_bind (same_repeat (same_prim _) _ _ _) fun _ => same_pure _

theorem same_varlen32 (e : Endian) : SameReader (CDeserialize.cde e : CDe VarLen32) (Deserialize.de e) :=
  same_bind (same_field (same_prim _) _ _) fun _ => same_bind (same_repeat (same_prim _) _ _ _) fun _ => same_pure _

theorem same_varlen64 (e : Endian) : SameReader (CDeserialize.cde e : CDe VarLen64) (Deserialize.de e) :=
  same_bind (same_vec (same_prim _) _) fun _ => same_pure _

theorem same_rawEnd (e : Endian) : SameReader (CDeserialize.cde e : CDe RawEnd) (Deserialize.de e) := by
  intro r
  simp only [CDeserialize.cde, Deserialize.de, same_raw]

theorem same_nested (e : Endian) : SameReader (CDeserialize.cde e : CDe NestedPacket) (Deserialize.de e) :=
  same_bind (same_varlen16 e) fun _ => same_pure _

theorem same_header (e : Endian) : SameReader (CDeserialize.cde e : CDe Header) (Deserialize.de e) := by
  refine same_bind (same_field (same_prim _) _ _) fun v0 => same_bind (same_field (same_prim _) _ _) fun v1 => ?_
  simp only
  split
  · exact same_bind (same_repeat (same_prim _) _ _ _) fun _ => same_bind (same_field (same_prim _) _ _) fun _ =>
      same_pure _
  · exact same_free _

theorem same_time (e : Endian) : SameReader (CDeserialize.cde e : CDe TimeDistributionPayload) (Deserialize.de e) :=
  same_bind (same_field (same_prim _) _ _) fun _ => same_pure _

theorem same_puncture (e : Endian) : SameReader (CDeserialize.cde e : CDe PuncturePayload) (Deserialize.de e) :=
  same_bind (same_field (same_address e) _ _) fun _ => same_bind (same_field (same_address e) _ _) fun _ =>
    same_bind (same_field (same_prim _) _ _) fun _ => same_pure _

theorem same_punctureRequest (e : Endian) :
    SameReader (CDeserialize.cde e : CDe PunctureRequestPayload) (Deserialize.de e) :=
  same_bind (same_field (same_address e) _ _) fun _ => same_bind (same_field (same_address e) _ _) fun _ =>
    same_bind (same_field (same_prim _) _ _) fun _ => same_pure _

theorem same_introRequest (e : Endian) :
    SameReader (CDeserialize.cde e : CDe IntroductionRequestPayload) (Deserialize.de e) :=
  same_bind (same_field (same_address e) _ _) fun _ => same_bind (same_field (same_address e) _ _) fun _ =>
    same_bind (same_field (same_address e) _ _) fun _ => same_bind (same_field (same_bits e) _ _) fun _ =>
      same_bind (same_field (same_prim _) _ _) fun _ => same_bind (same_field (same_rawEnd e) _ _) fun _ => same_pure _

theorem same_introResponse (e : Endian) :
    SameReader (CDeserialize.cde e : CDe IntroductionResponsePayload) (Deserialize.de e) :=
  same_bind (same_field (same_address e) _ _) fun _ => same_bind (same_field (same_address e) _ _) fun _ =>
    same_bind (same_field (same_address e) _ _) fun _ => same_bind (same_field (same_address e) _ _) fun _ =>
      same_bind (same_field (same_address e) _ _) fun _ => same_bind (same_field (same_bits e) _ _) fun _ =>
        same_bind (same_field (same_prim _) _ _) fun _ => same_bind (same_field (same_rawEnd e) _ _) fun _ => same_pure _

theorem same_auth (e : Endian) :
    SameReader (CDeserialize.cde e : CDe BinMemberAuthenticationPayload) (Deserialize.de e) :=
  same_bind (same_varlen16 e) fun _ => same_free _

theorem same_sch (e : Endian) (s : Sch) : SameReader (s.cde e) (s.de e) := by
  induction s with
  | u8 => exact same_prim _
  | u16 => exact same_prim _
  | u32 => exact same_prim _
  | u64 => exact same_prim _
  | u128 => exact same_prim _
  | i8 => exact same_bind (same_prim _) fun _ => same_pure _
  | i16 => exact same_bind (same_prim _) fun _ => same_pure _
  | i32 => exact same_bind (same_prim _) fun _ => same_pure _
  | i64 => exact same_bind (same_prim _) fun _ => same_pure _
  | bool => exact same_prim _
  | char => exact same_step (same_prim _)
  | string =>
    refine same_bind (same_vec (same_prim _) _) fun bs => ?_
    split
    · exact same_pure _
    · exact same_free _
  | bits => exact same_bits e
  | address => exact same_address e
  | varlen16 => exact same_varlen16 e
  | varlen32 => exact same_varlen32 e
  | varlen64 => exact same_varlen64 e
  | nested => exact same_nested e
  | rawEnd => exact same_rawEnd e
  | option s ih =>
    refine same_bind (same_prim _) fun b => ?_
    split
    · exact same_pure _
    · split
      · exact same_bind ih fun _ => same_pure _
      · exact same_free _
  | vec s ih => exact same_vec ih e
  | array n s ih =>
    refine same_bind (same_loop ih _) fun xs => ?_
    split
    · exact same_pure _
    · exact same_free _
  | unit => exact same_pure _
  | cons a b iha ihb => exact same_step (same_bind iha fun _ => same_bind ihb fun _ => same_pure _)
  | enum n f ih =>
    refine same_bind (same_prim _) fun i => ?_
    split
    · exact same_bind (ih _) fun _ => same_pure _
    · exact same_free _

/-! ## How many steps -/

/-- On success the reader has consumed at least `m` bytes and made at most `C` steps per byte consumed and `D` more;
otherwise at most `C` steps per byte there is and `D` more. -/
def Lin {α : Type} (C D m : Nat) (c : CDe α) : Prop := ∀ r,
  match c r with
  | (.ok (_, r'), n) => ∃ u, r = u ++ r' ∧ m ≤ u.length ∧ n ≤ C * u.length + D
  | (_, n) => n ≤ C * r.length + D

theorem Lin.steps {α : Type} {C D m : Nat} {c : CDe α} (h : Lin C D m c) : StepsAtMost c C D := by
  intro r
  have := h r
  cases hc : c r with
  | mk o n =>
    rw [hc] at this
    cases o with
    | ok x =>
      obtain ⟨u, rfl, _, h2⟩ := this
      simp only at h2 ⊢
      rw [List.length_append, Nat.mul_add]
      omega
    | err e => exact this
    | panic => exact this

theorem Lin.mono {α : Type} {C D m C' D' m' : Nat} {c : CDe α} (h : Lin C D m c) (hC : C ≤ C') (hD : D ≤ D')
    (hm : m' ≤ m) : Lin C' D' m' c := by
  intro r
  have h0 := h r
  cases hc : c r with
  | mk o n =>
    rw [hc] at h0
    cases o with
    | ok x =>
      obtain ⟨u, h1, h2, h3⟩ := h0
      have := Nat.mul_le_mul_right u.length hC
      exact ⟨u, h1, by omega, by omega⟩
    | err e => have := Nat.mul_le_mul_right r.length hC; simp only at h0 ⊢; omega
    | panic => have := Nat.mul_le_mul_right r.length hC; simp only at h0 ⊢; omega

theorem Lin.pure {α : Type} (a : α) : Lin 0 0 0 (Pure.pure a : CDe α) := fun r => ⟨[], rfl, by simp, by simp⟩

theorem Lin.bind {α β : Type} {C D1 m1 D2 m2 : Nat} {c : CDe α} {f : α → CDe β} (h : Lin C D1 m1 c)
    (hf : ∀ a, Lin C D2 m2 (f a)) : Lin C (D1 + D2) (m1 + m2) (c >>= f) := by
  intro r
  show match CDe.bind c f r with
    | (.ok (_, r'), n) => ∃ u, r = u ++ r' ∧ m1 + m2 ≤ u.length ∧ n ≤ C * u.length + (D1 + D2)
    | (_, n) => n ≤ C * r.length + (D1 + D2)
  have h0 := h r
  unfold CDe.bind
  cases hc : c r with
  | mk o n =>
    rw [hc] at h0
    cases o with
    | err e => simp only at h0 ⊢; omega
    | panic => simp only at h0 ⊢; omega
    | ok x =>
      obtain ⟨a, r'⟩ := x
      obtain ⟨u, rfl, h2, h3⟩ := h0
      have h4 := hf a r'
      simp only
      cases hfa : f a r' with
      | mk o' n' =>
        rw [hfa] at h4
        cases o' with
        | ok y =>
          obtain ⟨v, rfl, h5, h6⟩ := h4
          refine ⟨u ++ v, by simp, ?_, ?_⟩
          · simp only [List.length_append]; omega
          · simp only [List.length_append, Nat.mul_add]; omega
        | err e => simp only [List.length_append, Nat.mul_add] at h4 ⊢; omega
        | panic => simp only [List.length_append, Nat.mul_add] at h4 ⊢; omega

theorem Lin.step {β : Type} {C D m : Nat} {c : CDe β} (h : Lin C D m c) :
    Lin C (1 + D) m (CDe.step >>= fun _ => c) := by
  have h1 : Lin C 1 0 CDe.step := fun r => ⟨[], rfl, by simp, by simp⟩
  have := Lin.bind h1 (fun _ => h)
  simpa using this

/-- A primitive read. -/
theorem Lin.prim {α : Type} {m : Nat} {d : De α}
    (h : ∀ r a r', d r = .ok (a, r') → ∃ u, r = u ++ r' ∧ m ≤ u.length) : Lin 0 1 m (CDe.prim d) := by
  intro r
  show match (d r, 1) with
    | (.ok (_, r'), n) => ∃ u, r = u ++ r' ∧ m ≤ u.length ∧ n ≤ 0 * u.length + 1
    | (_, n) => n ≤ 0 * r.length + 1
  cases hd : d r with
  | ok x =>
    obtain ⟨u, h1, h2⟩ := h r x.1 x.2 hd
    exact ⟨u, h1, h2, by omega⟩
  | err e => simp
  | panic => simp

theorem Lin.fail {α : Type} (m : Nat) (e : Error) : Lin 0 0 m (CDe.free (De.fail e) : CDe α) := by
  intro r
  show (0 : Nat) ≤ _
  omega

theorem lin_u8 : Lin 0 1 1 (CDe.prim deU8) := Lin.prim fun r a r' h => by
  cases r with
  | nil => cases h
  | cons b r =>
    simp only [deU8, Outcome.ok.injEq, Prod.mk.injEq] at h
    obtain ⟨_, rfl⟩ := h
    exact ⟨[b], rfl, by simp⟩

theorem deInt_eats {e : Endian} {k : Nat} {r r' : Bytes} {x : Nat} (h : deInt e k r = .ok (x, r')) :
    ∃ u, r = u ++ r' ∧ k ≤ u.length := by
  unfold deInt at h
  split at h
  · cases h
  · cases h
    exact ⟨r.take k, by simp, by simp; omega⟩

theorem intBind_eats {α : Type} {e : Endian} {k : Nat} {f : Nat → α} {r r' : Bytes} {x : α}
    (h : (deInt e k >>= fun a => (pure (f a) : De α)) r = .ok (x, r')) : ∃ u, r = u ++ r' ∧ k ≤ u.length := by
  change De.bind (deInt e k) _ r = _ at h
  unfold De.bind at h
  split at h
  · rename_i a r1 h1
    cases h
    exact deInt_eats h1
  · cases h
  · cases h

theorem lin_u16 (e : Endian) : Lin 0 1 2 (CDe.prim (deU16 e)) := Lin.prim fun _ _ _ h => intBind_eats h
theorem lin_u32 (e : Endian) : Lin 0 1 4 (CDe.prim (deU32 e)) := Lin.prim fun _ _ _ h => intBind_eats h
theorem lin_u64 (e : Endian) : Lin 0 1 8 (CDe.prim (deU64 e)) := Lin.prim fun _ _ _ h => intBind_eats h
theorem lin_u128 (e : Endian) : Lin 0 1 16 (CDe.prim (deU128 e)) := Lin.prim fun _ _ _ h => intBind_eats h

theorem Lin.field {α : Type} {C D m : Nat} {c : CDe α} (h : Lin C D m c) (e : Error) (n : Nat) :
    Lin C (1 + D) m (cfield c e n) := by
  cases n with
  | zero =>
    intro r
    show (1 + 0 : Nat) ≤ C * r.length + (1 + D)
    omega
  | succ n =>
    have h1 : Lin C (1 + D) m (cnextElement c (n + 1)) := by
      have := Lin.step (Lin.bind h fun a => ((Lin.pure (some a, n)).mono (Nat.zero_le C) (Nat.le_refl 0) (Nat.le_refl 0)))
      exact this
    intro r
    have h2 := h1 r
    have hs : cfield c e (n + 1) r = match cnextElement c (n + 1) r with
        | (.ok ((some a, k), r'), x) => (.ok ((a, k), r'), x)
        | (.ok ((none, _), _), x) => (.err e, x)
        | (.err e, x) => (.err e, x)
        | (.panic, x) => (.panic, x) := by
      show CDe.bind (cnextElement c (n + 1)) _ r = _
      unfold CDe.bind
      cases cnextElement c (n + 1) r with
      | mk o x =>
        cases o with
        | ok y => obtain ⟨⟨o, k⟩, r'⟩ := y; cases o <;> rfl
        | err e => rfl
        | panic => rfl
    rw [hs]
    cases hc : cnextElement c (n + 1) r with
    | mk o x =>
      rw [hc] at h2
      cases o with
      | ok y =>
        obtain ⟨⟨o, k⟩, r'⟩ := y
        obtain ⟨u, rfl, h3, h4⟩ := h2
        cases o with
        | some a => exact ⟨u, rfl, h3, h4⟩
        | none => simp only [List.length_append, Nat.mul_add]; omega
      | err e => exact h2
      | panic => exact h2

/-- Going through elements of at least one byte each. -/
theorem lin_iter {α β : Type} {C D m : Nat} {c : CDe α} {f : α → CDe β} (hm : 1 ≤ m) (h : Lin C D m c)
    {D' : Nat} (hD : D ≤ D') (hf : ∀ a, Lin (C + D) D' 0 (f a)) : Lin (C + D) D' 0 (c >>= f) := by
  intro r
  show match CDe.bind c f r with
    | (.ok (_, r'), n) => ∃ u, r = u ++ r' ∧ 0 ≤ u.length ∧ n ≤ (C + D) * u.length + D'
    | (_, n) => n ≤ (C + D) * r.length + D'
  have h0 := h r
  unfold CDe.bind
  cases hc : c r with
  | mk o n =>
    rw [hc] at h0
    have hle : C * r.length ≤ (C + D) * r.length := Nat.mul_le_mul_right _ (by omega)
    cases o with
    | err e => simp only at h0 ⊢; omega
    | panic => simp only at h0 ⊢; omega
    | ok x =>
      obtain ⟨a, r'⟩ := x
      obtain ⟨u, rfl, h2, h3⟩ := h0
      have hn : n ≤ (C + D) * u.length := by
        have : D * 1 ≤ D * u.length := Nat.mul_le_mul_left _ (by omega)
        rw [Nat.add_mul]
        omega
      have h4 := hf a r'
      simp only
      cases hfa : f a r' with
      | mk o' n' =>
        rw [hfa] at h4
        cases o' with
        | ok y =>
          obtain ⟨v, rfl, h5, h6⟩ := h4
          refine ⟨u ++ v, by simp, by omega, ?_⟩
          simp only [List.length_append, Nat.mul_add]; omega
        | err e => simp only [List.length_append, Nat.mul_add] at h4 ⊢; omega
        | panic => simp only [List.length_append, Nat.mul_add] at h4 ⊢; omega

theorem Lin.then {α β : Type} {C D m : Nat} {c : CDe α} (h : Lin C D m c) (f : α → β) :
    Lin C D m (c >>= fun a => Pure.pure (f a)) := by
  have := Lin.bind h fun a => (Lin.pure (f a)).mono (Nat.zero_le C) (Nat.le_refl 0) (Nat.le_refl 0)
  simpa using this

theorem Lin.repeat {α : Type} {C D m : Nat} {c : CDe α} (hm : 1 ≤ m) (h : Lin C D m c) (e : Error) :
    ∀ k n, Lin (C + (1 + D)) (1 + D) 0 (crepeatField c e k n)
  | 0, n => (Lin.pure _).mono (by omega) (by omega) (by omega)
  | k + 1, n => by
    refine lin_iter hm (h.field e n) (Nat.le_refl _) fun a => ?_
    exact Lin.then (Lin.repeat hm h e k a.2) _

theorem Lin.loop {α : Type} {C D m : Nat} {c : CDe α} (hm : 1 ≤ m) (h : Lin C D m c) :
    ∀ n, Lin (C + (1 + D)) (1 + D) 0 (cvecLoop c n)
  | 0 => (Lin.step (Lin.pure _)).mono (by omega) (by omega) (by omega)
  | n + 1 => by
    have h1 : cvecLoop c (n + 1) = ((CDe.step >>= fun _ => c) >>= fun a => (cvecLoop c n >>= fun as =>
        Pure.pure (a :: as))) := by
      funext r
      show CDe.bind CDe.step (fun _ => CDe.bind c _) r = CDe.bind (CDe.bind CDe.step _) _ r
      simp only [CDe.bind, CDe.step]
      cases c r with
      | mk o x => cases o <;> simp [Nat.add_assoc]
    rw [h1]
    exact lin_iter hm (Lin.step h) (Nat.le_refl _) fun a => Lin.then (Lin.loop hm h n) _

/-- A fixed number of elements of any size. -/
theorem Lin.fixed {α : Type} {C D m : Nat} {c : CDe α} (h : Lin C D m c) :
    ∀ n, Lin C (n * (D + 1) + 1) (n * m) (cvecLoop c n)
  | 0 => (Lin.step (Lin.pure _)).mono (by omega) (by omega) (by omega)
  | n + 1 => by
    have := Lin.step (Lin.bind h fun a => Lin.then (Lin.fixed h n) (fun as => a :: as))
    refine Lin.mono this (Nat.le_refl _) ?_ ?_
    · rw [Nat.succ_mul]; omega
    · rw [Nat.succ_mul]; omega

theorem Lin.vec {α : Type} {C D m : Nat} {c : CDe α} (hm : 1 ≤ m) (h : Lin C D m c) (e : Endian) :
    Lin (C + (1 + D)) (1 + (1 + D)) 8 (cdeVec e c) := by
  have := Lin.bind ((lin_u64 e).mono (Nat.zero_le (C + (1 + D))) (Nat.le_refl _) (Nat.le_refl _))
    fun n => Lin.loop hm h n.toNat
  exact this

theorem lin_raw : ∀ n r, ∃ u, r = u ++ (crawLoop n r).1.2 ∧ (crawLoop n r).2 ≤ 2 * u.length + 2
  | 0, r => ⟨[], rfl, by simp [crawLoop]⟩
  | n + 1, [] => ⟨[], rfl, by simp [crawLoop, deU8]⟩
  | n + 1, b :: r => by
    obtain ⟨u, h1, h2⟩ := lin_raw n r
    refine ⟨b :: u, ?_, ?_⟩
    · simpa [crawLoop, deU8] using h1
    · simp only [crawLoop, deU8, List.length_cons]; omega

theorem lin_rawEnd (e : Endian) : Lin 2 2 0 (CDeserialize.cde e : CDe RawEnd) := by
  intro r
  obtain ⟨u, h1, h2⟩ := lin_raw usizeMax r
  exact ⟨u, h1, by omega, h2⟩

theorem lin_bits (e : Endian) : Lin 0 1 1 (CDeserialize.cde e : CDe Bits) := Lin.then lin_u8 _

theorem lin_address (e : Endian) : Lin 0 11 6 (CDeserialize.cde e : CDe Address) := by
  have h4 : Lin 0 8 4 cdeIpv4 :=
    Lin.bind (lin_u8.field _ _) fun _ => Lin.bind (lin_u8.field _ _) fun _ => Lin.bind (lin_u8.field _ _) fun _ =>
      Lin.then (lin_u8.field _ _) _
  exact Lin.bind (h4.field _ _) fun _ => Lin.then ((lin_u16 e).field _ _) _

theorem lin_varlen16 (e : Endian) : Lin 2 4 2 (CDeserialize.cde e : CDe VarLen16) :=
  Lin.bind (((lin_u16 e).field _ _).mono (Nat.zero_le 2) (Nat.le_refl 2) (Nat.le_refl 2)) fun _ =>
    Lin.then (Lin.repeat (Nat.le_refl 1) lin_u8 _ _ _) _

theorem lin_varlen32 (e : Endian) : Lin 2 4 4 (CDeserialize.cde e : CDe VarLen32) :=
  Lin.bind (((lin_u32 e).field _ _).mono (Nat.zero_le 2) (Nat.le_refl 2) (Nat.le_refl 4)) fun _ =>
    Lin.then (Lin.repeat (Nat.le_refl 1) lin_u8 _ _ _) _

theorem lin_varlen64 (e : Endian) : Lin 2 3 8 (CDeserialize.cde e : CDe VarLen64) :=
  Lin.then (Lin.vec (Nat.le_refl 1) lin_u8 e) _

theorem lin_nested (e : Endian) : Lin 2 4 2 (CDeserialize.cde e : CDe NestedPacket) := Lin.then (lin_varlen16 e) _

theorem lin_header (e : Endian) : Lin 2 8 0 (CDeserialize.cde e : CDe Header) := by
  have f := fun n => (lin_u8.field noValidHeader n).mono (Nat.zero_le 2) (Nat.le_refl _) (Nat.zero_le 1)
  refine Lin.bind (D1 := 2) (D2 := 6) (m1 := 0) (m2 := 0) (f _) ?_
  rintro ⟨v0, n0⟩
  refine Lin.bind (D1 := 2) (D2 := 4) (m1 := 0) (m2 := 0) (f _) ?_
  rintro ⟨v1, n1⟩
  simp only
  split
  · exact Lin.bind (D1 := 2) (D2 := 2) (m1 := 0) (m2 := 0) (Lin.repeat (Nat.le_refl 1) lin_u8 _ _ _) fun _ =>
      Lin.then (f _) _
  · exact (Lin.fail 0 _).mono (by omega) (by omega) (by omega)

theorem lin_time (e : Endian) : Lin 0 2 8 (CDeserialize.cde e : CDe TimeDistributionPayload) :=
  Lin.then ((lin_u64 e).field _ _) _

theorem lin_puncture (e : Endian) : Lin 0 26 14 (CDeserialize.cde e : CDe PuncturePayload) :=
  Lin.bind ((lin_address e).field _ _) fun _ => Lin.bind ((lin_address e).field _ _) fun _ =>
    Lin.then ((lin_u16 e).field _ _) _

theorem lin_punctureRequest (e : Endian) : Lin 0 26 14 (CDeserialize.cde e : CDe PunctureRequestPayload) :=
  Lin.bind ((lin_address e).field _ _) fun _ => Lin.bind ((lin_address e).field _ _) fun _ =>
    Lin.then ((lin_u16 e).field _ _) _

theorem Lin.two {α : Type} {D m : Nat} {c : CDe α} (h : Lin 0 D m c) : Lin 2 D m c :=
  h.mono (Nat.zero_le 2) (Nat.le_refl _) (Nat.le_refl _)

theorem lin_introRequest (e : Endian) : Lin 2 43 21 (CDeserialize.cde e : CDe IntroductionRequestPayload) :=
  Lin.bind ((lin_address e).field _ _).two fun _ => Lin.bind ((lin_address e).field _ _).two fun _ =>
    Lin.bind ((lin_address e).field _ _).two fun _ => Lin.bind ((lin_bits e).field _ _).two fun _ =>
      Lin.bind ((lin_u16 e).field _ _).two fun _ => Lin.then ((lin_rawEnd e).field _ _) _

theorem lin_introResponse (e : Endian) : Lin 2 67 33 (CDeserialize.cde e : CDe IntroductionResponsePayload) :=
  Lin.bind ((lin_address e).field _ _).two fun _ => Lin.bind ((lin_address e).field _ _).two fun _ =>
    Lin.bind ((lin_address e).field _ _).two fun _ => Lin.bind ((lin_address e).field _ _).two fun _ =>
      Lin.bind ((lin_address e).field _ _).two fun _ => Lin.bind ((lin_bits e).field _ _).two fun _ =>
        Lin.bind ((lin_u16 e).field _ _).two fun _ => Lin.then ((lin_rawEnd e).field _ _) _

theorem Lin.lift {α : Type} (C : Nat) (o : Outcome α) : Lin C 0 0 (CDe.free (De.lift o)) := by
  intro r
  cases o with
  | ok a => exact ⟨[], rfl, by simp, by simp⟩
  | err e => show (0 : Nat) ≤ _; omega
  | panic => show (0 : Nat) ≤ _; omega

theorem lin_auth (e : Endian) : Lin 2 4 2 (CDeserialize.cde e : CDe BinMemberAuthenticationPayload) :=
  Lin.bind (lin_varlen16 e) fun _ => Lin.lift _ _

theorem deBool_eats {r r' : Bytes} {x : Bool} (h : deBool r = .ok (x, r')) : ∃ u, r = u ++ r' ∧ 1 ≤ u.length := by
  cases r with
  | nil => cases h
  | cons b r =>
    refine ⟨[b], ?_, by simp⟩
    change (if b = 0 then (pure false : De Bool) else if b = 1 then pure true else De.fail .invalidBool) r = _ at h
    split at h
    · cases h; rfl
    · split at h
      · cases h; rfl
      · cases h

theorem deChar_eats {r r' : Bytes} {x : Char} (h : deChar r = .ok (x, r')) : ∃ u, r = u ++ r' ∧ 1 ≤ u.length := by
  cases r with
  | nil => cases h
  | cons b r =>
    change (if utf8CharWidth b = 1 then (pure (Char.ofNat b.toNat) : De Char)
      else if utf8CharWidth b = 0 then De.fail .invalidChar
      else deCharRest b (utf8CharWidth b - 1)) r = _ at h
    split at h
    · cases h; exact ⟨[b], rfl, by simp⟩
    · split at h
      · cases h
      · unfold deCharRest at h
        split at h
        · rename_i bs r1 h1
          unfold deBytes at h1
          split at h1
          · cases h1
          · simp only [Outcome.ok.injEq, Prod.mk.injEq] at h1
            obtain ⟨rfl, rfl⟩ := h1
            split at h
            · split at h
              · simp only [Outcome.ok.injEq, Prod.mk.injEq] at h
                obtain ⟨_, rfl⟩ := h
                exact ⟨b :: r.take (utf8CharWidth b - 1), by simp, by simp⟩
              · cases h
            · cases h
        · cases h
        · cases h

theorem le_sum_ofFn {n : Nat} (g : Fin n → Nat) (i : Fin n) : g i ≤ (List.ofFn g).sum := by
  have hm : g i ∈ List.ofFn g := List.mem_ofFn.mpr ⟨i, rfl⟩
  generalize List.ofFn g = l at hm
  induction l with
  | nil => cases hm
  | cons x l ih =>
    rcases List.mem_cons.mp hm with h | h
    · simp [h]
    · have := ih h; simp only [List.sum_cons]; omega

theorem lin_sch (e : Endian) (s : Sch) : s.NoEmptyElements → Lin s.slope s.base s.minSize (s.cde e) := by
  induction s with
  | u8 => intro _; exact lin_u8
  | u16 => intro _; exact lin_u16 e
  | u32 => intro _; exact lin_u32 e
  | u64 => intro _; exact lin_u64 e
  | u128 => intro _; exact lin_u128 e
  | i8 => intro _; exact Lin.then lin_u8 _
  | i16 => intro _; exact Lin.then (lin_u16 e) _
  | i32 => intro _; exact Lin.then (lin_u32 e) _
  | i64 => intro _; exact Lin.then (lin_u64 e) _
  | bool => intro _; exact Lin.prim fun _ _ _ h => deBool_eats h
  | char => intro _; exact Lin.step (Lin.prim fun _ _ _ h => deChar_eats h)
  | string =>
    intro _
    refine Lin.bind (D1 := 3) (D2 := 0) (m1 := 8) (m2 := 0) (Lin.vec (Nat.le_refl 1) lin_u8 e) fun bs => ?_
    split
    · exact (Lin.pure _).two
    · exact (Lin.fail 0 _).two
  | bits => intro _; exact lin_bits e
  | address => intro _; exact lin_address e
  | varlen16 => intro _; exact lin_varlen16 e
  | varlen32 => intro _; exact lin_varlen32 e
  | varlen64 => intro _; exact lin_varlen64 e
  | nested => intro _; exact lin_nested e
  | rawEnd => intro _; exact lin_rawEnd e
  | option s ih =>
    intro hs
    refine Lin.bind (D1 := 1) (D2 := s.base) (m1 := 1) (m2 := 0)
      (lin_u8.mono (Nat.zero_le _) (Nat.le_refl _) (Nat.le_refl _)) fun b => ?_
    split
    · exact (Lin.pure _).mono (Nat.zero_le _) (Nat.zero_le _) (Nat.zero_le _)
    · split
      · exact (Lin.then (ih hs) _).mono (Nat.le_refl _) (Nat.le_refl _) (Nat.zero_le _)
      · exact (Lin.fail 0 _).mono (Nat.zero_le _) (Nat.zero_le _) (Nat.zero_le _)
  | vec s ih =>
    intro hs
    refine (Lin.vec hs.1 (ih hs.2) e).mono ?_ ?_ (Nat.le_refl _)
    · simp only [Sch.slope]; omega
    · simp only [Sch.base]; omega
  | array n s ih =>
    intro hs
    refine Lin.bind (D1 := n * (s.base + 1) + 1) (D2 := 0) (m1 := n * s.minSize) (m2 := 0) (Lin.fixed (ih hs) n)
      fun xs => ?_
    split
    · exact (Lin.pure _).mono (Nat.zero_le _) (Nat.le_refl _) (Nat.le_refl _)
    · exact (Lin.fail 0 _).mono (Nat.zero_le _) (Nat.le_refl _) (Nat.le_refl _)
  | unit => intro _; exact Lin.pure _
  | cons a b iha ihb =>
    intro hs
    exact Lin.step (Lin.bind ((iha hs.1).mono (Nat.le_add_right _ b.slope) (Nat.le_refl _) (Nat.le_refl _)) fun _ =>
      Lin.then ((ihb hs.2).mono (Nat.le_add_left _ a.slope) (Nat.le_refl _) (Nat.le_refl _)) _)
  | enum n f ih =>
    intro hs
    refine Lin.bind (D1 := 1) (m1 := 4) (m2 := 0)
      ((lin_u32 e).mono (Nat.zero_le _) (Nat.le_refl _) (Nat.le_refl _)) fun i => ?_
    split
    · rename_i hi
      exact (Lin.then (ih ⟨i.toNat, hi⟩ (hs _)) _).mono (le_sum_ofFn (fun i => (f i).slope) _)
        (le_sum_ofFn (fun i => (f i).base) _) (Nat.zero_le _)
    · exact (Lin.fail 0 _).mono (Nat.zero_le _) (Nat.zero_le _) (Nat.zero_le _)

/-! ## The theorems -/

/-- C87. The counted readers answer exactly as those of the model. -/
theorem C87_same (e : Endian) :
    SameReader (CDeserialize.cde e : CDe Header) (Deserialize.de e) ∧
    SameReader (CDeserialize.cde e : CDe Bits) (Deserialize.de e) ∧
    SameReader (CDeserialize.cde e : CDe Address) (Deserialize.de e) ∧
    SameReader (CDeserialize.cde e : CDe VarLen16) (Deserialize.de e) ∧
    SameReader (CDeserialize.cde e : CDe VarLen32) (Deserialize.de e) ∧
    SameReader (CDeserialize.cde e : CDe VarLen64) (Deserialize.de e) ∧
    SameReader (CDeserialize.cde e : CDe RawEnd) (Deserialize.de e) ∧
    SameReader (CDeserialize.cde e : CDe NestedPacket) (Deserialize.de e) ∧
    SameReader (CDeserialize.cde e : CDe TimeDistributionPayload) (Deserialize.de e) ∧
    SameReader (CDeserialize.cde e : CDe PuncturePayload) (Deserialize.de e) ∧
    SameReader (CDeserialize.cde e : CDe PunctureRequestPayload) (Deserialize.de e) ∧
    SameReader (CDeserialize.cde e : CDe IntroductionRequestPayload) (Deserialize.de e) ∧
    SameReader (CDeserialize.cde e : CDe IntroductionResponsePayload) (Deserialize.de e) ∧
    SameReader (CDeserialize.cde e : CDe BinMemberAuthenticationPayload) (Deserialize.de e) ∧
    ∀ s : Sch, SameReader (s.cde e) (s.de e) :=
  ⟨same_header e, same_bits e, same_address e, same_varlen16 e, same_varlen32 e, same_varlen64 e, same_rawEnd e,
    same_nested e, same_time e, same_puncture e, same_punctureRequest e, same_introRequest e, same_introResponse e,
    same_auth e, same_sch e⟩

/-- C87. Whatever bytes somebody sends, reading a header or a payload of the crate from them, successfully or not,
takes at most two steps per byte and a few more: no length field makes it more. -/
theorem C87 (e : Endian) :
    StepsAtMost (CDeserialize.cde e : CDe Header) 2 8 ∧
    StepsAtMost (CDeserialize.cde e : CDe Bits) 0 1 ∧
    StepsAtMost (CDeserialize.cde e : CDe Address) 0 11 ∧
    StepsAtMost (CDeserialize.cde e : CDe VarLen16) 2 4 ∧
    StepsAtMost (CDeserialize.cde e : CDe VarLen32) 2 4 ∧
    StepsAtMost (CDeserialize.cde e : CDe VarLen64) 2 3 ∧
    StepsAtMost (CDeserialize.cde e : CDe RawEnd) 2 2 ∧
    StepsAtMost (CDeserialize.cde e : CDe NestedPacket) 2 4 ∧
    StepsAtMost (CDeserialize.cde e : CDe TimeDistributionPayload) 0 2 ∧
    StepsAtMost (CDeserialize.cde e : CDe PuncturePayload) 0 26 ∧
    StepsAtMost (CDeserialize.cde e : CDe PunctureRequestPayload) 0 26 ∧
    StepsAtMost (CDeserialize.cde e : CDe IntroductionRequestPayload) 2 43 ∧
    StepsAtMost (CDeserialize.cde e : CDe IntroductionResponsePayload) 2 67 ∧
    StepsAtMost (CDeserialize.cde e : CDe BinMemberAuthenticationPayload) 2 4 :=
  ⟨(lin_header e).steps, (lin_bits e).steps, (lin_address e).steps, (lin_varlen16 e).steps, (lin_varlen32 e).steps,
    (lin_varlen64 e).steps, (lin_rawEnd e).steps, (lin_nested e).steps, (lin_time e).steps, (lin_puncture e).steps,
    (lin_punctureRequest e).steps, (lin_introRequest e).steps, (lin_introResponse e).steps, (lin_auth e).steps⟩

/-- C87. The same holds of payloads an application derives, with constants that depend on the type only, unless the
type has a vector whose elements may be empty. -/
theorem C87_derived (e : Endian) (s : Sch) (hs : s.NoEmptyElements) : StepsAtMost (s.cde e) s.slope s.base :=
  (lin_sch e s hs).steps

theorem raw_steps : ∀ n r, (crawLoop n r).2 = if r.length < n then 2 * r.length + 2 else 2 * n + 1
  | 0, r => by simp [crawLoop]
  | n + 1, [] => by simp [crawLoop, deU8]
  | n + 1, b :: r => by
    have := raw_steps n r
    simp only [crawLoop, deU8, List.length_cons]
    rw [this]
    split <;> split <;> omega

/-- C87. A `RawEnd` takes two steps for every byte there is, and two to find that there are no more. -/
theorem C87_rawend (e : Endian) (r : Bytes) (h : r.length < usizeMax) :
    (CDeserialize.cde e : CDe RawEnd) r = (.ok (⟨r⟩, []), 2 * r.length + 2) := by
  show (Outcome.ok (RawEnd.mk (crawLoop usizeMax r).1.1, (crawLoop usizeMax r).1.2), (crawLoop usizeMax r).2) = _
  rw [raw_steps, same_raw, rawLoop_eq, if_pos h, List.take_of_length_le (by omega), List.drop_of_length_le (by omega)]

theorem empty_loop : ∀ (n : Nat) (r : Bytes), n ≤ (cvecLoop (Sch.unit.cde .big) n r).2
  | 0, _ => Nat.zero_le _
  | n + 1, r => by
    have h := empty_loop n r
    have hs : cvecLoop (Sch.unit.cde .big) (n + 1) r = CDe.bind CDe.step (fun _ => CDe.bind (CDe.pure ()) fun a =>
        CDe.bind (cvecLoop (Sch.unit.cde .big) n) fun as => CDe.pure (a :: as)) r := rfl
    rw [hs]
    simp only [CDe.bind, CDe.step, CDe.pure]
    cases hc : cvecLoop (Sch.unit.cde .big) n r with
    | mk o x =>
      rw [hc] at h
      cases o <;> simp only at h ⊢ <;> omega

/-- C87. With such a vector, eight bytes keep the reader busy for as long as the sender likes: `2^64 - 1` steps and
more. -/
theorem C87_empty (n : UInt64) : n.toNat ≤ ((Sch.vec .unit).cde .big (be64 n.toNat)).2 := by
  have h1 : deU64 .big (be64 n.toNat) = .ok (n, []) := by
    rw [← be64_eq]
    have := deU64_tok .big n []
    simpa [Tok.bytes] using this
  show n.toNat ≤ (CDe.bind (CDe.prim (deU64 .big)) (fun k => cvecLoop (Sch.unit.cde .big) k.toNat) (be64 n.toNat)).2
  simp only [CDe.bind, CDe.prim, h1]
  have := empty_loop n.toNat []
  omega

/-! ## `next_payload` and whole packets -/

/-- The counted reader of a payload type. -/
instance (k : Kind) : CDeserialize k.Ty :=
  match k with
  | .varlen16 => inferInstanceAs (CDeserialize VarLen16)
  | .varlen32 => inferInstanceAs (CDeserialize VarLen32)
  | .varlen64 => inferInstanceAs (CDeserialize VarLen64)
  | .nested => inferInstanceAs (CDeserialize NestedPacket)
  | .time => inferInstanceAs (CDeserialize TimeDistributionPayload)
  | .puncture => inferInstanceAs (CDeserialize PuncturePayload)
  | .punctureRequest => inferInstanceAs (CDeserialize PunctureRequestPayload)
  | .introRequest => inferInstanceAs (CDeserialize IntroductionRequestPayload)
  | .introResponse => inferInstanceAs (CDeserialize IntroductionResponsePayload)
  | .auth => inferInstanceAs (CDeserialize BinMemberAuthenticationPayload)
  | .derived s => inferInstanceAs (CDeserialize (Derived s))

/-- No vector in the type whose elements may be empty. -/
def Kind.NoEmptyElements : Kind → Prop
  | .derived s => s.NoEmptyElements
  | _ => True

/-- Steps per byte of a read, at most. -/
def Kind.slope : Kind → Nat
  | .time => 0
  | .puncture => 0
  | .punctureRequest => 0
  | .derived s => s.slope
  | _ => 2

/-- Further steps of a read, at most. -/
def Kind.base : Kind → Nat
  | .varlen16 => 4
  | .varlen32 => 4
  | .varlen64 => 3
  | .nested => 4
  | .time => 2
  | .puncture => 26
  | .punctureRequest => 26
  | .introRequest => 43
  | .introResponse => 67
  | .auth => 4
  | .derived s => s.base

theorem same_kind (e : Endian) (κ : Kind) :
    SameReader (CDeserialize.cde e : CDe κ.Ty) (Deserialize.de e : De κ.Ty) := by
  cases κ with
  | varlen16 => exact same_varlen16 e
  | varlen32 => exact same_varlen32 e
  | varlen64 => exact same_varlen64 e
  | nested => exact same_nested e
  | time => exact same_time e
  | puncture => exact same_puncture e
  | punctureRequest => exact same_punctureRequest e
  | introRequest => exact same_introRequest e
  | introResponse => exact same_introResponse e
  | auth => exact same_auth e
  | derived s => exact same_bind (same_sch e s) fun a => same_pure _

theorem steps_kind (e : Endian) (κ : Kind) (hκ : κ.NoEmptyElements) :
    StepsAtMost (CDeserialize.cde e : CDe κ.Ty) κ.slope κ.base := by
  cases κ with
  | varlen16 => exact (lin_varlen16 e).steps
  | varlen32 => exact (lin_varlen32 e).steps
  | varlen64 => exact (lin_varlen64 e).steps
  | nested => exact (lin_nested e).steps
  | time => exact (lin_time e).steps
  | puncture => exact (lin_puncture e).steps
  | punctureRequest => exact (lin_punctureRequest e).steps
  | introRequest => exact (lin_introRequest e).steps
  | introResponse => exact (lin_introResponse e).steps
  | auth => exact (lin_auth e).steps
  | derived s => exact (Lin.then (lin_sch e s hκ) _).steps

theorem length_le_sizes (ts : List Tok) : ts.length ≤ (ts.map Tok.size).sum := by
  induction ts with
  | nil => exact Nat.le_refl _
  | cons t ts ih =>
    have : 1 ≤ t.size := by cases t <;> simp [Tok.size]
    simp only [List.length_cons, List.map_cons, List.sum_cons]
    omega

theorem sizeSteps_le {α : Type} [Serialize α] (v : α) (n : Nat) (h : Bincode.serializedSize v = .ok n) :
    sizeSteps v ≤ n := by
  unfold Bincode.serializedSize at h
  unfold sizeSteps
  cases hs : (Serialize.ser v : Outcome (List Tok)) with
  | ok ts =>
    rw [hs] at h
    simp only [Outcome.ok.injEq] at h
    have := length_le_sizes ts
    simp only
    omega
  | err x => exact Nat.zero_le _
  | panic => exact Nat.zero_le _

/-- C87. Counting does not change what `next_payload` does. -/
theorem C87_next_same (κ : Kind) (d : PacketDeserializer) : (d.cnextPayload κ.Ty).1 = d.nextPayload κ.Ty := by
  unfold PacketDeserializer.cnextPayload PacketDeserializer.nextPayload
  cases hsl : sliceFrom d.pntr.bytes d.index with
  | ok s =>
    have h := same_kind .big κ s
    simp only [Bincode.deserialize]
    rw [← h]
    cases hc : (CDeserialize.cde .big : CDe κ.Ty) s with
    | mk o n =>
      cases o with
      | ok x => cases hz : Bincode.serializedSize x.1 <;> simp [hz]
      | err x => rfl
      | panic => rfl
  | err x => rfl
  | panic => rfl

/-- C87. A `next_payload`, with the size pass it makes to move the cursor, takes time linear in the bytes that
are left in the packet, whatever they are and whatever comes of it. -/
theorem C87_next (κ : Kind) (hκ : κ.NoEmptyElements) (d : PacketDeserializer)
    (hl : d.pntr.bytes.length ≤ usizeMax) :
    (d.cnextPayload κ.Ty).2 ≤ (κ.slope + 1) * (d.pntr.bytes.length - d.index) + κ.base := by
  have hsame := C87_next_same κ d
  unfold PacketDeserializer.cnextPayload at hsame ⊢
  cases hsl : sliceFrom d.pntr.bytes d.index with
  | ok s =>
    have hs : s.length = d.pntr.bytes.length - d.index := by
      unfold sliceFrom at hsl
      split at hsl
      · simp only [Outcome.ok.injEq] at hsl
        rw [← hsl, List.length_drop]
      · exact absurd hsl (by simp)
    have h1 := steps_kind .big κ hκ s
    rw [hsl] at hsame
    simp only at hsame ⊢
    cases hc : (CDeserialize.cde .big : CDe κ.Ty) s with
    | mk o n =>
      rw [hc] at h1 hsame
      rw [hs] at h1
      simp only at h1
      have hm : (κ.slope + 1) * (d.pntr.bytes.length - d.index) + κ.base =
          κ.slope * (d.pntr.bytes.length - d.index) + κ.base + (d.pntr.bytes.length - d.index) := by
        rw [Nat.add_mul]; omega
      rw [hm]
      cases o with
      | ok x =>
        obtain ⟨v, r'⟩ := x
        simp only at hsame ⊢
        have hsz : sizeSteps v ≤ d.pntr.bytes.length - d.index := by
          cases hz : Bincode.serializedSize v with
          | ok k =>
            rw [hz] at hsame
            simp only at hsame
            have h2 := sizeSteps_le v k hz
            have h3 : d.index + k ≤ d.pntr.bytes.length := by
              by_cases ha : κ = .auth
              · subst ha
                obtain ⟨c, _, _, _, h5, _⟩ := C17_auth d _ v hsame.symm
                exact h5
              · obtain ⟨m, h4, h5, _⟩ := C17_partial κ ha d _ v hl hsame.symm
                exact h5
            omega
          | err x =>
            rw [show sizeSteps v = 0 from by
              unfold Bincode.serializedSize at hz
              unfold sizeSteps
              cases hq : (Serialize.ser v : Outcome (List Tok)) <;> simp_all]
            exact Nat.zero_le _
          | panic =>
            rw [show sizeSteps v = 0 from by
              unfold Bincode.serializedSize at hz
              unfold sizeSteps
              cases hq : (Serialize.ser v : Outcome (List Tok)) <;> simp_all]
            exact Nat.zero_le _
        cases hz : Bincode.serializedSize v <;> simp only <;> omega
      | err x => simp only; omega
      | panic => simp only; omega
  | err x => exact Nat.zero_le _
  | panic => exact Nat.zero_le _

/-- A `VarLen32` that announces four gigabytes and has three bytes: ten steps, and an error. -/
example : (CDeserialize.cde .big : CDe VarLen32) [255, 255, 255, 255, 1, 2, 3] = (.err .eof, 10) := by
  simp [CDeserialize.cde]; rfl

/-! ## Cases for the theorems above -/

/-- `C87_derived`: `struct { Vec<u16>, String }`. -/
example (r : Bytes) : ((Sch.cons (.vec .u16) (.cons .string .unit)).cde .big r).2 ≤
    (Sch.cons (.vec .u16) (.cons .string .unit)).slope * r.length + (Sch.cons (.vec .u16) (.cons .string .unit)).base :=
  C87_derived .big (.cons (.vec .u16) (.cons .string .unit)) ⟨⟨by decide, trivial⟩, trivial, trivial⟩ r

/-- `C87_rawend` -/
example : (CDeserialize.cde .big : CDe RawEnd) [1, 2, 3] = (.ok (⟨[1, 2, 3]⟩, []), 8) :=
  C87_rawend .big [1, 2, 3] (by decide)

/-- `C87_next`: that struct, anywhere in a packet. -/
example (d : PacketDeserializer) (hl : d.pntr.bytes.length ≤ usizeMax) :=
  C87_next (.derived (.cons (.vec .u16) (.cons .string .unit))) ⟨⟨by decide, trivial⟩, trivial, trivial⟩ d hl

end Ipv8
