import Verif.Model.Writer
import Verif.Props.Memory
import Verif.Props.Crypto
/-!
# C94: what writing costs, and that a refused payload leaves no trace
-/

namespace Ipv8

open Wr

/-! ## Specification -/

/-- What came of a writer, as far as `Model/Serde.lean` knows: the values if it succeeded, else only the error. -/
def Wr.result (w : Wr) : Outcome (List Tok) :=
  match w.out with
  | .ok () => .ok w.toks
  | .err e => .err e
  | .panic => .panic

/-- The calls a writer of a derived type makes in any case, at most. -/
def Sch.wbase : Sch → Nat
  | .char => 4
  | .string => 1
  | .bits => 3
  | .address => 9
  | .varlen16 => 3
  | .varlen32 => 3
  | .varlen64 => 3
  | .nested => 6
  | .rawEnd => 2
  | .option s => s.wbase + 1
  | .vec _ => 2
  | .array n s => n * (s.wbase + 1) + 2
  | .cons a b => a.wbase + b.wbase + 1
  | .enum _ f => (List.ofFn fun i => (f i).wbase).sum + 1
  | _ => 1

/-- The calls it makes for every element of a vector or byte of a string, at most. -/
def Sch.wrate : Sch → Nat
  | .string => 1
  | .varlen16 => 1
  | .varlen32 => 1
  | .varlen64 => 1
  | .nested => 1
  | .rawEnd => 1
  | .option s => s.wrate
  | .vec s => max s.wrate (s.wbase + 1)
  | .array _ s => s.wrate
  | .cons a b => max a.wrate b.wrate
  | .enum _ f => (List.ofFn fun i => (f i).wrate).sum
  | _ => 0

/-- The number of elements in a payload whose number is not fixed by its type. -/
def Kind.elements : (κ : Kind) → κ.Ty → Nat
  | .varlen16, x => (VarLen16.data x).length
  | .varlen32, x => (VarLen32.data x).length
  | .varlen64, x => (VarLen64.data x).length
  | .nested, x => (NestedPacket.packet x).bytes.length
  | .introRequest, x => (IntroductionRequestPayload.extraBytes x).data.length
  | .introResponse, x => (IntroductionResponsePayload.extraBytes x).data.length
  | .derived s, x => s.elements x.val
  | _, _ => 0

/-- The calls a payload's writer makes in any case, at most. -/
def Kind.wbase : Kind → Nat
  | .varlen16 => 3
  | .varlen32 => 3
  | .varlen64 => 3
  | .nested => 6
  | .time => 3
  | .puncture => 23
  | .punctureRequest => 23
  | .introRequest => 40
  | .introResponse => 60
  | .auth => 77
  | .derived s => s.wbase

/-- The calls it makes for every element, at most. -/
def Kind.wrate : Kind → Nat
  | .derived s => s.wrate
  | _ => 1

/-! ## The counting writers are the writers -/

theorem obind_ok {α : Type} (o : Outcome α) : (o >>= fun y => Outcome.ok y) = o := by cases o <;> rfl

theorem obind_assoc {α β γ : Type} (o : Outcome α) (f : α → Outcome β) (g : β → Outcome γ) :
    ((o >>= f) >>= g) = (o >>= fun a => f a >>= g) := by cases o <;> rfl

@[simp] theorem result_put (t : Tok) : (put t).result = .ok [t] := rfl
@[simp] theorem result_call : call.result = .ok [] := rfl
@[simp] theorem result_done : done.result = .ok [] := rfl
@[simp] theorem result_copy (n : Nat) : (copy n).result = .ok [] := rfl
@[simp] theorem result_fail (e : Error) : (Wr.fail e).result = .err e := rfl

@[simp] theorem result_andThen (a b : Wr) : (a ⨟ b).result = (do
    let x ← a.result
    let y ← b.result
    pure (x ++ y)) := by
  unfold Wr.result Wr.andThen
  rcases h : a.out with ⟨⟨⟩⟩ | e | _
  · simp only [h]
    rcases h' : b.out with ⟨⟨⟩⟩ | e | _ <;> simp only [h'] <;> rfl
  · rfl
  · rfl

@[simp] theorem result_puts (bs : Bytes) : (puts bs).result = .ok (bs.map .u8) := by
  induction bs with
  | nil => rfl
  | cons b bs ih => simp [puts, ih]

theorem result_each {α : Type} {f : α → Wr} {g : α → Outcome (List Tok)} (h : ∀ x, (f x).result = g x) (xs : List α) :
    (each f xs).result = serSeq g xs := by
  induction xs with
  | nil => rfl
  | cons x xs ih => simp [each, serSeq, ih, h, obind_ok, obind_assoc]

theorem result_bits (b : Bits) : (WSerialize.wr b).result = Serialize.ser b := rfl

theorem result_address (a : Address) : (WSerialize.wr a).result = Serialize.ser a := by
  obtain ⟨s⟩ := a
  cases s <;> rfl

theorem result_varlen16 (v : VarLen16) : (WSerialize.wr v).result = Serialize.ser v := by
  simp only [WSerialize.wr, Serialize.ser]
  split <;> simp

theorem result_varlen32 (v : VarLen32) : (WSerialize.wr v).result = Serialize.ser v := by
  simp only [WSerialize.wr, Serialize.ser]
  split <;> simp

theorem result_varlen64 (v : VarLen64) : (WSerialize.wr v).result = Serialize.ser v := by
  simp [WSerialize.wr, Serialize.ser, wvec, serVec]

theorem result_rawEnd (v : RawEnd) : (WSerialize.wr v).result = Serialize.ser v := by
  simp [WSerialize.wr, Serialize.ser]

theorem result_header (h : Header) : (WSerialize.wr h).result = Serialize.ser h := by
  obtain ⟨size, version, hash, type⟩ := h
  cases version
  cases hash <;> cases type <;> simp [WSerialize.wr, Serialize.ser, Outcome.ofOption]

theorem result_nested (p : NestedPacket) : (WSerialize.wr p).result = Serialize.ser p := by
  have := result_varlen16 ⟨p.packet.bytes⟩
  simp only [WSerialize.wr, Serialize.ser] at this ⊢
  simp [this, obind_ok]

theorem result_time (p : TimeDistributionPayload) : (WSerialize.wr p).result = Serialize.ser p := rfl

theorem result_puncture (p : PuncturePayload) : (WSerialize.wr p).result = Serialize.ser p := by
  obtain ⟨a, b, i⟩ := p
  show (call ⨟ (call ⨟ WSerialize.wr a) ⨟ (call ⨟ WSerialize.wr b) ⨟ put (.u16 i) ⨟ call).result =
    (do
      let a ← Serialize.ser a
      let b ← Serialize.ser b
      pure (a ++ b ++ [.u16 i]))
  simp [result_address, obind_ok, obind_assoc]

theorem result_punctureRequest (p : PunctureRequestPayload) : (WSerialize.wr p).result = Serialize.ser p :=
  result_puncture ⟨p.lanWalkerAddress, p.wanWalkerAddress, p.identifier⟩

theorem result_introRequest (p : IntroductionRequestPayload) : (WSerialize.wr p).result = Serialize.ser p := by
  obtain ⟨a, b, c, adv, ct, i, x⟩ := p
  show (call ⨟ (call ⨟ WSerialize.wr a) ⨟ (call ⨟ WSerialize.wr b) ⨟ (call ⨟ WSerialize.wr c) ⨟
      (call ⨟ WSerialize.wr (Bits.fromBools ct.encode.1 ct.encode.2 false false false false false adv)) ⨟
      put (.u16 i) ⨟ (call ⨟ WSerialize.wr x) ⨟ call).result =
    (do
      let d ← Serialize.ser a
      let l ← Serialize.ser b
      let w ← Serialize.ser c
      let f ← Serialize.ser (Bits.fromBools ct.encode.1 ct.encode.2 false false false false false adv)
      let y ← Serialize.ser x
      pure (d ++ l ++ w ++ f ++ [.u16 i] ++ y))
  simp [result_address, result_bits, result_rawEnd, obind_ok, obind_assoc]

theorem result_introResponse (p : IntroductionResponsePayload) : (WSerialize.wr p).result = Serialize.ser p := by
  obtain ⟨a, b, c, d, e, t, ct, i, x⟩ := p
  have h1 : WSerialize.wr (⟨a, b, c, d, e, t, ct, i, x⟩ : IntroductionResponsePayload) =
      (call ⨟ (call ⨟ WSerialize.wr a) ⨟ (call ⨟ WSerialize.wr b) ⨟ (call ⨟ WSerialize.wr c) ⨟
      (call ⨟ WSerialize.wr d) ⨟ (call ⨟ WSerialize.wr e) ⨟
      (call ⨟ WSerialize.wr (Bits.fromBools ct.encode.1 ct.encode.2 false false false false false false)) ⨟
      put (.u16 i) ⨟ (call ⨟ WSerialize.wr x) ⨟ call) := rfl
  have h2 : Serialize.ser (⟨a, b, c, d, e, t, ct, i, x⟩ : IntroductionResponsePayload) =
    (do
      let a ← Serialize.ser a
      let b ← Serialize.ser b
      let c ← Serialize.ser c
      let d ← Serialize.ser d
      let e ← Serialize.ser e
      let f ← Serialize.ser (Bits.fromBools ct.encode.1 ct.encode.2 false false false false false false)
      let y ← Serialize.ser x
      pure (a ++ b ++ c ++ d ++ e ++ f ++ [.u16 i] ++ y)) := rfl
  rw [h1, h2]
  simp [result_address, result_bits, result_rawEnd, obind_ok, obind_assoc]

theorem result_auth (p : BinMemberAuthenticationPayload) : (WSerialize.wr p).result = Serialize.ser p := by
  simp [WSerialize.wr, Serialize.ser]

theorem result_signature (p : Signature) : (WSerialize.wr p).result = Serialize.ser p := by
  simp [WSerialize.wr, Serialize.ser]

theorem result_sch (s : Sch) : ∀ x : s.Ty, (s.wr x).result = s.ser x := by
  induction s with
  | char => intro x; simp [Sch.wr, Sch.ser]
  | string => intro x; simp [Sch.wr, Sch.ser]
  | bits => exact result_bits
  | address => exact result_address
  | varlen16 => exact result_varlen16
  | varlen32 => exact result_varlen32
  | varlen64 => exact result_varlen64
  | nested => exact result_nested
  | rawEnd => exact result_rawEnd
  | option s ih =>
    intro x
    cases x with
    | none => rfl
    | some x => simp [Sch.wr, Sch.ser, ih]
  | vec s ih => intro x; simp [Sch.wr, Sch.ser, result_each ih, obind_ok, obind_assoc]
  | array n s ih => intro x; simp [Sch.wr, Sch.ser, result_each ih, obind_ok, obind_assoc]
  | cons a b iha ihb => intro x; simp [Sch.wr, Sch.ser, iha, ihb, obind_ok, obind_assoc]
  | enum n f ih => intro x; simp [Sch.wr, Sch.ser, ih, obind_ok, obind_assoc]
  | _ => intro x; rfl

theorem result_kind (κ : Kind) (v : κ.Ty) : (WSerialize.wr v).result = Serialize.ser v := by
  cases κ with
  | varlen16 => exact result_varlen16 v
  | varlen32 => exact result_varlen32 v
  | varlen64 => exact result_varlen64 v
  | nested => exact result_nested v
  | time => exact result_time v
  | puncture => exact result_puncture v
  | punctureRequest => exact result_punctureRequest v
  | introRequest => exact result_introRequest v
  | introResponse => exact result_introResponse v
  | auth => exact result_auth v
  | derived s => exact result_sch s v.val

/-! ## Steps and copies -/

theorem steps_andThen (a b : Wr) : (a ⨟ b).steps ≤ a.steps + b.steps := by
  unfold Wr.andThen
  split <;> simp

theorem copied_andThen (a b : Wr) : (a ⨟ b).copied ≤ a.copied + b.copied := by
  unfold Wr.andThen
  split <;> simp

/-- At most so many calls and so many bytes copied. -/
def Wr.Within (w : Wr) (n c : Nat) : Prop := w.steps ≤ n ∧ w.copied ≤ c

theorem Wr.Within.mono {w : Wr} {n c n' c' : Nat} (h : w.Within n c) (hn : n ≤ n') (hc : c ≤ c') : w.Within n' c' :=
  ⟨Nat.le_trans h.1 hn, Nat.le_trans h.2 hc⟩

theorem Wr.Within.seq {a b : Wr} {n c n' c' : Nat} (h : a.Within n c) (h' : b.Within n' c') :
    (a ⨟ b).Within (n + n') (c + c') :=
  ⟨Nat.le_trans (steps_andThen a b) (Nat.add_le_add h.1 h'.1),
    Nat.le_trans (copied_andThen a b) (Nat.add_le_add h.2 h'.2)⟩

theorem within_put (t : Tok) : (put t).Within 1 0 := ⟨Nat.le_refl _, Nat.le_refl _⟩
theorem within_call : call.Within 1 0 := ⟨Nat.le_refl _, Nat.le_refl _⟩
theorem within_done : done.Within 0 0 := ⟨Nat.le_refl _, Nat.le_refl _⟩
theorem within_copy (n : Nat) : (copy n).Within 0 n := ⟨Nat.le_refl _, Nat.le_refl _⟩
theorem within_fail (e : Error) : (Wr.fail e).Within 0 0 := ⟨Nat.le_refl _, Nat.le_refl _⟩

theorem within_puts (bs : Bytes) : (puts bs).Within bs.length 0 := by
  induction bs with
  | nil => exact within_done
  | cons b bs ih => exact (Within.seq (within_put _) ih).mono (by simp [Nat.add_comm]) (Nat.le_refl _)

theorem within_each {α : Type} {f : α → Wr} {g c : α → Nat} {A F : Nat} (h : ∀ x, (f x).Within (A * g x + F) (c x))
    (xs : List α) :
    (each f xs).Within (A * (xs.map g).sum + xs.length * (F + 1)) ((xs.map c).sum) := by
  induction xs with
  | nil => exact within_done.mono (Nat.zero_le _) (Nat.zero_le _)
  | cons x xs ih =>
    refine (Within.seq within_call (Within.seq (h x) ih)).mono ?_ ?_
    · simp only [List.map_cons, List.sum_cons, List.length_cons, Nat.mul_add, Nat.add_mul]
      omega
    · simp

theorem within_bits (b : Bits) : (WSerialize.wr b).Within 3 0 :=
  Within.seq within_call (Within.seq (within_put _) within_call)

theorem within_address (a : Address) : (WSerialize.wr a).Within 9 0 := by
  obtain ⟨s⟩ := a
  cases s with
  | v4 a b c d p =>
    exact Within.seq within_call (Within.seq (Within.seq within_call (Within.seq (within_puts _) within_call))
      (Within.seq (within_put _) within_call))
  | v6 _ _ _ _ => exact (within_fail _).mono (Nat.zero_le _) (Nat.le_refl _)

theorem within_varlen16 (v : VarLen16) : (WSerialize.wr v).Within (v.data.length + 3) 0 := by
  simp only [WSerialize.wr]
  split
  · exact (within_fail _).mono (Nat.zero_le _) (Nat.le_refl _)
  · exact (Within.seq within_call (Within.seq (within_put _) (Within.seq (within_puts _) within_call))).mono
      (by omega) (Nat.le_refl _)

theorem within_varlen32 (v : VarLen32) : (WSerialize.wr v).Within (v.data.length + 3) 0 := by
  simp only [WSerialize.wr]
  split
  · exact (within_fail _).mono (Nat.zero_le _) (Nat.le_refl _)
  · exact (Within.seq within_call (Within.seq (within_put _) (Within.seq (within_puts _) within_call))).mono
      (by omega) (Nat.le_refl _)

theorem within_varlen64 (v : VarLen64) : (WSerialize.wr v).Within (v.data.length + 3) 0 :=
  (Within.seq within_call (Within.seq (within_put _) (Within.seq (within_puts _) within_call))).mono
      (by omega) (Nat.le_refl _)

theorem within_rawEnd (v : RawEnd) : (WSerialize.wr v).Within (v.data.length + 2) 0 :=
  (Within.seq within_call (Within.seq (within_puts _) within_call)).mono (by omega) (Nat.le_refl _)

theorem within_nested (v : NestedPacket) :
    (WSerialize.wr v).Within (v.packet.bytes.length + 6) v.packet.bytes.length :=
  (Within.seq (within_copy _) (Within.seq within_call (Within.seq within_call
    (Within.seq (within_varlen16 _) within_call)))).mono (by simp only []; omega) (Nat.le_refl _)

theorem within_sch (s : Sch) : ∀ x : s.Ty, (s.wr x).Within (s.wrate * s.elements x + s.wbase) (s.copied x) := by
  induction s with
  | char =>
    intro x
    refine (within_puts _).mono ?_ (Nat.le_refl _)
    rw [String.length_utf8EncodeChar]
    exact Nat.le_trans (Char.utf8Size_le_four x) (Nat.le_add_left _ _)
  | string =>
    intro x
    refine (Within.seq (within_put _) (within_puts _)).mono ?_ (Nat.le_refl _)
    simp [Sch.wrate, Sch.wbase, Sch.elements, Nat.add_comm]
  | bits => intro x; exact (within_bits x).mono (Nat.le_add_left _ _) (Nat.le_refl _)
  | address => intro x; exact (within_address x).mono (Nat.le_add_left _ _) (Nat.le_refl _)
  | varlen16 => intro x; exact (within_varlen16 x).mono (by simp [Sch.wrate, Sch.wbase, Sch.elements]) (Nat.le_refl _)
  | varlen32 => intro x; exact (within_varlen32 x).mono (by simp [Sch.wrate, Sch.wbase, Sch.elements]) (Nat.le_refl _)
  | varlen64 => intro x; exact (within_varlen64 x).mono (by simp [Sch.wrate, Sch.wbase, Sch.elements]) (Nat.le_refl _)
  | nested => intro x; exact (within_nested x).mono (by simp [Sch.wrate, Sch.wbase, Sch.elements]) (Nat.le_refl _)
  | rawEnd => intro x; exact (within_rawEnd x).mono (by simp [Sch.wrate, Sch.wbase, Sch.elements]) (Nat.le_refl _)
  | option s ih =>
    intro x
    cases x with
    | none => exact (within_put _).mono (by simp [Sch.wbase]; omega) (Nat.zero_le _)
    | some x =>
      refine (Within.seq (within_put _) (ih x)).mono ?_ (by simp [Sch.copied])
      simp only [Sch.wrate, Sch.wbase, Sch.elements]
      omega
  | vec s ih =>
    intro (x : List s.Ty)
    refine (Within.seq (within_put _) (Within.seq (within_each ih x) within_call)).mono ?_ (by simp [Sch.copied])
    simp only [Sch.wrate, Sch.wbase, Sch.elements, Nat.mul_add]
    have h1 := Nat.mul_le_mul_right (List.map s.elements x).sum (Nat.le_max_left s.wrate (s.wbase + 1))
    have h2 := Nat.mul_le_mul_left x.length (Nat.le_max_right s.wrate (s.wbase + 1))
    rw [Nat.mul_comm x.length (max _ _), Nat.mul_add] at h2
    omega
  | array n s ih =>
    intro x
    refine (Within.seq within_call (Within.seq (within_each ih x.val) within_call)).mono ?_ (by simp [Sch.copied])
    simp only [Sch.wrate, Sch.wbase, Sch.elements, x.2]
    omega
  | cons a b iha ihb =>
    intro x
    refine (Within.seq within_call (Within.seq (iha x.1) (ihb x.2))).mono ?_ (by simp [Sch.copied])
    simp only [Sch.wrate, Sch.wbase, Sch.elements, Nat.mul_add]
    have h1 := Nat.mul_le_mul_right (a.elements x.1) (Nat.le_max_left a.wrate b.wrate)
    have h2 := Nat.mul_le_mul_right (b.elements x.2) (Nat.le_max_right a.wrate b.wrate)
    omega
  | enum n f ih =>
    intro x
    refine (Within.seq (within_put _) (ih x.1 x.2)).mono ?_ (by simp [Sch.copied])
    simp only [Sch.wrate, Sch.wbase, Sch.elements]
    have h1 := le_sum_ofFn (fun i => (f i).wbase) x.1
    have h2 := Nat.mul_le_mul_right ((f x.1).elements x.2) (le_sum_ofFn (fun i => (f i).wrate) x.1)
    omega
  | unit => intro x; exact within_call.mono (by simp [Sch.wbase]) (Nat.zero_le _)
  | _ => intro x; exact (within_put _).mono (by simp [Sch.wbase]) (Nat.zero_le _)

theorem within_time (p : TimeDistributionPayload) : (WSerialize.wr p).Within 3 0 :=
  Within.seq within_call (Within.seq (within_put _) within_call)

theorem within_puncture (p : PuncturePayload) : (WSerialize.wr p).Within 23 0 :=
  Within.seq within_call (Within.seq (Within.seq within_call (within_address _))
    (Within.seq (Within.seq within_call (within_address _)) (Within.seq (within_put _) within_call)))

theorem within_introRequest (p : IntroductionRequestPayload) :
    (WSerialize.wr p).Within (p.extraBytes.data.length + 40) 0 :=
  (Within.seq within_call (Within.seq (Within.seq within_call (within_address _))
    (Within.seq (Within.seq within_call (within_address _)) (Within.seq (Within.seq within_call (within_address _))
    (Within.seq (Within.seq within_call (within_bits _)) (Within.seq (within_put _)
    (Within.seq (Within.seq within_call (within_rawEnd _)) within_call))))))).mono (by omega) (Nat.le_refl _)

theorem within_introResponse (p : IntroductionResponsePayload) :
    (WSerialize.wr p).Within (p.extraBytes.data.length + 60) 0 :=
  (Within.seq within_call (Within.seq (Within.seq within_call (within_address _))
    (Within.seq (Within.seq within_call (within_address _)) (Within.seq (Within.seq within_call (within_address _))
    (Within.seq (Within.seq within_call (within_address _)) (Within.seq (Within.seq within_call (within_address _))
    (Within.seq (Within.seq within_call (within_bits _)) (Within.seq (within_put _)
    (Within.seq (Within.seq within_call (within_rawEnd _)) within_call))))))))).mono (by omega) (Nat.le_refl _)

theorem within_auth (p : BinMemberAuthenticationPayload) : (WSerialize.wr p).Within 77 0 := by
  refine (Within.seq within_call (Within.seq (within_put _) (Within.seq (within_puts _) (Within.seq (within_puts _)
    (Within.seq (within_puts _) within_call))))).mono ?_ (Nat.le_refl _)
  rw [p.publicKeyBin.2, p.encryptionKeyBin.2]
  decide

theorem within_signature (p : Signature) : (WSerialize.wr p).Within 66 0 := by
  refine (Within.seq within_call (Within.seq (within_puts _) within_call)).mono ?_ (Nat.le_refl _)
  rw [p.bytes.2]
  decide

theorem within_kind (κ : Kind) (v : κ.Ty) :
    (WSerialize.wr v).Within (κ.wrate * κ.elements v + κ.wbase) (κ.copied v) := by
  cases κ with
  | varlen16 => exact (within_varlen16 v).mono (by simp [Kind.wrate, Kind.wbase, Kind.elements]) (Nat.le_refl _)
  | varlen32 => exact (within_varlen32 v).mono (by simp [Kind.wrate, Kind.wbase, Kind.elements]) (Nat.le_refl _)
  | varlen64 => exact (within_varlen64 v).mono (by simp [Kind.wrate, Kind.wbase, Kind.elements]) (Nat.le_refl _)
  | nested => exact (within_nested v).mono (by simp [Kind.wrate, Kind.wbase, Kind.elements]) (Nat.le_refl _)
  | time => exact within_time v
  | puncture => exact within_puncture v
  | punctureRequest => exact within_puncture ⟨v.lanWalkerAddress, v.wanWalkerAddress, v.identifier⟩
  | introRequest => exact (within_introRequest v).mono (by simp [Kind.wrate, Kind.wbase, Kind.elements]) (Nat.le_refl _)
  | introResponse => exact (within_introResponse v).mono (by simp [Kind.wrate, Kind.wbase, Kind.elements]) (Nat.le_refl _)
  | auth => exact within_auth v
  | derived s => exact within_sch s v.val

/-! ## Buffers -/

@[simp] theorem extend_bytes (low : Nat) (b : Buf) (bs : Bytes) : (b.extend low bs).bytes = b.bytes ++ bs := by
  unfold Buf.extend Buf.reserve
  split <;> rfl

theorem sizePass_eq (ts : List Tok) : sizePass ts = (ts.map Tok.size).sum := by
  have : ∀ (ts : List Tok) n, ts.foldl (fun n t => n + t.size) n = n + (ts.map Tok.size).sum := by
    intro ts
    induction ts with
    | nil => simp
    | cons t ts ih => intro n; simp [ih, Nat.add_assoc]
  have h := this ts 0
  rw [Nat.zero_add] at h
  exact h

theorem writePass_bytes (low : Nat) (e : Endian) : ∀ (ts : List Tok) (b : Buf),
    (writePass low e b ts).bytes = b.bytes ++ ts.flatMap (Tok.bytes e)
  | [], b => by simp [writePass]
  | t :: ts, b => by
    have := writePass_bytes low e ts (b.extend low (t.bytes e))
    simp only [writePass] at this ⊢
    simp [this]

theorem writePass_room (low : Nat) (e : Endian) : ∀ (ts : List Tok) (b : Buf),
    b.bytes.length + (ts.map Tok.size).sum ≤ b.cap →
    (writePass low e b ts).cap = b.cap ∧ (writePass low e b ts).asked = b.asked
  | [], b, _ => ⟨rfl, rfl⟩
  | t :: ts, b, h => by
    simp only [List.map_cons, List.sum_cons] at h
    have hr : b.reserve low (t.bytes e).length = b := by
      unfold Buf.reserve
      rw [if_pos (by rw [Tok.bytes_length]; omega)]
    have h1 : (b.extend low (t.bytes e)).cap = b.cap := by unfold Buf.extend; simp only [hr]
    have h2 : (b.extend low (t.bytes e)).asked = b.asked := by unfold Buf.extend; simp only [hr]
    have := writePass_room low e ts (b.extend low (t.bytes e)) (by
      rw [h1, extend_bytes, List.length_append, Tok.bytes_length]; omega)
    rw [h1, h2] at this
    exact this

/-- What `serialize` comes to. -/
theorem wserialize_cases {α : Type} [WSerialize α] [Serialize α] (low : Nat) (e : Endian) (v : α)
    (h : (WSerialize.wr v).result = Serialize.ser v) :
    (∃ ts, Serialize.ser v = .ok ts ∧ wserialize low e v =
      (.ok ⟨ts.flatMap (Tok.bytes e), (ts.map Tok.size).sum, (ts.map Tok.size).sum⟩,
        ⟨(WSerialize.wr v).steps + (WSerialize.wr v).steps,
          (WSerialize.wr v).copied + (WSerialize.wr v).copied + (ts.map Tok.size).sum⟩)) ∨
    (∃ x, Serialize.ser v = .err x ∧
      wserialize low e v = (.err x, ⟨(WSerialize.wr v).steps, (WSerialize.wr v).copied⟩)) ∨
    (Serialize.ser v = .panic ∧
      wserialize low e v = (.panic, ⟨(WSerialize.wr v).steps, (WSerialize.wr v).copied⟩)) := by
  rw [← h]
  unfold Wr.result
  have hw : wserialize low e v = (match (WSerialize.wr v).out with
      | .err x => (.err x, ⟨(WSerialize.wr v).steps, (WSerialize.wr v).copied⟩)
      | .panic => (.panic, ⟨(WSerialize.wr v).steps, (WSerialize.wr v).copied⟩)
      | .ok () =>
        let b := writePass low e (Buf.withCapacity (sizePass (WSerialize.wr v).toks)) (WSerialize.wr v).toks
        (.ok b, ⟨(WSerialize.wr v).steps + (WSerialize.wr v).steps,
          (WSerialize.wr v).copied + (WSerialize.wr v).copied + b.asked⟩)) := rfl
  rw [hw]
  rcases ho : (WSerialize.wr v).out with ⟨⟨⟩⟩ | x | _
  · refine .inl ⟨_, rfl, ?_⟩
    simp only []
    have h1 := writePass_bytes low e (WSerialize.wr v).toks (Buf.withCapacity (sizePass (WSerialize.wr v).toks))
    have h2 := writePass_room low e (WSerialize.wr v).toks (Buf.withCapacity (sizePass (WSerialize.wr v).toks))
      (by simp [Buf.withCapacity, sizePass_eq])
    generalize writePass low e (Buf.withCapacity (sizePass (WSerialize.wr v).toks)) (WSerialize.wr v).toks = b at h1 h2 ⊢
    obtain ⟨b1, b2, b3⟩ := b
    simp only [Buf.withCapacity, sizePass_eq, List.nil_append] at h1 h2
    obtain ⟨h2, h3⟩ := h2
    subst h1 h2 h3
    rfl
  · exact .inr (.inl ⟨x, rfl, rfl⟩)
  · exact .inr (.inr ⟨rfl, rfl⟩)

/-! ## The theorems -/

/-- The bytes of what a call returned. -/
def contents : Outcome Buf → Outcome Bytes
  | .ok b => .ok b.bytes
  | .err e => .err e
  | .panic => .panic

theorem contents_wserialize {α : Type} [WSerialize α] [Serialize α] (low : Nat) (e : Endian) (v : α)
    (h : (WSerialize.wr v).result = Serialize.ser v) : contents (wserialize low e v).1 = Bincode.serialize e v := by
  unfold Bincode.serialize
  rcases wserialize_cases low e v h with ⟨ts, h1, h2⟩ | ⟨x, h1, h2⟩ | ⟨h1, h2⟩ <;> rw [h1, h2] <;> rfl

theorem wadd_same {α : Type} [Ipv8Payload α] [WSerialize α] [Serialize α] (low : Nat) (p : Buf) (v : α)
    (h : (WSerialize.wr v).result = Serialize.ser v) :
    (wadd low p v).1 = ((⟨p.bytes⟩ : Packet).add v).1 ∧
    (wadd low p v).2.1.bytes = ((⟨p.bytes⟩ : Packet).add v).2.bytes := by
  unfold wadd Packet.add Bincode.serialize
  rcases wserialize_cases low .big v h with ⟨ts, h1, h2⟩ | ⟨x, h1, h2⟩ | ⟨h1, h2⟩ <;> rw [h1, h2]
  · exact ⟨rfl, extend_bytes _ _ _⟩
  · exact ⟨rfl, rfl⟩
  · exact ⟨rfl, rfl⟩

/-- The two-pass writing of bincode, value by value and into vectors that grow, returns what the model used everywhere
else says it returns, for every payload, header and signature; so do `Packet::new`, `add` and `sign` on top of it. -/
theorem C94_same (low : Nat) :
    (∀ (κ : Kind) (v : κ.Ty) (e : Endian), contents (wserialize low e v).1 = Bincode.serialize e v) ∧
    (∀ (h : Header) (e : Endian), contents (wserialize low e h).1 = Bincode.serialize e h) ∧
    (∀ (s : Signature) (e : Endian), contents (wserialize low e s).1 = Bincode.serialize e s) ∧
    (∀ h : Header, contents (wnew low h).1 = (do
      let p ← Packet.new h
      pure p.bytes)) ∧
    (∀ (κ : Kind) (v : κ.Ty) (p : Buf), (wadd low p v).1 = ((⟨p.bytes⟩ : Packet).add v).1 ∧
      (wadd low p v).2.1.bytes = ((⟨p.bytes⟩ : Packet).add v).2.bytes) ∧
    (∀ (R : Ring) (k : KeyPair R) (p : Buf), contents (wsign low p k).1 = (do
      let q ← (⟨p.bytes⟩ : Packet).sign k
      pure q.bytes)) := by
  refine ⟨fun κ v e => contents_wserialize low e v (result_kind κ v), fun h e => contents_wserialize low e h (result_header h),
    fun s e => contents_wserialize low e s (result_signature s), fun h => ?_,
    fun κ v p => wadd_same low p v (result_kind κ v), fun R k p => ?_⟩
  · unfold wnew Packet.new Bincode.serialize
    rcases wserialize_cases low .big h (result_header h) with ⟨ts, h1, h2⟩ | ⟨x, h1, h2⟩ | ⟨h1, h2⟩ <;> rw [h1, h2]
    · simp only [contents, extend_bytes]
      rfl
    · rfl
    · rfl
  · unfold wsign Packet.sign
    cases hs : signPacket k ⟨p.bytes⟩ with
    | err x => rfl
    | panic => rfl
    | ok g =>
      obtain ⟨h1, h2⟩ := wadd_same low p g (result_signature g)
      show contents (match wadd low p g with
          | (.ok (), q, c) => ((.ok q, c) : Outcome Buf × Spent)
          | (.err e, _, c) => (.err e, c)
          | (.panic, _, c) => (.panic, c)).1 =
        (do
          let q ← (match (⟨p.bytes⟩ : Packet).add g with
            | (.ok (), p) => Outcome.ok p
            | (.err e, _) => .err e
            | (.panic, _) => .panic)
          pure q.bytes)
      revert h1 h2
      rcases wadd low p g with ⟨o, q, c⟩
      rcases (⟨p.bytes⟩ : Packet).add g with ⟨o', q'⟩
      simp only []
      rintro rfl h2
      cases o with
      | ok u => simp only [contents, h2]; rfl
      | err x => rfl
      | panic => rfl

/-- The vector bincode allocates has the capacity the first pass counted, the second pass fills it to the brim, and it
never grows. -/
theorem C94_buffer (low : Nat) (e : Endian) (κ : Kind) (v : κ.Ty) (b : Buf) (h : (wserialize low e v).1 = .ok b) :
    b.cap = b.bytes.length ∧ b.asked = b.bytes.length := by
  rcases wserialize_cases low e v (result_kind κ v) with ⟨ts, h1, h2⟩ | ⟨x, h1, h2⟩ | ⟨h1, h2⟩
  · rw [h2] at h
    simp only [Outcome.ok.injEq] at h
    subst h
    simp only [flatMap_bytes_length, and_self]
  · rw [h2] at h; cases h
  · rw [h2] at h; cases h

/-- A payload that is refused leaves no trace in the packet, however much of it had been handed over by then: not a byte,
not a reallocation. -/
theorem C94_refused (low : Nat) (p : Buf) (κ : Kind) (v : κ.Ty) (h : (wadd low p v).1 ≠ .ok ()) :
    (wadd low p v).2.1 = p := by
  revert h
  unfold wadd
  rcases wserialize low .big v with ⟨o, c⟩
  cases o with
  | ok i => intro h; exact absurd rfl h
  | err x => intro _; rfl
  | panic => intro _; rfl

theorem sum_le_sum {α : Type} {f g : α → Nat} (h : ∀ x, f x ≤ g x) (xs : List α) : (xs.map f).sum ≤ (xs.map g).sum := by
  induction xs with
  | nil => exact Nat.le_refl _
  | cons x xs ih => simp only [List.map_cons, List.sum_cons]; have := h x; omega

theorem Sch.copied_elements (s : Sch) : ∀ x : s.Ty, s.copied x ≤ s.elements x := by
  induction s with
  | nested => intro x; exact Nat.le_refl _
  | option s ih =>
    intro x
    cases x with
    | none => exact Nat.le_refl _
    | some x => exact ih x
  | vec s ih =>
    intro (x : List s.Ty)
    have := sum_le_sum ih x
    simp only [Sch.copied, Sch.elements]
    omega
  | array n s ih => intro x; exact sum_le_sum ih x.val
  | cons a b iha ihb => intro x; exact Nat.add_le_add (iha x.1) (ihb x.2)
  | enum n f ih => intro x; exact ih x.1 x.2
  | _ => intro x; exact Nat.zero_le _

theorem Kind.copied_elements (κ : Kind) (v : κ.Ty) : κ.copied v ≤ κ.elements v := by
  cases κ with
  | nested => exact Nat.le_refl _
  | derived s => exact s.copied_elements v.val
  | _ => exact Nat.zero_le _

/-- Writing a payload, whatever comes of it, takes a number of calls that is linear in the number of its elements, with
constants that depend on the type alone; it requests at most three bytes of memory for every byte written, and at most
one for every element of a payload that is refused. -/
theorem C94 (low : Nat) (e : Endian) (κ : Kind) (v : κ.Ty) :
    (wserialize low e v).2.steps ≤ 2 * (κ.wrate * κ.elements v + κ.wbase) ∧
    (∀ b, (wserialize low e v).1 = .ok b → (wserialize low e v).2.heap ≤ 3 * b.bytes.length) ∧
    ((∀ b, (wserialize low e v).1 ≠ .ok b) →
      (wserialize low e v).2.steps ≤ κ.wrate * κ.elements v + κ.wbase ∧
      (wserialize low e v).2.heap ≤ κ.elements v) := by
  obtain ⟨w1, w2⟩ := within_kind κ v
  have hc := κ.copied_elements v
  rcases wserialize_cases low e v (result_kind κ v) with ⟨ts, h1, h2⟩ | ⟨x, h1, h2⟩ | ⟨h1, h2⟩ <;> rw [h2]
  · refine ⟨by simp only []; omega, fun b hb => ?_, fun h => ?_⟩
    · simp only [Outcome.ok.injEq] at hb
      subst hb
      have := κ.copied_le v (ts.map Tok.size).sum (by unfold Bincode.serializedSize; rw [h1])
      simp only [flatMap_bytes_length]
      omega
    · exact absurd rfl (h _)
  · refine ⟨by simp only []; omega, fun b hb => (by cases hb), fun _ => ⟨w1, Nat.le_trans w2 hc⟩⟩
  · refine ⟨by simp only []; omega, fun b hb => (by cases hb), fun _ => ⟨w1, Nat.le_trans w2 hc⟩⟩

theorem rawEnd_elements (x : RawEnd) (ts : List Tok) (h : (Serialize.ser x : Outcome (List Tok)) = .ok ts) :
    x.data.length ≤ (ts.map Tok.size).sum := by
  cases h
  have := toks_u8 x.data
  simp only [toks] at this
  omega

theorem introRequest_elements (v : IntroductionRequestPayload) (ts : List Tok)
    (h : (Serialize.ser v : Outcome (List Tok)) = .ok ts) : v.extraBytes.data.length ≤ (ts.map Tok.size).sum := by
  obtain ⟨a, b, c, adv, ct, i, x⟩ := v
  have h2 : (Serialize.ser (⟨a, b, c, adv, ct, i, x⟩ : IntroductionRequestPayload) : Outcome (List Tok)) = (do
      let d ← Serialize.ser a
      let l ← Serialize.ser b
      let w ← Serialize.ser c
      let f ← Serialize.ser (Bits.fromBools ct.encode.1 ct.encode.2 false false false false false adv)
      let y ← Serialize.ser x
      pure (d ++ l ++ w ++ f ++ [Tok.u16 i] ++ y)) := rfl
  rw [h2] at h
  simp only [Outcome.bind_eq_ok, Outcome.pure_eq, Outcome.ok.injEq] at h
  obtain ⟨_, _, _, _, _, _, _, _, y, hy, rfl⟩ := h
  have := rawEnd_elements x y hy
  simp only [List.map_append, List.sum_append]
  omega

theorem introResponse_elements (v : IntroductionResponsePayload) (ts : List Tok)
    (h : (Serialize.ser v : Outcome (List Tok)) = .ok ts) : v.extraBytes.data.length ≤ (ts.map Tok.size).sum := by
  obtain ⟨a, b, c, d, e, t, ct, i, x⟩ := v
  have h2 : (Serialize.ser (⟨a, b, c, d, e, t, ct, i, x⟩ : IntroductionResponsePayload) : Outcome (List Tok)) = (do
      let a ← Serialize.ser a
      let b ← Serialize.ser b
      let c ← Serialize.ser c
      let d ← Serialize.ser d
      let e ← Serialize.ser e
      let f ← Serialize.ser (Bits.fromBools ct.encode.1 ct.encode.2 false false false false false false)
      let y ← Serialize.ser x
      pure (a ++ b ++ c ++ d ++ e ++ f ++ [Tok.u16 i] ++ y)) := rfl
  rw [h2] at h
  simp only [Outcome.bind_eq_ok, Outcome.pure_eq, Outcome.ok.injEq] at h
  obtain ⟨_, _, _, _, _, _, _, _, _, _, _, _, y, hy, rfl⟩ := h
  have := rawEnd_elements x y hy
  simp only [List.map_append, List.sum_append]
  omega

theorem Kind.elements_le (κ : Kind) (hκ : κ.NoEmptyElements) (v : κ.Ty) (ts : List Tok)
    (h : (Serialize.ser v : Outcome (List Tok)) = .ok ts) : κ.elements v ≤ (ts.map Tok.size).sum := by
  have key : ∀ (s : Sch), s.NoEmptyElements → ∀ (x : s.Ty) (ts : List Tok), s.ser x = .ok ts →
      s.elements x ≤ (ts.map Tok.size).sum := fun s hs x ts h => by
    have := Sch.elements_le s hs x ts h
    simp only [toks] at this
    omega
  cases κ with
  | varlen16 => exact key .varlen16 trivial v ts h
  | varlen32 => exact key .varlen32 trivial v ts h
  | varlen64 => exact key .varlen64 trivial v ts h
  | nested => exact key .nested trivial v ts h
  | introRequest => exact introRequest_elements v ts h
  | introResponse => exact introResponse_elements v ts h
  | derived s => exact key s hκ v.val ts h
  | _ => exact Nat.zero_le _

/-- If no vector in the type has elements that may be empty on the wire, the calls are linear in the bytes written. -/
theorem C94_linear (low : Nat) (e : Endian) (κ : Kind) (hκ : κ.NoEmptyElements) (v : κ.Ty) (b : Buf)
    (h : (wserialize low e v).1 = .ok b) :
    (wserialize low e v).2.steps ≤ 2 * (κ.wrate * b.bytes.length + κ.wbase) := by
  obtain ⟨w1, w2⟩ := within_kind κ v
  rcases wserialize_cases low e v (result_kind κ v) with ⟨ts, h1, h2⟩ | ⟨x, h1, h2⟩ | ⟨h1, h2⟩ <;> rw [h2] at h ⊢
  · simp only [Outcome.ok.injEq] at h
    subst h
    have h3 := Nat.mul_le_mul_left κ.wrate (κ.elements_le hκ v ts h1)
    simp only [flatMap_bytes_length]
    omega
  · cases h
  · cases h

/-- Without that condition they are not: a `Vec<()>` of `n` elements takes `n` calls, for eight bytes. -/
theorem C94_empty (low n : Nat) :
    ∃ b, (wserialize low .big (⟨List.replicate n ()⟩ : Derived (.vec .unit))).1 = .ok b ∧ b.bytes.length = 8 ∧
      n ≤ (wserialize low .big (⟨List.replicate n ()⟩ : Derived (.vec .unit))).2.steps := by
  have h1 : ∀ n, serSeq Sch.unit.ser (List.replicate n ()) = .ok [] := by
    intro n
    induction n with
    | zero => rfl
    | succ n ih => simp only [List.replicate_succ, serSeq, ih]; rfl
  have h2 : ∀ n, n ≤ (each Sch.unit.wr (List.replicate n ())).steps := by
    intro n
    induction n with
    | zero => exact Nat.zero_le _
    | succ n ih =>
      show n + 1 ≤ 1 + (1 + (each Sch.unit.wr (List.replicate n ())).steps)
      omega
  have h3 : (Serialize.ser (⟨List.replicate n ()⟩ : Derived (.vec .unit)) : Outcome (List Tok)) =
      .ok [.u64 (UInt64.ofNat n)] := by
    show (do
      let a ← serSeq Sch.unit.ser (List.replicate n ())
      pure (Tok.u64 (UInt64.ofNat (List.replicate n ()).length) :: a) : Outcome (List Tok)) = _
    rw [h1, List.length_replicate]
    rfl
  have h4 : n ≤ (WSerialize.wr (⟨List.replicate n ()⟩ : Derived (.vec .unit))).steps := by
    show n ≤ (put (.u64 (UInt64.ofNat (List.replicate n ()).length)) ⨟ each Sch.unit.wr (List.replicate n ()) ⨟ call).steps
    have := h2 n
    simp only [Wr.andThen, put]
    split <;> simp only [] <;> omega
  rcases wserialize_cases low .big (⟨List.replicate n ()⟩ : Derived (.vec .unit)) (result_sch _ _) with
    ⟨ts, g1, g2⟩ | ⟨x, g1, g2⟩ | ⟨g1, g2⟩
  · rw [h3] at g1
    cases g1
    refine ⟨_, by rw [g2], by simp [Tok.size], ?_⟩
    rw [g2]
    simp only []
    omega
  · rw [h3] at g1; cases g1
  · rw [h3] at g1; cases g1

/-! ## Building a packet -/

/-- The vector of a packet under construction: what it has requested and what it holds stay in proportion to its length. -/
def Buf.Tidy (low : Nat) (b : Buf) : Prop :=
  b.bytes.length ≤ b.cap ∧ b.asked ≤ 2 * b.cap ∧ b.cap ≤ 2 * b.bytes.length + low

theorem tidy_extend {low : Nat} {b : Buf} (h : b.Tidy low) (bs : Bytes) : (b.extend low bs).Tidy low := by
  obtain ⟨h1, h2, h3⟩ := h
  unfold Buf.extend Buf.reserve Buf.Tidy
  split
  · simp only [List.length_append]
    omega
  · simp only [List.length_append]
    omega

/-- A packet: what `Packet::new` returns, then any payloads, of which some may be refused. -/
theorem C94_build (low : Nat) (header : Header) (p : Buf) (h : (wnew low header).1 = .ok p) (vs : List AnyPayload) :
    let r := waddEach low p vs
    r.1.asked ≤ 4 * r.1.bytes.length + 2 * low ∧
    r.2.heap ≤ 3 * (r.1.bytes.length - p.bytes.length) + (vs.map fun v => v.1.elements v.2).sum ∧
    r.2.steps ≤ (vs.map fun v => 2 * (v.1.wrate * v.1.elements v.2 + v.1.wbase)).sum := by
  have hp : p.Tidy low := by
    have h0 : Buf.empty.Tidy low := ⟨Nat.le_refl _, Nat.le_refl _, Nat.zero_le _⟩
    unfold wnew at h
    revert h
    rcases wserialize low .big header with ⟨o, c⟩
    intro h
    cases o with
    | ok i => cases h; exact tidy_extend h0 _
    | err x => cases h
    | panic => cases h
  have key : ∀ (vs : List AnyPayload) (p : Buf), p.Tidy low →
      (waddEach low p vs).1.Tidy low ∧ p.bytes.length ≤ (waddEach low p vs).1.bytes.length ∧
      (waddEach low p vs).2.heap ≤ 3 * ((waddEach low p vs).1.bytes.length - p.bytes.length) +
        (vs.map fun v => v.1.elements v.2).sum ∧
      (waddEach low p vs).2.steps ≤ (vs.map fun v => 2 * (v.1.wrate * v.1.elements v.2 + v.1.wbase)).sum := by
    intro vs
    induction vs with
    | nil => intro p hp; exact ⟨hp, Nat.le_refl _, Nat.zero_le _, Nat.zero_le _⟩
    | cons v vs ih =>
      intro p hp
      obtain ⟨κ, v⟩ := v
      have hc := C94 low .big κ v
      have hstep : (wadd low p v).2.1.Tidy low ∧ p.bytes.length ≤ (wadd low p v).2.1.bytes.length ∧
          (wadd low p v).2.2.heap ≤ 3 * ((wadd low p v).2.1.bytes.length - p.bytes.length) + κ.elements v ∧
          (wadd low p v).2.2.steps ≤ 2 * (κ.wrate * κ.elements v + κ.wbase) := by
        unfold wadd
        revert hc
        rcases wserialize low .big v with ⟨o, c⟩
        cases o with
        | ok i =>
          rintro ⟨c1, c2, -⟩
          have := c2 i rfl
          refine ⟨tidy_extend hp _, by simp, ?_, c1⟩
          simp only [extend_bytes, List.length_append] at this ⊢
          omega
        | err x =>
          rintro ⟨c1, -, c3⟩
          have := c3 (by intro b hb; cases hb)
          refine ⟨hp, Nat.le_refl _, ?_, c1⟩
          simp only [] at this ⊢
          omega
        | panic =>
          rintro ⟨c1, -, c3⟩
          have := c3 (by intro b hb; cases hb)
          refine ⟨hp, Nat.le_refl _, ?_, c1⟩
          simp only [] at this ⊢
          omega
      obtain ⟨s1, s2, s3, s4⟩ := hstep
      obtain ⟨i1, i2, i3, i4⟩ := ih _ s1
      simp only [waddEach, List.map_cons, List.sum_cons]
      refine ⟨i1, ?_, ?_, ?_⟩ <;> omega
  obtain ⟨⟨k1, k2, k3⟩, -, k4, k5⟩ := key vs p hp
  refine ⟨?_, k4, k5⟩
  omega

/-- Signing: 64 bytes more, in at most 132 calls and 64 bytes of memory besides the growth of the packet. -/
theorem C94_sign {R : Ring} (low : Nat) (p q : Buf) (k : KeyPair R) (c : Spent) (h : wsign low p k = (.ok q, c)) :
    q.bytes.length = p.bytes.length + 64 ∧ c.steps ≤ 132 ∧ c.heap = 64 ∧ (p.Tidy low → q.Tidy low) := by
  unfold wsign at h
  cases hs : signPacket k ⟨p.bytes⟩ with
  | err x => rw [hs] at h; cases h
  | panic => rw [hs] at h; cases h
  | ok g =>
    rw [hs] at h
    have hg : (Serialize.ser g : Outcome (List Tok)) = .ok (g.bytes.1.map .u8) := rfl
    have hl : ((g.bytes.1.map Tok.u8).map Tok.size).sum = 64 := by
      have := toks_u8 g.bytes.1
      simp only [toks] at this
      rw [this, g.bytes.2]
    obtain ⟨w1, w2⟩ := within_signature g
    simp only [wadd] at h
    rcases wserialize_cases low .big g (result_signature g) with ⟨ts, h1, h2⟩ | ⟨x, h1, h2⟩ | ⟨h1, h2⟩
    · rw [hg] at h1
      cases h1
      rw [h2] at h
      simp only [Prod.mk.injEq, Outcome.ok.injEq] at h
      obtain ⟨rfl, rfl⟩ := h
      refine ⟨?_, ?_, ?_, fun hp => tidy_extend hp _⟩
      · simp only [extend_bytes, List.length_append, flatMap_bytes_length, hl]
      · simp only []; omega
      · simp only [hl]; omega
    · rw [hg] at h1; cases h1
    · rw [hg] at h1; cases h1

/-- Where signing fails, nothing has been written and no memory taken for it. -/
theorem C94_unsigned {R : Ring} (low : Nat) (p : Buf) (k : KeyPair R) (h : (wsign low p k).1.isOk = false) :
    (wsign low p k).2 = ⟨0, 0⟩ := by
  unfold wsign at h ⊢
  cases hs : signPacket k ⟨p.bytes⟩ with
  | err x => rfl
  | panic => rfl
  | ok g =>
    rw [hs] at h
    have hg : (Serialize.ser g : Outcome (List Tok)) = .ok (g.bytes.1.map .u8) := rfl
    simp only [wadd] at h
    rcases wserialize_cases low .big g (result_signature g) with ⟨ts, h1, h2⟩ | ⟨x, h1, h2⟩ | ⟨h1, h2⟩
    · rw [h2] at h
      cases h
    · rw [hg] at h1; cases h1
    · rw [hg] at h1; cases h1

/-- A cryptography library whose signatures are too short. -/
def shortRing : Ring where
  Key := Unit
  generatePkcs8 _ := none
  fromPkcs8 _ := none
  fromSeedAndPublicKey _ _ := none
  fromSeedUnchecked _ := none
  publicKey _ := []
  sign _ _ := [1]
  verify _ _ _ := false
  sha1 _ := []

/-- The hypothesis of `C94_unsigned` can be met. -/
example : (wsign (R := shortRing) 8 ⟨[1, 2], 8, 8⟩ ⟨()⟩).1.isOk = false := by
  decide +kernel

/-- A `NestedPacket` too long to be written is copied in full before it is refused. -/
theorem C94_copied (low : Nat) (e : Endian) (p : NestedPacket) (h : 65535 < p.packet.bytes.length) :
    (∃ x, (wserialize low e p).1 = .err x) ∧ (wserialize low e p).2.heap = p.packet.bytes.length := by
  have h1 : WSerialize.wr (VarLen16.mk p.packet.bytes) =
      Wr.fail (.custom "Data too large to fit in a VarLen16. Must be less than 65536 bytes.") := by
    show (if p.packet.bytes.length > 0xffff then _ else _) = _
    rw [if_pos h]
  have h2 : WSerialize.wr p = ⟨.err (.custom "Data too large to fit in a VarLen16. Must be less than 65536 bytes."), [], 2,
      p.packet.bytes.length⟩ := by
    show (copy p.packet.bytes.length ⨟ call ⨟ call ⨟ WSerialize.wr (VarLen16.mk p.packet.bytes) ⨟ call) = _
    rw [h1]
    rfl
  unfold wserialize
  rw [h2]
  exact ⟨⟨_, rfl⟩, rfl⟩

/-! ## Non-vacuity -/

/-- A header without message type: 22 bytes have been handed over when it is refused. -/
example : ((WSerialize.wr (⟨23, .PyIPV8Header, some (List.replicate 20 7), none⟩ : Header)).toks).length = 21 ∧
    (wnew 8 ⟨23, .PyIPV8Header, some (List.replicate 20 7), none⟩).1 = .err .header := by decide

/-- A payload with an IPv6 address in the second place: refused after the first one was handed over, and the packet is
as it was. -/
example :
    ((WSerialize.wr (⟨⟨.v4 1 2 3 4 5⟩, ⟨.v6 ⟨List.replicate 16 0, rfl⟩ 1 0 0⟩, 9⟩ : PuncturePayload)).toks).length = 5 := by
  decide

set_option maxRecDepth 8000 in
/-- Two payloads on a fresh packet: the vector grows from 23 to 46 and then has room for the second. -/
example : (do
    let p ← (wnew 8 ⟨23, .PyIPV8Header, some (List.replicate 20 7), some 3⟩).1
    let r := waddEach 8 p [⟨.time, ⟨1⟩⟩, ⟨.varlen16, ⟨[1, 2, 3]⟩⟩]
    pure (p.bytes.length, p.cap, r.1.bytes.length, r.1.cap, r.1.asked, r.2)) =
    Outcome.ok (23, 23, 36, 46, 69, ⟨18, 13⟩) := by
  rfl

/-! ## Cases for the theorems above -/

set_option maxRecDepth 8000 in
/-- `C94_buffer`, `C94_linear`: a length-prefixed string. -/
example (b : Buf) (h : (wserialize 8 .big (show Kind.Ty .varlen16 from ⟨[1, 2, 3]⟩)).1 = .ok b) :
    b.cap = b.bytes.length ∧ (wserialize 8 .big (show Kind.Ty .varlen16 from ⟨[1, 2, 3]⟩)).2.steps ≤
      2 * (Kind.wrate .varlen16 * b.bytes.length + Kind.wbase .varlen16) :=
  ⟨(C94_buffer 8 .big .varlen16 _ b h).1, C94_linear 8 .big .varlen16 trivial _ b h⟩

/-- `C94_build`: two payloads on a fresh packet. -/
example (p : Buf) (h : (wnew 8 ⟨23, .PyIPV8Header, some (List.replicate 20 7), some 3⟩).1 = .ok p) :
    (waddEach 8 p [⟨.time, ⟨1⟩⟩, ⟨.varlen16, ⟨[1, 2, 3]⟩⟩]).1.asked ≤
      4 * (waddEach 8 p [⟨.time, ⟨1⟩⟩, ⟨.varlen16, ⟨[1, 2, 3]⟩⟩]).1.bytes.length + 16 :=
  (C94_build 8 _ p h [⟨.time, ⟨1⟩⟩, ⟨.varlen16, ⟨[1, 2, 3]⟩⟩]).1

/-- `C94_refused`: a payload with an IPv6 address. -/
example : (wadd 8 ⟨[1, 2], 8, 8⟩ (show Kind.Ty .puncture from ⟨⟨.v4 1 2 3 4 5⟩, ⟨.v6 ⟨List.replicate 16 0, rfl⟩ 1 0 0⟩, 9⟩)).2.1 =
    ⟨[1, 2], 8, 8⟩ :=
  C94_refused 8 ⟨[1, 2], 8, 8⟩ .puncture _ (by decide +kernel)

/-- `C94_sign`: two bytes signed with a key of the toy scheme. -/
example (q : Buf) (c : Spent) (h : wsign (R := toyRing) 8 ⟨[1, 2], 8, 8⟩ ⟨FixedBytes.replicate 32 9⟩ = (.ok q, c)) :
    q.bytes.length = 66 ∧ c.heap = 64 :=
  ⟨(C94_sign 8 _ q _ c h).1, (C94_sign 8 _ q _ c h).2.2.1⟩

example : (wsign (R := toyRing) 8 ⟨[1, 2], 8, 8⟩ ⟨FixedBytes.replicate 32 9⟩).1.isOk = true := by decide +kernel

/-- `C94_copied`: a packet of 65536 bytes. -/
example := C94_copied 8 .big ⟨⟨List.replicate 65536 7⟩⟩ (by rw [List.length_replicate]; decide)

end Ipv8
