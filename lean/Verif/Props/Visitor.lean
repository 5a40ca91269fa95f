import Verif.Model.Visitor
import Verif.Lemmas.Reader
import Verif.Lemmas.Derive
/-!
# C99: hand-written `Deserialize` implementations
-/

namespace Ipv8

open PacketDeserializer

/-! ## Specification -/

mutual

/-- The program passes every error on: it never goes on after one.  With `chars` it may ask for a `char`. -/
def Visitor.Strict (chars : Bool) : {α : Type} → Visitor α → Prop
  | _, .value _ | _, .u8 _ | _, .u16 _ | _, .u32 _ | _, .u64 _ | _, .u128 _ | _, .bytes _ => True
  | _, .char _ => chars = true
  | _, .option _ s => s.Strict chars
  | _, .enum f => ∀ i, (f i).Strict chars
  | _, .tuple _ b => b.Strict chars
  | _, .seq b => ∀ n, (b n).Strict chars
  | _, .after d _ => d.Strict chars
  | _, .rescue _ _ _ => False

/-- The same for `visit_seq`. -/
def Elements.Strict (chars : Bool) : {α : Type} → Elements α → Prop
  | _, .done _ => True
  | _, .next d k => d.Strict chars ∧ ∀ o, (k o).Strict chars
  | _, .attempt _ _ _ => False

end

mutual

/-- The code of the program itself does not panic. -/
def Visitor.Quiet : {α : Type} → Visitor α → Prop
  | _, .value o => o ≠ .panic
  | _, .u8 k => ∀ b, k b ≠ .panic
  | _, .u16 k => ∀ b, k b ≠ .panic
  | _, .u32 k => ∀ b, k b ≠ .panic
  | _, .u64 k => ∀ b, k b ≠ .panic
  | _, .u128 k => ∀ b, k b ≠ .panic
  | _, .char k => ∀ b, k b ≠ .panic
  | _, .bytes k => ∀ b, k b ≠ .panic
  | _, .option n s => n ≠ .panic ∧ s.Quiet
  | _, .enum f => ∀ i, (f i).Quiet
  | _, .tuple _ b => b.Quiet
  | _, .seq b => ∀ n, (b n).Quiet
  | _, .after d k => d.Quiet ∧ ∀ b, k b ≠ .panic
  | _, .rescue d k c => d.Quiet ∧ (∀ b, k b ≠ .panic) ∧ ∀ x, c x ≠ .panic

/-- The same for `visit_seq`. -/
def Elements.Quiet : {α : Type} → Elements α → Prop
  | _, .done o => o ≠ .panic
  | _, .next d k => d.Quiet ∧ ∀ o, (k o).Quiet
  | _, .attempt d k c => d.Quiet ∧ (∀ o, (k o).Quiet) ∧ ∀ x, (c x).Quiet

end

/-- The errors that say that bytes are missing: the end of the input, and for a `char` cut short an invalid one. -/
def Missing (chars : Bool) (x : Error) : Prop := x = .eof ∨ (chars = true ∧ x = .invalidChar)

/-- The answer is not that bytes are missing. -/
def Complete (chars : Bool) {α : Type} (o : Outcome α) : Prop := ∀ x, o = .err x → ¬ Missing chars x

/-- A reader whose answer, unless it is that bytes are missing, rests on the bytes it took and nothing else: with
other bytes behind them it is the same and takes the same, and with only a part of them it is that bytes are
missing. -/
def RestsOnTaken (chars : Bool) {α : Type} (f : Bytes → Outcome α × Bytes) : Prop :=
  ∀ r, Complete chars (f r).1 → ∃ taken, r = taken ++ (f r).2 ∧
    (∀ rest, f (taken ++ rest) = ((f r).1, rest)) ∧
    ∀ part lost, taken = part ++ lost → lost ≠ [] → ∃ x, (f part).1 = .err x ∧ Missing chars x

/-- `next_payload` of a packet's payload type rests on the bytes the payload takes: its answer, unless it is that bytes
are missing, is the same in every packet that agrees up to there, and so is the place it moves on to; in a packet
that ends before, the answer is that bytes are missing. -/
def SelfDelimiting (chars : Bool) (α : Type) [Ipv8Payload α] [Serialize α] [Deserialize α] : Prop :=
  ∀ (w : Bytes) (i : Nat) (o : Outcome α) (d' : PacketDeserializer), i ≤ w.length →
    (PacketDeserializer.mk ⟨w⟩ i).nextPayload α = (o, d') → Complete chars o →
    ∃ n, i + n ≤ w.length ∧
      (∀ w' : Bytes, w'.take (i + n) = w.take (i + n) →
        (PacketDeserializer.mk ⟨w'⟩ i).nextPayload α = (o, ⟨⟨w'⟩, d'.index⟩)) ∧
      ∀ m, i ≤ m → m < i + n →
        ∃ x, (PacketDeserializer.mk ⟨w.take m⟩ i).nextPayload α = (.err x, ⟨⟨w.take m⟩, i⟩) ∧ Missing chars x

/-- Payload structs without a `RawEnd`, and without a `char` unless `chars`. -/
def Sch.Closed (chars : Bool) : Sch → Prop
  | .rawEnd => False
  | .char => chars = true
  | .option s => s.Closed chars
  | .vec s => s.Closed chars
  | .array _ s => s.Closed chars
  | .cons a b => a.Closed chars ∧ b.Closed chars
  | .enum _ f => ∀ i, (f i).Closed chars
  | _ => True

/-! ## Building blocks -/

/-- Go on with what was read. -/
def visitThen {α β : Type} (d : Bytes → Outcome β × Bytes) (g : β → Bytes → Outcome α × Bytes) :
    Bytes → Outcome α × Bytes := fun r =>
  match d r with
  | (.ok b, r') => g b r'
  | (.err x, r') => (.err x, r')
  | (.panic, r') => (.panic, r')

theorem restsOn_value {chars : Bool} {α : Type} (o : Outcome α) : RestsOnTaken chars fun r => (o, r) := by
  intro r _
  refine ⟨[], rfl, fun s => rfl, fun part lost h1 h2 => ?_⟩
  have := congrArg List.length h1
  simp only [List.length_nil, List.length_append] at this
  exact absurd (List.length_eq_zero_iff.mp (by omega)) h2

theorem complete_of_ok {chars : Bool} {α : Type} {o : Outcome α} {a : α} (h : o = .ok a) : Complete chars o := by
  intro x hx
  rw [h] at hx
  cases hx

theorem complete_of_panic {chars : Bool} {α : Type} {o : Outcome α} (h : o = .panic) : Complete chars o := by
  intro x hx
  rw [h] at hx
  cases hx

theorem restsOn_then {chars : Bool} {α β : Type} {d : Bytes → Outcome β × Bytes}
    {g : β → Bytes → Outcome α × Bytes} (hd : RestsOnTaken chars d) (hg : ∀ b, RestsOnTaken chars (g b)) :
    RestsOnTaken chars (visitThen d g) := by
  intro r hc
  unfold visitThen at hc ⊢
  cases hr : d r with
  | mk o r1 =>
    rw [hr] at hc
    have hd' := hd r
    rw [hr] at hd'
    cases o with
    | ok b =>
      obtain ⟨u1, e1, x1, p1⟩ := hd' (complete_of_ok rfl)
      obtain ⟨u2, e2, x2, p2⟩ := hg b r1 hc
      simp only at e1 x1
      refine ⟨u1 ++ u2, ?_, fun s => ?_, fun part lost h1 h2 => ?_⟩
      · rw [e1]
        simp only [List.append_assoc]
        exact congrArg _ e2
      · rw [List.append_assoc, x1 (u2 ++ s)]
        exact x2 s
      · rcases List.append_eq_append_iff.mp h1 with ⟨w, hw1, hw2⟩ | ⟨w, hw1, hw2⟩
        · rw [hw1, x1 w]
          exact p2 w lost hw2 h2
        · by_cases hw : w = []
          · subst hw
            have hp : part = u1 ++ [] := by simpa using hw1.symm
            rw [hp, x1 []]
            refine p2 [] lost ?_ h2
            simpa using hw2.symm
          · obtain ⟨x, q1, q2⟩ := p1 part w hw1 hw
            refine ⟨x, ?_, q2⟩
            cases hp : d part with
            | mk o' r' =>
              rw [hp] at q1
              simp only at q1
              subst q1
              rfl
    | err x =>
      simp only at hc
      obtain ⟨u1, e1, x1, p1⟩ := hd' (fun y hy => hc y (by simp only at hy; cases hy; rfl))
      refine ⟨u1, e1, fun s => ?_, fun part lost h1 h2 => ?_⟩
      · rw [x1 s]
      · obtain ⟨x, q1, q2⟩ := p1 part lost h1 h2
        refine ⟨x, ?_, q2⟩
        cases hp : d part with
        | mk o' r' =>
          rw [hp] at q1
          simp only at q1
          subst q1
          rfl
    | panic =>
      obtain ⟨u1, e1, x1, p1⟩ := hd' (complete_of_panic rfl)
      refine ⟨u1, e1, fun s => ?_, fun part lost h1 h2 => ?_⟩
      · rw [x1 s]
      · obtain ⟨x, q1, q2⟩ := p1 part lost h1 h2
        refine ⟨x, ?_, q2⟩
        cases hp : d part with
        | mk o' r' =>
          rw [hp] at q1
          simp only at q1
          subst q1
          rfl

/-- A primitive read as a reader with a position. -/
def primRun {β : Type} (d : De β) : Bytes → Outcome β × Bytes := visitPrim d .ok

theorem visitPrim_then {α β : Type} (d : De β) (k : β → Outcome α) :
    visitPrim d k = visitThen (primRun d) fun b r => (k b, r) := by
  funext r
  unfold visitPrim visitThen primRun visitPrim
  cases d r <;> rfl

/-- A read of exactly `n` bytes. -/
def FixedRead (n : Nat) {β : Type} (d : De β) : Prop :=
  ∃ f : Bytes → β, ∀ r, d r = if r.length < n then .err .eof else .ok (f (r.take n), r.drop n)

theorem restsOn_fixed {chars : Bool} {n : Nat} {β : Type} {d : De β} (h : FixedRead n d) :
    RestsOnTaken chars (primRun d) := by
  obtain ⟨f, hf⟩ := h
  intro r hc
  unfold primRun visitPrim at hc ⊢
  rw [hf] at hc ⊢
  by_cases hl : r.length < n
  · rw [if_pos hl] at hc
    exact absurd (Or.inl rfl) (hc _ rfl)
  · rw [if_neg hl]
    refine ⟨r.take n, (List.take_append_drop n r).symm, fun s => ?_, fun part lost h1 h2 => ?_⟩
    · simp only []
      have hn : (r.take n).length = n := by simp; omega
      rw [hf, if_neg (by simp only [List.length_append]; omega)]
      rw [List.take_append_of_le_length (by omega), List.drop_append_of_le_length (by omega),
        List.drop_of_length_le (by omega), List.take_of_length_le (by omega)]
      rfl
    · have := congrArg List.length h1
      simp only [List.length_take, List.length_append] at this
      have : lost.length ≠ 0 := fun hh => h2 (List.length_eq_zero_iff.mp hh)
      refine ⟨.eof, ?_, Or.inl rfl⟩
      rw [hf, if_pos (by omega)]

theorem fixed_u8 : FixedRead 1 deU8 :=
  ⟨fun l => l.headD 0, fun r => by cases r <;> simp [deU8]⟩

theorem fixed_int (e : Endian) (k : Nat) {β : Type} (g : Nat → β) :
    FixedRead k (De.bind (deInt e k) fun x => De.pure (g x)) :=
  ⟨fun l => g (ofInt e l), fun r => by
    unfold De.bind deInt De.pure
    split <;> rename_i h
    · split at h
      · cases h
      · cases h
        rename_i hh
        rw [if_neg hh]
    · split at h
      · cases h
        rename_i hh
        rw [if_pos hh]
      · cases h
    · split at h <;> cases h⟩

theorem fixed_bytes (k : Nat) : FixedRead k (deBytes k) := ⟨id, fun _ => rfl⟩

theorem restsOn_u8 {chars : Bool} : RestsOnTaken chars (primRun deU8) := restsOn_fixed fixed_u8
theorem restsOn_u16 {chars : Bool} (e : Endian) : RestsOnTaken chars (primRun (deU16 e)) :=
  restsOn_fixed (fixed_int e 2 _)
theorem restsOn_u32 {chars : Bool} (e : Endian) : RestsOnTaken chars (primRun (deU32 e)) :=
  restsOn_fixed (fixed_int e 4 _)
theorem restsOn_u64 {chars : Bool} (e : Endian) : RestsOnTaken chars (primRun (deU64 e)) :=
  restsOn_fixed (fixed_int e 8 _)
theorem restsOn_u128 {chars : Bool} (e : Endian) : RestsOnTaken chars (primRun (deU128 e)) :=
  restsOn_fixed (fixed_int e 16 _)

/-- The rest of a `char` after its first byte, as a reader with a position. -/
def charRest {α : Type} (visit : Char → Outcome α) (b : UInt8) (r' : Bytes) : Outcome α × Bytes :=
  if utf8CharWidth b = 1 then (visit (Char.ofNat b.toNat), r')
  else if utf8CharWidth b = 0 then (.err .invalidChar, r')
  else
    match deCharRest b (utf8CharWidth b - 1) r' with
    | .ok (c, r'') => (visit c, r'')
    | .err x => (.err x, if r'.length < utf8CharWidth b - 1 then r' else r'.drop (utf8CharWidth b - 1))
    | .panic => (.panic, r')

theorem restsOn_charRest {α : Type} (visit : Char → Outcome α) (b : UInt8) :
    RestsOnTaken true (charRest visit b) := by
  unfold charRest
  by_cases h1 : utf8CharWidth b = 1
  · simp only [h1, if_true]
    exact restsOn_value _
  · by_cases h0 : utf8CharWidth b = 0
    · simp only [h0]
      exact restsOn_value _
    · simp only [if_neg h1, if_neg h0]
      generalize utf8CharWidth b - 1 = k
      intro r hc
      dsimp only at hc ⊢
      have hx : ∀ bs : Bytes, ∀ r' : Bytes, bs.length = k →
          deCharRest b k (bs ++ r') =
            if h : (ByteArray.mk (b :: bs).toArray).IsValidUTF8 then
              match (String.ofByteArray ⟨(b :: bs).toArray⟩ h).toList.head? with
              | some c => .ok (c, r')
              | none => .err .invalidChar
            else .err .invalidChar := by
        intro bs r' hl
        have : deBytes k (bs ++ r') = .ok (bs, r') := by
          unfold deBytes
          rw [if_neg (by simp; omega), List.take_append_of_le_length (by omega),
            List.drop_append_of_le_length (by omega), List.drop_of_length_le (by omega),
            List.take_of_length_le (by omega)]
          rfl
        unfold deCharRest
        rw [this]
        rfl
      have hy : ∀ p : Bytes, p.length < k → deCharRest b k p = .err .invalidChar := by
        intro p hp
        unfold deCharRest deBytes
        rw [if_pos hp]
      by_cases hl : r.length < k
      · rw [hy r hl] at hc
        exact absurd (Or.inr ⟨rfl, rfl⟩) (hc _ rfl)
      · have hr : r = r.take k ++ r.drop k := (List.take_append_drop k r).symm
        have hk : (r.take k).length = k := by simp; omega
        have hxs := hx (r.take k)
        generalize hu : r.take k = u at *
        rw [hr, hxs _ hk] at hc ⊢
        by_cases hv : (ByteArray.mk (b :: u).toArray).IsValidUTF8
        · simp only [dif_pos hv] at hc hxs ⊢
          cases hcc : (String.ofByteArray ⟨(b :: u).toArray⟩ hv).toList.head? with
          | none =>
            rw [hcc] at hc
            exact absurd (Or.inr ⟨rfl, rfl⟩) (hc _ rfl)
          | some c =>
            rw [hcc] at hxs
            refine ⟨u, rfl, fun s => ?_, fun part lost e1 e2 => ⟨.invalidChar, ?_, Or.inr ⟨rfl, rfl⟩⟩⟩
            · rw [hxs s hk]
            · rw [hy part]
              have := congrArg List.length e1
              simp only [List.length_append] at this
              have : lost.length ≠ 0 := fun hh => e2 (List.length_eq_zero_iff.mp hh)
              omega
        · rw [dif_neg hv] at hc
          exact absurd (Or.inr ⟨rfl, rfl⟩) (hc _ rfl)

theorem run_char {α : Type} (e : Endian) (visit : Char → Outcome α) :
    (Visitor.char visit).run e = visitThen (primRun deU8) (charRest visit) := by
  funext r
  rw [Visitor.run]
  unfold visitThen primRun visitPrim charRest
  cases deU8 r <;> rfl

/-- `n` bytes at once, as a reader with a position. -/
theorem run_bytes {α : Type} (e : Endian) (visit : Bytes → Outcome α) :
    (Visitor.bytes visit).run e =
      visitThen (primRun (deU64 e)) fun n => visitThen (primRun (deBytes n.toNat)) fun b r => (visit b, r) := by
  funext r
  rw [Visitor.run]
  unfold visitThen primRun visitPrim deBytes
  cases deU64 e r with
  | ok x =>
    simp only
    by_cases h : x.2.length < x.1.toNat
    · rw [if_pos h, if_pos h]
    · rw [if_neg h, if_neg h]
  | err x => rfl
  | panic => rfl

theorem run_option {α : Type} (e : Endian) (o : Outcome α) (s : Visitor α) :
    (Visitor.option o s).run e = visitThen (primRun deU8) fun b r =>
      if b = 0 then (o, r) else if b = 1 then s.run e r else (.err .invalidTag, r) := by
  funext r
  rw [Visitor.run]
  unfold visitThen primRun visitPrim
  cases deU8 r <;> rfl

theorem run_enum {α : Type} (e : Endian) (f : UInt32 → Visitor α) :
    (Visitor.enum f).run e = visitThen (primRun (deU32 e)) fun i => (f i).run e := by
  funext r
  rw [Visitor.run]
  unfold visitThen primRun visitPrim
  cases deU32 e r <;> rfl

theorem run_seq {α : Type} (e : Endian) (f : Nat → Elements α) :
    (Visitor.seq f).run e = visitThen (primRun (deU64 e)) fun n => (f n.toNat).run e n.toNat := by
  funext r
  rw [Visitor.run]
  unfold visitThen primRun visitPrim
  cases deU64 e r <;> rfl

theorem run_after {α β : Type} (e : Endian) (d : Visitor β) (k : β → Outcome α) :
    (Visitor.after d k).run e = visitThen (d.run e) fun b r => (k b, r) := by
  funext r
  rw [Visitor.run]
  rfl

theorem run_next {α β : Type} (e : Endian) (d : Visitor β) (k : Option β → Elements α) (n : Nat) :
    (Elements.next d k).run e (n + 1) = visitThen (d.run e) fun b => (k (some b)).run e n := by
  funext r
  rw [Elements.run]
  rfl

mutual

theorem Visitor.restsOn (e : Endian) (chars : Bool) : ∀ {α : Type} (v : Visitor α), v.Strict chars →
    RestsOnTaken chars (v.run e)
  | _, .value o, _ => by
    have : (Visitor.value o).run e = fun r => (o, r) := by funext r; rw [Visitor.run]
    rw [this]; exact restsOn_value o
  | _, .u8 k, _ => by
    have : (Visitor.u8 k).run e = visitPrim deU8 k := by funext r; rw [Visitor.run]
    rw [this, visitPrim_then]; exact restsOn_then restsOn_u8 fun b => restsOn_value _
  | _, .u16 k, _ => by
    have : (Visitor.u16 k).run e = visitPrim (deU16 e) k := by funext r; rw [Visitor.run]
    rw [this, visitPrim_then]; exact restsOn_then (restsOn_u16 e) fun b => restsOn_value _
  | _, .u32 k, _ => by
    have : (Visitor.u32 k).run e = visitPrim (deU32 e) k := by funext r; rw [Visitor.run]
    rw [this, visitPrim_then]; exact restsOn_then (restsOn_u32 e) fun b => restsOn_value _
  | _, .u64 k, _ => by
    have : (Visitor.u64 k).run e = visitPrim (deU64 e) k := by funext r; rw [Visitor.run]
    rw [this, visitPrim_then]; exact restsOn_then (restsOn_u64 e) fun b => restsOn_value _
  | _, .u128 k, _ => by
    have : (Visitor.u128 k).run e = visitPrim (deU128 e) k := by funext r; rw [Visitor.run]
    rw [this, visitPrim_then]; exact restsOn_then (restsOn_u128 e) fun b => restsOn_value _
  | _, .char k, h => by
    rw [Visitor.Strict] at h
    subst h
    rw [run_char]
    exact restsOn_then restsOn_u8 fun b => restsOn_charRest k b
  | _, .bytes k, _ => by
    rw [run_bytes]
    exact restsOn_then (restsOn_u64 e) fun n => restsOn_then (restsOn_fixed (fixed_bytes _)) fun b =>
      restsOn_value _
  | _, .option o s, h => by
    rw [Visitor.Strict] at h
    rw [run_option]
    refine restsOn_then restsOn_u8 fun b => ?_
    by_cases h0 : b = 0
    · simp only [h0, if_true]
      exact restsOn_value _
    · by_cases h1 : b = 1
      · subst h1
        exact Visitor.restsOn e chars s h
      · simp only [if_neg h0, if_neg h1]
        exact restsOn_value _
  | _, .enum f, h => by
    rw [Visitor.Strict] at h
    rw [run_enum]
    exact restsOn_then (restsOn_u32 e) fun i => Visitor.restsOn e chars (f i) (h i)
  | _, .tuple n b, h => by
    rw [Visitor.Strict] at h
    have : (Visitor.tuple n b).run e = b.run e n := by funext r; rw [Visitor.run]
    rw [this]
    exact Elements.restsOn e chars b h n
  | _, .seq f, h => by
    rw [Visitor.Strict] at h
    rw [run_seq]
    exact restsOn_then (restsOn_u64 e) fun n => Elements.restsOn e chars (f n.toNat) (h _) _
  | _, .after d k, h => by
    rw [Visitor.Strict] at h
    rw [run_after]
    exact restsOn_then (Visitor.restsOn e chars d h) fun b => restsOn_value _
  | _, .rescue _ _ _, h => by
    rw [Visitor.Strict] at h
    exact h.elim

theorem Elements.restsOn (e : Endian) (chars : Bool) : ∀ {α : Type} (v : Elements α), v.Strict chars →
    ∀ n, RestsOnTaken chars (v.run e n)
  | _, .done o, _, n => by
    have : (Elements.done o).run e n = fun r => (o, r) := by funext r; rw [Elements.run]
    rw [this]; exact restsOn_value o
  | _, .next d k, h, 0 => by
    rw [Elements.Strict] at h
    have : (Elements.next d k).run e 0 = (k none).run e 0 := by funext r; rw [Elements.run]
    rw [this]
    exact Elements.restsOn e chars (k none) (h.2 none) 0
  | _, .next d k, h, n + 1 => by
    rw [Elements.Strict] at h
    rw [run_next]
    exact restsOn_then (Visitor.restsOn e chars d h.1) fun b =>
      Elements.restsOn e chars (k (some b)) (h.2 _) n
  | _, .attempt _ _ _, h, _ => by
    rw [Elements.Strict] at h
    exact h.elim

end

/-! ## Where the reader stands, and panics -/

/-- What is left is the end of what was there. -/
def MovesOn {α : Type} (f : Bytes → Outcome α × Bytes) : Prop := ∀ r, ∃ taken, r = taken ++ (f r).2

theorem movesOn_value {α : Type} (o : Outcome α) : MovesOn fun r => (o, r) := fun _ => ⟨[], rfl⟩

theorem movesOn_then {α β : Type} {d : Bytes → Outcome β × Bytes} {g : β → Bytes → Outcome α × Bytes}
    (hd : MovesOn d) (hg : ∀ b, MovesOn (g b)) : MovesOn (visitThen d g) := by
  intro r
  obtain ⟨u, hu⟩ := hd r
  unfold visitThen
  cases hr : d r with
  | mk o r' =>
    rw [hr] at hu
    cases o with
    | ok b =>
      obtain ⟨w, hw⟩ := hg b r'
      refine ⟨u ++ w, ?_⟩
      rw [List.append_assoc]
      simp only at hu ⊢
      rw [← hw]
      exact hu
    | err x => exact ⟨u, hu⟩
    | panic => exact ⟨u, hu⟩

theorem movesOn_fixed {n : Nat} {β : Type} {d : De β} (h : FixedRead n d) : MovesOn (primRun d) := by
  obtain ⟨f, hf⟩ := h
  intro r
  unfold primRun visitPrim
  rw [hf]
  by_cases hl : r.length < n
  · rw [if_pos hl]
    exact ⟨[], rfl⟩
  · rw [if_neg hl]
    exact ⟨r.take n, (List.take_append_drop n r).symm⟩

theorem movesOn_charRest {α : Type} (visit : Char → Outcome α) (b : UInt8) : MovesOn (charRest visit b) := by
  intro r
  unfold charRest
  split
  · exact ⟨[], rfl⟩
  · split
    · exact ⟨[], rfl⟩
    · generalize utf8CharWidth b - 1 = k
      cases h : deCharRest b k r with
      | panic => exact ⟨[], rfl⟩
      | err x =>
        simp only
        split
        · exact ⟨[], rfl⟩
        · exact ⟨r.take k, (List.take_append_drop k r).symm⟩
      | ok y =>
        obtain ⟨c, r''⟩ := y
        unfold deCharRest deBytes at h
        by_cases hl : r.length < k
        · rw [if_pos hl] at h
          cases h
        · rw [if_neg hl] at h
          simp only at h
          split at h
          · split at h
            · cases h
              exact ⟨r.take k, (List.take_append_drop k r).symm⟩
            · cases h
          · cases h

mutual

theorem Visitor.movesOn (e : Endian) : ∀ {α : Type} (v : Visitor α), MovesOn (v.run e)
  | _, .value o => by
    have : (Visitor.value o).run e = fun r => (o, r) := by funext r; rw [Visitor.run]
    rw [this]; exact movesOn_value o
  | _, .u8 k => by
    have : (Visitor.u8 k).run e = visitPrim deU8 k := by funext r; rw [Visitor.run]
    rw [this, visitPrim_then]; exact movesOn_then (movesOn_fixed fixed_u8) fun b => movesOn_value _
  | _, .u16 k => by
    have : (Visitor.u16 k).run e = visitPrim (deU16 e) k := by funext r; rw [Visitor.run]
    rw [this, visitPrim_then]; exact movesOn_then (movesOn_fixed (fixed_int e 2 _)) fun b => movesOn_value _
  | _, .u32 k => by
    have : (Visitor.u32 k).run e = visitPrim (deU32 e) k := by funext r; rw [Visitor.run]
    rw [this, visitPrim_then]; exact movesOn_then (movesOn_fixed (fixed_int e 4 _)) fun b => movesOn_value _
  | _, .u64 k => by
    have : (Visitor.u64 k).run e = visitPrim (deU64 e) k := by funext r; rw [Visitor.run]
    rw [this, visitPrim_then]; exact movesOn_then (movesOn_fixed (fixed_int e 8 _)) fun b => movesOn_value _
  | _, .u128 k => by
    have : (Visitor.u128 k).run e = visitPrim (deU128 e) k := by funext r; rw [Visitor.run]
    rw [this, visitPrim_then]; exact movesOn_then (movesOn_fixed (fixed_int e 16 _)) fun b => movesOn_value _
  | _, .char k => by
    rw [run_char]
    exact movesOn_then (movesOn_fixed fixed_u8) fun b => movesOn_charRest k b
  | _, .bytes k => by
    rw [run_bytes]
    exact movesOn_then (movesOn_fixed (fixed_int e 8 _)) fun n => movesOn_then (movesOn_fixed (fixed_bytes _))
      fun b => movesOn_value _
  | _, .option o s => by
    rw [run_option]
    refine movesOn_then (movesOn_fixed fixed_u8) fun b => ?_
    by_cases h0 : b = 0
    · simp only [h0, if_true]
      exact movesOn_value _
    · by_cases h1 : b = 1
      · subst h1
        exact Visitor.movesOn e s
      · simp only [if_neg h0, if_neg h1]
        exact movesOn_value _
  | _, .enum f => by
    rw [run_enum]
    exact movesOn_then (movesOn_fixed (fixed_int e 4 _)) fun i => Visitor.movesOn e (f i)
  | _, .tuple n b => by
    have : (Visitor.tuple n b).run e = b.run e n := by funext r; rw [Visitor.run]
    rw [this]
    exact Elements.movesOn e b n
  | _, .seq f => by
    rw [run_seq]
    exact movesOn_then (movesOn_fixed (fixed_int e 8 _)) fun n => Elements.movesOn e (f n.toNat) _
  | _, .after d k => by
    rw [run_after]
    exact movesOn_then (Visitor.movesOn e d) fun b => movesOn_value _
  | _, .rescue d k c => by
    intro r
    obtain ⟨u, hu⟩ := Visitor.movesOn e d r
    refine ⟨u, ?_⟩
    rw [Visitor.run]
    cases hr : d.run e r with
    | mk o r' =>
      rw [hr] at hu
      cases o <;> exact hu

theorem Elements.movesOn (e : Endian) : ∀ {α : Type} (v : Elements α) (n : Nat), MovesOn (v.run e n)
  | _, .done o, n => by
    have : (Elements.done o).run e n = fun r => (o, r) := by funext r; rw [Elements.run]
    rw [this]; exact movesOn_value o
  | _, .next d k, 0 => by
    have : (Elements.next d k).run e 0 = (k none).run e 0 := by funext r; rw [Elements.run]
    rw [this]
    exact Elements.movesOn e (k none) 0
  | _, .next d k, n + 1 => by
    rw [run_next]
    exact movesOn_then (Visitor.movesOn e d) fun b => Elements.movesOn e (k (some b)) n
  | _, .attempt d k c, 0 => by
    have : (Elements.attempt d k c).run e 0 = (k none).run e 0 := by funext r; rw [Elements.run]
    rw [this]
    exact Elements.movesOn e (k none) 0
  | _, .attempt d k c, n + 1 => by
    intro r
    obtain ⟨u, hu⟩ := Visitor.movesOn e d r
    rw [Elements.run]
    cases hr : d.run e r with
    | mk o r' =>
      rw [hr] at hu
      simp only at hu
      cases o with
      | ok b =>
        obtain ⟨w, hw⟩ := Elements.movesOn e (k (some b)) n r'
        refine ⟨u ++ w, ?_⟩
        rw [List.append_assoc]
        simp only
        rw [← hw]
        exact hu
      | err x =>
        obtain ⟨w, hw⟩ := Elements.movesOn e (c x) n r'
        refine ⟨u ++ w, ?_⟩
        rw [List.append_assoc]
        simp only
        rw [← hw]
        exact hu
      | panic => exact ⟨u, hu⟩

end

/-- The reader does not panic. -/
def NoPanic {α : Type} (f : Bytes → Outcome α × Bytes) : Prop := ∀ r, (f r).1 ≠ .panic

theorem noPanic_value {α : Type} {o : Outcome α} (h : o ≠ .panic) : NoPanic fun r => (o, r) := fun _ => h

theorem noPanic_then {α β : Type} {d : Bytes → Outcome β × Bytes} {g : β → Bytes → Outcome α × Bytes}
    (hd : NoPanic d) (hg : ∀ b, NoPanic (g b)) : NoPanic (visitThen d g) := by
  intro r
  have := hd r
  unfold visitThen
  cases hr : d r with
  | mk o r' =>
    rw [hr] at this
    cases o with
    | ok b => exact hg b r'
    | err x => exact fun h => nomatch h
    | panic => exact absurd rfl this

theorem noPanic_fixed {n : Nat} {β : Type} {d : De β} (h : FixedRead n d) : NoPanic (primRun d) := by
  obtain ⟨f, hf⟩ := h
  intro r
  unfold primRun visitPrim
  rw [hf]
  by_cases hl : r.length < n
  · rw [if_pos hl]
    exact fun h => nomatch h
  · rw [if_neg hl]
    exact fun h => nomatch h

theorem noPanic_charRest {α : Type} {visit : Char → Outcome α} (h : ∀ c, visit c ≠ .panic) (b : UInt8) :
    NoPanic (charRest visit b) := by
  intro r
  unfold charRest
  split
  · exact h _
  · split
    · exact fun h => nomatch h
    · generalize utf8CharWidth b - 1 = k
      cases hd : deCharRest b k r with
      | ok y => exact h _
      | err x => exact fun h => nomatch h
      | panic =>
        unfold deCharRest deBytes at hd
        by_cases hl : r.length < k
        · rw [if_pos hl] at hd
          cases hd
        · rw [if_neg hl] at hd
          simp only at hd
          split at hd
          · split at hd <;> cases hd
          · cases hd

mutual

theorem Visitor.noPanic (e : Endian) : ∀ {α : Type} (v : Visitor α), v.Quiet → NoPanic (v.run e)
  | _, .value o, h => by
    rw [Visitor.Quiet] at h
    have : (Visitor.value o).run e = fun r => (o, r) := by funext r; rw [Visitor.run]
    rw [this]; exact noPanic_value h
  | _, .u8 k, h => by
    rw [Visitor.Quiet] at h
    have : (Visitor.u8 k).run e = visitPrim deU8 k := by funext r; rw [Visitor.run]
    rw [this, visitPrim_then]; exact noPanic_then (noPanic_fixed fixed_u8) fun b => noPanic_value (h b)
  | _, .u16 k, h => by
    rw [Visitor.Quiet] at h
    have : (Visitor.u16 k).run e = visitPrim (deU16 e) k := by funext r; rw [Visitor.run]
    rw [this, visitPrim_then]; exact noPanic_then (noPanic_fixed (fixed_int e 2 _)) fun b => noPanic_value (h b)
  | _, .u32 k, h => by
    rw [Visitor.Quiet] at h
    have : (Visitor.u32 k).run e = visitPrim (deU32 e) k := by funext r; rw [Visitor.run]
    rw [this, visitPrim_then]; exact noPanic_then (noPanic_fixed (fixed_int e 4 _)) fun b => noPanic_value (h b)
  | _, .u64 k, h => by
    rw [Visitor.Quiet] at h
    have : (Visitor.u64 k).run e = visitPrim (deU64 e) k := by funext r; rw [Visitor.run]
    rw [this, visitPrim_then]; exact noPanic_then (noPanic_fixed (fixed_int e 8 _)) fun b => noPanic_value (h b)
  | _, .u128 k, h => by
    rw [Visitor.Quiet] at h
    have : (Visitor.u128 k).run e = visitPrim (deU128 e) k := by funext r; rw [Visitor.run]
    rw [this, visitPrim_then]; exact noPanic_then (noPanic_fixed (fixed_int e 16 _)) fun b => noPanic_value (h b)
  | _, .char k, h => by
    rw [Visitor.Quiet] at h
    rw [run_char]
    exact noPanic_then (noPanic_fixed fixed_u8) fun b => noPanic_charRest h b
  | _, .bytes k, h => by
    rw [Visitor.Quiet] at h
    rw [run_bytes]
    exact noPanic_then (noPanic_fixed (fixed_int e 8 _)) fun n => noPanic_then (noPanic_fixed (fixed_bytes _))
      fun b => noPanic_value (h b)
  | _, .option o s, h => by
    rw [Visitor.Quiet] at h
    rw [run_option]
    refine noPanic_then (noPanic_fixed fixed_u8) fun b => ?_
    by_cases h0 : b = 0
    · simp only [h0, if_true]
      exact noPanic_value h.1
    · by_cases h1 : b = 1
      · subst h1
        exact Visitor.noPanic e s h.2
      · simp only [if_neg h0, if_neg h1]
        exact noPanic_value (fun h => nomatch h)
  | _, .enum f, h => by
    rw [Visitor.Quiet] at h
    rw [run_enum]
    exact noPanic_then (noPanic_fixed (fixed_int e 4 _)) fun i => Visitor.noPanic e (f i) (h i)
  | _, .tuple n b, h => by
    rw [Visitor.Quiet] at h
    have : (Visitor.tuple n b).run e = b.run e n := by funext r; rw [Visitor.run]
    rw [this]
    exact Elements.noPanic e b h n
  | _, .seq f, h => by
    rw [Visitor.Quiet] at h
    rw [run_seq]
    exact noPanic_then (noPanic_fixed (fixed_int e 8 _)) fun n => Elements.noPanic e (f n.toNat) (h _) _
  | _, .after d k, h => by
    rw [Visitor.Quiet] at h
    rw [run_after]
    exact noPanic_then (Visitor.noPanic e d h.1) fun b => noPanic_value (h.2 b)
  | _, .rescue d k c, h => by
    rw [Visitor.Quiet] at h
    intro r
    have := Visitor.noPanic e d h.1 r
    rw [Visitor.run]
    cases hr : d.run e r with
    | mk o r' =>
      rw [hr] at this
      cases o with
      | ok b => exact h.2.1 b
      | err x => exact h.2.2 x
      | panic => exact absurd rfl this

theorem Elements.noPanic (e : Endian) : ∀ {α : Type} (v : Elements α), v.Quiet → ∀ n, NoPanic (v.run e n)
  | _, .done o, h, n => by
    rw [Elements.Quiet] at h
    have : (Elements.done o).run e n = fun r => (o, r) := by funext r; rw [Elements.run]
    rw [this]; exact noPanic_value h
  | _, .next d k, h, 0 => by
    rw [Elements.Quiet] at h
    have : (Elements.next d k).run e 0 = (k none).run e 0 := by funext r; rw [Elements.run]
    rw [this]
    exact Elements.noPanic e (k none) (h.2 _) 0
  | _, .next d k, h, n + 1 => by
    rw [Elements.Quiet] at h
    rw [run_next]
    exact noPanic_then (Visitor.noPanic e d h.1) fun b => Elements.noPanic e (k (some b)) (h.2 _) n
  | _, .attempt d k c, h, 0 => by
    rw [Elements.Quiet] at h
    have : (Elements.attempt d k c).run e 0 = (k none).run e 0 := by funext r; rw [Elements.run]
    rw [this]
    exact Elements.noPanic e (k none) (h.2.1 _) 0
  | _, .attempt d k c, h, n + 1 => by
    rw [Elements.Quiet] at h
    intro r
    have := Visitor.noPanic e d h.1 r
    rw [Elements.run]
    cases hr : d.run e r with
    | mk o r' =>
      rw [hr] at this
      cases o with
      | ok b => exact Elements.noPanic e (k (some b)) (h.2.1 _) n r'
      | err x => exact Elements.noPanic e (c x) (h.2.2 _) n r'
      | panic => exact absurd rfl this

end

/-! ## The programs of the crate -/

/-- Forget where the reader stands after an error. -/
def toDe {α : Type} (f : Bytes → Outcome α × Bytes) : De α := fun r =>
  match f r with
  | (.ok a, r') => .ok (a, r')
  | (.err x, _) => .err x
  | (.panic, _) => .panic

theorem Visitor.de_toDe (e : Endian) {α : Type} (v : Visitor α) : v.de e = toDe (v.run e) := rfl

theorem toDe_value {α : Type} (o : Outcome α) : toDe (fun r => (o, r)) = De.lift o := by
  funext r
  cases o <;> rfl

theorem toDe_prim {β : Type} (d : De β) : toDe (primRun d) = d := by
  funext r
  unfold toDe primRun visitPrim
  cases d r <;> rfl

theorem toDe_then {α β : Type} (d : Bytes → Outcome β × Bytes) (g : β → Bytes → Outcome α × Bytes) :
    toDe (visitThen d g) = De.bind (toDe d) fun b => toDe (g b) := by
  funext r
  unfold toDe visitThen De.bind
  dsimp only
  cases d r with
  | mk o r' => cases o <;> rfl

theorem De.bind_assoc' {α β γ : Type} (m : De α) (f : α → De β) (g : β → De γ) :
    De.bind (De.bind m f) g = De.bind m fun a => De.bind (f a) g := by
  funext r
  unfold De.bind
  cases m r <;> rfl

theorem De.pure_bind' {α β : Type} (a : α) (f : α → De β) : De.bind (De.pure a) f = f a := rfl

theorem De.lift_ok {α : Type} (a : α) : De.lift (.ok a) = De.pure a := rfl
theorem De.lift_err {α : Type} (x : Error) : De.lift (.err x : Outcome α) = De.fail x := rfl

theorem De.fail_bind {α β : Type} (x : Error) (f : α → De β) : De.bind (De.fail x) f = De.fail x := rfl

theorem toDe_u8 {α : Type} (e : Endian) (k : UInt8 → Outcome α) :
    toDe ((Visitor.u8 k).run e) = De.bind deU8 fun b => De.lift (k b) := by
  have : (Visitor.u8 k).run e = visitPrim deU8 k := by funext r; rw [Visitor.run]
  rw [this, visitPrim_then, toDe_then, toDe_prim]
  simp only [toDe_value]

theorem toDe_u16 {α : Type} (e : Endian) (k : UInt16 → Outcome α) :
    toDe ((Visitor.u16 k).run e) = De.bind (deU16 e) fun b => De.lift (k b) := by
  have : (Visitor.u16 k).run e = visitPrim (deU16 e) k := by funext r; rw [Visitor.run]
  rw [this, visitPrim_then, toDe_then, toDe_prim]
  simp only [toDe_value]

theorem toDe_u32 {α : Type} (e : Endian) (k : UInt32 → Outcome α) :
    toDe ((Visitor.u32 k).run e) = De.bind (deU32 e) fun b => De.lift (k b) := by
  have : (Visitor.u32 k).run e = visitPrim (deU32 e) k := by funext r; rw [Visitor.run]
  rw [this, visitPrim_then, toDe_then, toDe_prim]
  simp only [toDe_value]

theorem toDe_u64 {α : Type} (e : Endian) (k : UInt64 → Outcome α) :
    toDe ((Visitor.u64 k).run e) = De.bind (deU64 e) fun b => De.lift (k b) := by
  have : (Visitor.u64 k).run e = visitPrim (deU64 e) k := by funext r; rw [Visitor.run]
  rw [this, visitPrim_then, toDe_then, toDe_prim]
  simp only [toDe_value]

theorem toDe_u128 {α : Type} (e : Endian) (k : BitVec 128 → Outcome α) :
    toDe ((Visitor.u128 k).run e) = De.bind (deU128 e) fun b => De.lift (k b) := by
  have : (Visitor.u128 k).run e = visitPrim (deU128 e) k := by funext r; rw [Visitor.run]
  rw [this, visitPrim_then, toDe_then, toDe_prim]
  simp only [toDe_value]

theorem De.bind_pure' {α : Type} (m : De α) : De.bind m De.pure = m := by
  funext r
  unfold De.bind De.pure
  cases m r <;> rfl

theorem toDe_u8_ok (e : Endian) : toDe ((Visitor.u8 Outcome.ok).run e) = deU8 := by
  rw [toDe_u8]; exact De.bind_pure' _
theorem toDe_u16_ok (e : Endian) : toDe ((Visitor.u16 Outcome.ok).run e) = deU16 e := by
  rw [toDe_u16]; exact De.bind_pure' _
theorem toDe_u32_ok (e : Endian) : toDe ((Visitor.u32 Outcome.ok).run e) = deU32 e := by
  rw [toDe_u32]; exact De.bind_pure' _
theorem toDe_u64_ok (e : Endian) : toDe ((Visitor.u64 Outcome.ok).run e) = deU64 e := by
  rw [toDe_u64]; exact De.bind_pure' _
theorem toDe_u128_ok (e : Endian) : toDe ((Visitor.u128 Outcome.ok).run e) = deU128 e := by
  rw [toDe_u128]; exact De.bind_pure' _

theorem toDe_after {α β : Type} (e : Endian) (d : Visitor β) (k : β → Outcome α) :
    toDe ((Visitor.after d k).run e) = De.bind (toDe (d.run e)) fun b => De.lift (k b) := by
  rw [run_after, toDe_then]
  simp only [toDe_value]

theorem toDe_tuple {α : Type} (e : Endian) (n : Nat) (b : Elements α) :
    toDe ((Visitor.tuple n b).run e) = toDe (b.run e n) := by
  have : (Visitor.tuple n b).run e = b.run e n := by funext r; rw [Visitor.run]
  rw [this]

theorem toDe_done {α : Type} (e : Endian) (o : Outcome α) (n : Nat) :
    toDe ((Elements.done o).run e n) = De.lift o := by
  have : (Elements.done o).run e n = fun r => (o, r) := by funext r; rw [Elements.run]
  rw [this, toDe_value]

theorem toDe_field {α β : Type} (e : Endian) (d : Visitor β) (x : Error) (k : β → Elements α) : ∀ n : Nat,
    toDe ((Elements.field d x k).run e n) =
      De.bind (field (toDe (d.run e)) x n) fun p => toDe ((k p.1).run e p.2)
  | 0 => by
    have : (Elements.field d x k).run e 0 = (Elements.done (.err x)).run e 0 := by
      funext r
      unfold Elements.field
      conv => lhs; rw [Elements.run]
    rw [this, toDe_done]
    rfl
  | n + 1 => by
    unfold Elements.field
    rw [run_next, toDe_then]
    have : field (toDe (d.run e)) x (n + 1) = De.bind (toDe (d.run e)) fun a => De.pure (a, n) := by
      funext r
      unfold field nextElement
      show De.bind (De.bind (toDe (d.run e)) _) _ r = _
      rw [De.bind_assoc']
      rfl
    rw [this, De.bind_assoc']
    rfl

theorem toDe_fields {α β : Type} (e : Endian) (d : Visitor β) (x : Error) : ∀ (m : Nat) (k : List β → Elements α)
    (n : Nat), toDe ((Elements.fields d x m k).run e n) =
      De.bind (repeatField (toDe (d.run e)) x m n) fun p => toDe ((k p.1).run e p.2)
  | 0, _, _ => rfl
  | m + 1, k, n => by
    unfold Elements.fields
    rw [toDe_field]
    have : repeatField (toDe (d.run e)) x (m + 1) n =
        De.bind (field (toDe (d.run e)) x n) fun p =>
          De.bind (repeatField (toDe (d.run e)) x m p.2) fun q => De.pure (p.1 :: q.1, q.2) := rfl
    rw [this, De.bind_assoc']
    congr 1
    funext p
    rw [toDe_fields e d x m, De.bind_assoc']
    rfl

theorem same_vBits (e : Endian) : vBits.de e = Deserialize.de e := by
  rw [Visitor.de_toDe, vBits, toDe_u8]
  rfl

theorem same_vIpv4 (e : Endian) : toDe (vIpv4.run e) = deIpv4 := by
  simp only [vIpv4, toDe_tuple, toDe_field, toDe_done, toDe_u8_ok]
  rfl

theorem same_vAddress (e : Endian) : vAddress.de e = Deserialize.de e := by
  rw [Visitor.de_toDe]
  simp only [vAddress, toDe_tuple, toDe_field, toDe_done, toDe_u16_ok, same_vIpv4]
  rfl

theorem same_vVarLen16 (e : Endian) : vVarLen16.de e = Deserialize.de e := by
  rw [Visitor.de_toDe]
  simp only [vVarLen16, toDe_tuple, toDe_field, toDe_fields, toDe_done, toDe_u16_ok, toDe_u8_ok]
  rfl

theorem same_vVarLen32 (e : Endian) : vVarLen32.de e = Deserialize.de e := by
  rw [Visitor.de_toDe]
  simp only [vVarLen32, toDe_tuple, toDe_field, toDe_fields, toDe_done, toDe_u32_ok, toDe_u8_ok]
  rfl

theorem toDe_ite {α : Type} (e : Endian) (c : Prop) [Decidable c] (a b : Elements α) (n : Nat) :
    toDe ((if c then a else b).run e n) = if c then toDe (a.run e n) else toDe (b.run e n) := by
  split <;> rfl

theorem same_vHeader (e : Endian) : vHeader.de e = Deserialize.de e := by
  rw [Visitor.de_toDe]
  simp only [vHeader, toDe_tuple, toDe_field, toDe_fields, toDe_done, toDe_u8_ok, toDe_ite]
  rfl

theorem same_vNested (e : Endian) : vNested.de e = Deserialize.de e := by
  rw [Visitor.de_toDe, vNested, toDe_after, ← Visitor.de_toDe, same_vVarLen16]
  rfl

theorem same_vAuth (e : Endian) : vAuth.de e = Deserialize.de e := by
  rw [Visitor.de_toDe, vAuth, toDe_after, ← Visitor.de_toDe, same_vVarLen16]
  rfl

theorem rawRounds_run (e : Endian) : ∀ (m n : Nat) (res r : Bytes), n < m →
    (rawRounds m res).run e n r = (.ok ⟨res ++ (rawLoop n r).1⟩, (rawLoop n r).2)
  | 0, _, _, _, h => by omega
  | m + 1, 0, res, r, _ => by
    rw [rawRounds, Elements.run]
    simp only
    rw [Elements.run]
    simp [rawLoop]
  | m + 1, n + 1, res, r, h => by
    rw [rawRounds, Elements.run, Visitor.run]
    cases r with
    | nil =>
      simp only [visitPrim, deU8]
      rw [Elements.run]
      simp [rawLoop, deU8]
    | cons b r =>
      simp only [visitPrim, deU8]
      rw [rawRounds_run e m n (res ++ [b]) r (by omega)]
      simp [rawLoop, deU8]

theorem same_vRawEnd (e : Endian) : vRawEnd.de e = Deserialize.de e := by
  rw [Visitor.de_toDe, vRawEnd, toDe_tuple]
  funext r
  unfold toDe
  rw [rawRounds_run e _ _ _ _ (by omega)]
  rfl

theorem toDe_vBits (e : Endian) : toDe (vBits.run e) = Deserialize.de e := same_vBits e
theorem toDe_vAddress (e : Endian) : toDe (vAddress.run e) = Deserialize.de e := same_vAddress e
theorem toDe_vRawEnd (e : Endian) : toDe (vRawEnd.run e) = Deserialize.de e := same_vRawEnd e

theorem same_vIntroRequest (e : Endian) : vIntroRequest.de e = Deserialize.de e := by
  rw [Visitor.de_toDe]
  simp only [vIntroRequest, toDe_tuple, toDe_field, toDe_done, toDe_u16_ok, toDe_vAddress,
    toDe_vBits, toDe_vRawEnd]
  rfl

theorem same_vIntroResponse (e : Endian) : vIntroResponse.de e = Deserialize.de e := by
  rw [Visitor.de_toDe]
  simp only [vIntroResponse, toDe_tuple, toDe_field, toDe_done, toDe_u16_ok, toDe_vAddress,
    toDe_vBits, toDe_vRawEnd]
  rfl

theorem same_vPuncture (e : Endian) : vPuncture.de e = Deserialize.de e := by
  rw [Visitor.de_toDe]
  simp only [vPuncture, toDe_tuple, toDe_field, toDe_done, toDe_u16_ok, toDe_vAddress]
  rfl

theorem same_vPunctureRequest (e : Endian) : vPunctureRequest.de e = Deserialize.de e := by
  rw [Visitor.de_toDe]
  simp only [vPunctureRequest, toDe_tuple, toDe_field, toDe_done, toDe_u16_ok, toDe_vAddress]
  rfl

theorem same_vTime (e : Endian) : vTime.de e = Deserialize.de e := by
  rw [Visitor.de_toDe]
  simp only [vTime, toDe_tuple, toDe_field, toDe_done, toDe_u64_ok]
  rfl

theorem toDe_option {α : Type} (e : Endian) (o : Outcome α) (s : Visitor α) :
    toDe ((Visitor.option o s).run e) = De.bind deU8 fun b =>
      if b = 0 then De.lift o else if b = 1 then toDe (s.run e) else De.fail .invalidTag := by
  rw [run_option, toDe_then, toDe_prim]
  congr 1
  funext b
  by_cases h0 : b = 0
  · simp only [h0, if_true]
    exact toDe_value o
  · by_cases h1 : b = 1
    · subst h1
      rfl
    · simp only [if_neg h0, if_neg h1]
      exact toDe_value _

theorem toDe_enum {α : Type} (e : Endian) (f : UInt32 → Visitor α) :
    toDe ((Visitor.enum f).run e) = De.bind (deU32 e) fun i => toDe ((f i).run e) := by
  rw [run_enum, toDe_then, toDe_prim]

theorem toDe_all {α β : Type} (e : Endian) (d : Visitor β) : ∀ (n : Nat) (k : List β → Elements α),
    toDe ((Elements.all d n k).run e n) = De.bind (vecLoop (toDe (d.run e)) n) fun bs => toDe ((k bs).run e 0)
  | 0, _ => rfl
  | n + 1, k => by
    unfold Elements.all
    rw [run_next, toDe_then]
    have : vecLoop (toDe (d.run e)) (n + 1) = De.bind (toDe (d.run e)) fun a =>
        De.bind (vecLoop (toDe (d.run e)) n) fun as => De.pure (a :: as) := rfl
    rw [this, De.bind_assoc']
    congr 1
    funext b
    rw [De.bind_assoc']
    exact toDe_all e d n _

theorem toDe_vec {β : Type} (e : Endian) (d : Visitor β) :
    toDe ((vVec d).run e) = deVec e (toDe (d.run e)) := by
  unfold vVec
  rw [run_seq, toDe_then, toDe_prim]
  show _ = De.bind (deU64 e) fun n => vecLoop (toDe (d.run e)) n.toNat
  congr 1
  funext n
  rw [toDe_all]
  simp only [toDe_done]
  exact De.bind_pure' _

theorem same_vVarLen64 (e : Endian) : vVarLen64.de e = Deserialize.de e := by
  rw [Visitor.de_toDe, vVarLen64, toDe_after, toDe_vec, toDe_u8_ok]
  rfl

theorem toDe_char {α : Type} (e : Endian) (k : Char → Outcome α) :
    toDe ((Visitor.char k).run e) = De.bind deChar fun c => De.lift (k c) := by
  rw [run_char, toDe_then, toDe_prim]
  have : deChar = De.bind deU8 fun b =>
    if utf8CharWidth b = 1 then De.pure (Char.ofNat b.toNat)
    else if utf8CharWidth b = 0 then De.fail .invalidChar
    else deCharRest b (utf8CharWidth b - 1) := rfl
  rw [this, De.bind_assoc']
  congr 1
  funext b
  unfold charRest
  by_cases h1 : utf8CharWidth b = 1
  · simp only [h1, if_true, De.pure_bind']
    exact toDe_value _
  · by_cases h0 : utf8CharWidth b = 0
    · simp only [h0]
      exact toDe_value _
    · simp only [if_neg h1, if_neg h0]
      generalize utf8CharWidth b - 1 = n
      funext r
      unfold toDe De.bind
      dsimp only
      cases deCharRest b n r with
      | ok x =>
        obtain ⟨c, r'⟩ := x
        simp only
        cases k c <;> rfl
      | err x => rfl
      | panic => rfl

theorem toDe_visitor_dite {α : Type} (e : Endian) (c : Prop) [Decidable c] (a : c → Visitor α) (b : ¬ c → Visitor α) :
    toDe ((if h : c then a h else b h).run e) = if h : c then toDe ((a h).run e) else toDe ((b h).run e) := by
  split <;> rfl

theorem repeatField_all {α : Type} (d : De α) (x : Error) : ∀ n : Nat,
    repeatField d x n n = De.bind (vecLoop d n) fun xs => De.pure (xs, 0)
  | 0 => rfl
  | n + 1 => by
    have h1 : repeatField d x (n + 1) (n + 1) = De.bind (field d x (n + 1)) fun p =>
        De.bind (repeatField d x n p.2) fun q => De.pure (p.1 :: q.1, q.2) := rfl
    have h2 : field d x (n + 1) = De.bind d fun a => De.pure (a, n) := by
      unfold field nextElement
      show De.bind (De.bind d _) _ = _
      rw [De.bind_assoc']
      rfl
    have h3 : vecLoop d (n + 1) = De.bind d fun a => De.bind (vecLoop d n) fun as => De.pure (a :: as) := rfl
    rw [h1, h2, h3, De.bind_assoc', De.bind_assoc']
    congr 1
    funext a
    rw [De.pure_bind', De.bind_assoc']
    simp only
    rw [repeatField_all d x n, De.bind_assoc']
    rfl

theorem same_sch_visitor (e : Endian) (s : Sch) : toDe (s.visitor.run e) = s.de e := by
  induction s with
  | u8 => exact toDe_u8_ok e
  | u16 => exact toDe_u16_ok e
  | u32 => exact toDe_u32_ok e
  | u64 => exact toDe_u64_ok e
  | u128 => exact toDe_u128_ok e
  | i8 => exact toDe_u8 e _
  | i16 => exact toDe_u16 e _
  | i32 => exact toDe_u32 e _
  | i64 => exact toDe_u64 e _
  | bool =>
    refine (toDe_u8 e _).trans ?_
    show _ = De.bind deU8 _
    congr 1
    funext b
    by_cases h0 : b = 0
    · simp only [h0, if_true]
      rfl
    · by_cases h1 : b = 1
      · subst h1
        rfl
      · simp only [if_neg h0, if_neg h1]
        rfl
  | char =>
    refine (toDe_char e _).trans ?_
    exact De.bind_pure' _
  | string =>
    refine (toDe_after e _ _).trans ?_
    rw [toDe_vec, toDe_u8_ok]
    show _ = De.bind (deVec e deU8) _
    congr 1
    funext bs
    split <;> rfl
  | bits => exact same_vBits e
  | address => exact same_vAddress e
  | varlen16 => exact same_vVarLen16 e
  | varlen32 => exact same_vVarLen32 e
  | varlen64 => exact same_vVarLen64 e
  | nested => exact same_vNested e
  | rawEnd => exact same_vRawEnd e
  | option s ih =>
    refine (toDe_option e _ _).trans ?_
    rw [toDe_after, ih]
    rfl
  | vec s ih =>
    refine (toDe_vec e _).trans ?_
    rw [ih]
    rfl
  | array n s ih =>
    refine (toDe_tuple e n _).trans ?_
    rw [toDe_fields, ih, repeatField_all, De.bind_assoc']
    show _ = De.bind (vecLoop (s.de e) n) _
    congr 1
    funext xs
    rw [De.pure_bind']
    split
    · rw [toDe_done]; rfl
    · rw [toDe_done]; rfl
  | unit => rfl
  | cons a b iha ihb =>
    refine (toDe_tuple e 2 _).trans ?_
    simp only [toDe_field, toDe_done, iha, ihb]
    have h2 : ∀ {β : Type} (d : De β) (x : Error) (n : Nat),
        field d x (n + 1) = De.bind d fun a => De.pure (a, n) := by
      intro β d x n
      unfold field nextElement
      show De.bind (De.bind d _) _ = _
      rw [De.bind_assoc']
      rfl
    rw [h2, De.bind_assoc']
    show _ = De.bind (a.de e) fun x => De.bind (b.de e) fun y => De.pure (x, y)
    congr 1
    funext x
    rw [De.pure_bind']
    simp only
    rw [h2, De.bind_assoc']
    rfl
  | enum n f ih =>
    refine (toDe_enum e _).trans ?_
    show _ = De.bind (deU32 e) _
    congr 1
    funext i
    rw [toDe_visitor_dite]
    split
    · rw [toDe_after, ih]
      rfl
    · have : ∀ o : Outcome (Sch.enum n f).Ty, (Visitor.value o).run e = fun r => (o, r) := by
        intro o
        funext r
        rw [Visitor.run]
      rw [this, toDe_value]
      rfl

/-! ## Strictness of the crate's programs -/

theorem strict_field {chars : Bool} {α β : Type} {d : Visitor β} {x : Error} {k : β → Elements α}
    (hd : d.Strict chars) (hk : ∀ b, (k b).Strict chars) : (Elements.field d x k).Strict chars := by
  unfold Elements.field
  rw [Elements.Strict]
  refine ⟨hd, fun o => ?_⟩
  cases o with
  | none => rw [Elements.Strict]; trivial
  | some b => exact hk b

theorem strict_fields {chars : Bool} {α β : Type} {d : Visitor β} {x : Error} (hd : d.Strict chars) :
    ∀ (n : Nat) {k : List β → Elements α}, (∀ b, (k b).Strict chars) → (Elements.fields d x n k).Strict chars
  | 0, _, hk => hk []
  | n + 1, _, hk => strict_field hd fun _ => strict_fields hd n fun _ => hk _

theorem strict_all {chars : Bool} {α β : Type} {d : Visitor β} (hd : d.Strict chars) :
    ∀ (n : Nat) {k : List β → Elements α}, (∀ b, (k b).Strict chars) → (Elements.all d n k).Strict chars
  | 0, _, hk => hk []
  | n + 1, _, hk => by
    unfold Elements.all
    rw [Elements.Strict]
    refine ⟨hd, fun o => ?_⟩
    cases o with
    | none => exact hk []
    | some b => exact strict_all hd n fun _ => hk _

theorem strict_done {chars : Bool} {α : Type} (o : Outcome α) : (Elements.done o).Strict chars := by
  rw [Elements.Strict]; trivial

theorem strict_u8 {chars : Bool} {α : Type} (k : UInt8 → Outcome α) : (Visitor.u8 k).Strict chars := by
  rw [Visitor.Strict]; trivial
theorem strict_u16 {chars : Bool} {α : Type} (k : UInt16 → Outcome α) : (Visitor.u16 k).Strict chars := by
  rw [Visitor.Strict]; trivial
theorem strict_u32 {chars : Bool} {α : Type} (k : UInt32 → Outcome α) : (Visitor.u32 k).Strict chars := by
  rw [Visitor.Strict]; trivial
theorem strict_u64 {chars : Bool} {α : Type} (k : UInt64 → Outcome α) : (Visitor.u64 k).Strict chars := by
  rw [Visitor.Strict]; trivial
theorem strict_u128 {chars : Bool} {α : Type} (k : BitVec 128 → Outcome α) : (Visitor.u128 k).Strict chars := by
  rw [Visitor.Strict]; trivial
theorem strict_tuple {chars : Bool} {α : Type} {n : Nat} {b : Elements α} (h : b.Strict chars) :
    (Visitor.tuple n b).Strict chars := by
  rw [Visitor.Strict]; exact h
theorem strict_after {chars : Bool} {α β : Type} {d : Visitor β} {k : β → Outcome α} (h : d.Strict chars) :
    (Visitor.after d k).Strict chars := by
  rw [Visitor.Strict]; exact h

theorem strict_vBits (chars : Bool) : vBits.Strict chars := strict_u8 _

theorem strict_vIpv4 (chars : Bool) : vIpv4.Strict chars :=
  strict_tuple (strict_field (strict_u8 _) fun _ => strict_field (strict_u8 _) fun _ =>
    strict_field (strict_u8 _) fun _ => strict_field (strict_u8 _) fun _ => strict_done _)

theorem strict_vAddress (chars : Bool) : vAddress.Strict chars :=
  strict_tuple (strict_field (strict_vIpv4 _) fun _ => strict_field (strict_u16 _) fun _ => strict_done _)

theorem strict_vVarLen16 (chars : Bool) : vVarLen16.Strict chars :=
  strict_tuple (strict_field (strict_u16 _) fun _ => strict_fields (strict_u8 _) _ fun _ => strict_done _)

theorem strict_vVarLen32 (chars : Bool) : vVarLen32.Strict chars :=
  strict_tuple (strict_field (strict_u32 _) fun _ => strict_fields (strict_u8 _) _ fun _ => strict_done _)

theorem strict_vVec {chars : Bool} {β : Type} {d : Visitor β} (hd : d.Strict chars) : (vVec d).Strict chars := by
  unfold vVec
  rw [Visitor.Strict]
  exact fun n => strict_all hd n fun _ => strict_done _

theorem strict_vVarLen64 (chars : Bool) : vVarLen64.Strict chars := strict_after (strict_vVec (strict_u8 _))

theorem strict_vHeader (chars : Bool) : vHeader.Strict chars := by
  refine strict_tuple (strict_field (strict_u8 _) fun _ => strict_field (strict_u8 _) fun _ => ?_)
  split
  · exact strict_fields (strict_u8 _) _ fun _ => strict_field (strict_u8 _) fun _ => strict_done _
  · exact strict_done _

theorem strict_vNested (chars : Bool) : vNested.Strict chars := strict_after (strict_vVarLen16 _)
theorem strict_vAuth (chars : Bool) : vAuth.Strict chars := strict_after (strict_vVarLen16 _)

theorem strict_vPuncture (chars : Bool) : vPuncture.Strict chars :=
  strict_tuple (strict_field (strict_vAddress _) fun _ => strict_field (strict_vAddress _) fun _ =>
    strict_field (strict_u16 _) fun _ => strict_done _)

theorem strict_vPunctureRequest (chars : Bool) : vPunctureRequest.Strict chars :=
  strict_tuple (strict_field (strict_vAddress _) fun _ => strict_field (strict_vAddress _) fun _ =>
    strict_field (strict_u16 _) fun _ => strict_done _)

theorem strict_vTime (chars : Bool) : vTime.Strict chars :=
  strict_tuple (strict_field (strict_u64 _) fun _ => strict_done _)

theorem strict_sch (chars : Bool) (s : Sch) : s.Closed chars → s.visitor.Strict chars := by
  induction s with
  | u8 => exact fun _ => strict_u8 _
  | u16 => exact fun _ => strict_u16 _
  | u32 => exact fun _ => strict_u32 _
  | u64 => exact fun _ => strict_u64 _
  | u128 => exact fun _ => strict_u128 _
  | i8 => exact fun _ => strict_u8 _
  | i16 => exact fun _ => strict_u16 _
  | i32 => exact fun _ => strict_u32 _
  | i64 => exact fun _ => strict_u64 _
  | bool => exact fun _ => strict_u8 _
  | char =>
    intro h
    unfold Sch.visitor
    rw [Visitor.Strict]
    exact h
  | string => exact fun _ => strict_after (strict_vVec (strict_u8 _))
  | bits => exact fun _ => strict_vBits _
  | address => exact fun _ => strict_vAddress _
  | varlen16 => exact fun _ => strict_vVarLen16 _
  | varlen32 => exact fun _ => strict_vVarLen32 _
  | varlen64 => exact fun _ => strict_vVarLen64 _
  | nested => exact fun _ => strict_vNested _
  | rawEnd => exact fun h => h.elim
  | option s ih =>
    intro h
    unfold Sch.visitor
    rw [Visitor.Strict]
    exact strict_after (ih h)
  | vec s ih => exact fun h => strict_vVec (ih h)
  | array n s ih =>
    intro h
    refine strict_tuple (strict_fields (ih h) _ fun xs => ?_)
    split <;> exact strict_done _
  | unit =>
    intro _
    unfold Sch.visitor
    rw [Visitor.Strict]
    trivial
  | cons a b iha ihb =>
    exact fun h => strict_tuple (strict_field (iha h.1) fun _ => strict_field (ihb h.2) fun _ => strict_done _)
  | enum n f ih =>
    intro h
    unfold Sch.visitor
    rw [Visitor.Strict]
    intro i
    split
    · exact strict_after (ih _ (h _))
    · rw [Visitor.Strict]
      trivial

/-! ## `next_payload` -/

theorem selfDelimiting_of {chars : Bool} {α : Type} [Ipv8Payload α] [Serialize α] [Deserialize α]
    {f : Bytes → Outcome α × Bytes} (hf : RestsOnTaken chars f) (hd : toDe f = (Deserialize.de .big : De α)) :
    SelfDelimiting chars α := by
  intro w i o d' hi h hc
  have hgo : ∀ w' : Bytes, i ≤ w'.length → (PacketDeserializer.mk ⟨w'⟩ i).nextPayload α =
      match f (w'.drop i) with
      | (.ok v, _) =>
        (match Bincode.serializedSize v with
        | .ok n => (.ok v, ⟨⟨w'⟩, i + n⟩)
        | .err e => (.err e, ⟨⟨w'⟩, i⟩)
        | .panic => (.panic, ⟨⟨w'⟩, i⟩))
      | (.err e, _) => (.err e, ⟨⟨w'⟩, i⟩)
      | (.panic, _) => (.panic, ⟨⟨w'⟩, i⟩) := by
    intro w' hw'
    rw [nextPayload_inside (d := ⟨⟨w'⟩, i⟩) hw', ← hd]
    show (match toDe f (w'.drop i) with | _ => _) = _
    unfold toDe
    cases f (w'.drop i) with
    | mk o r => cases o <;> rfl
  rw [hgo w hi] at h
  have hcf : Complete chars (f (w.drop i)).1 := by
    intro x hx hm
    cases hr : f (w.drop i) with
    | mk o1 r1 =>
      rw [hr] at hx h
      simp only at hx
      subst hx
      simp only [Prod.mk.injEq] at h
      exact hc x h.1.symm hm
  obtain ⟨u, e1, e2, e3⟩ := hf (w.drop i) hcf
  have hlen := congrArg List.length e1
  simp only [List.length_drop, List.length_append] at hlen
  have hu : u = (w.drop i).take u.length := by rw [e1]; simp
  have htake : ∀ m, i ≤ m → (w.take m).drop i = (w.drop i).take (m - i) := by
    intro m _
    rw [List.drop_take]
  refine ⟨u.length, by omega, fun w' hw' => ?_, fun m hm1 hm2 => ?_⟩
  · have hl' : i + u.length ≤ w'.length := by
      have := congrArg List.length hw'
      simp only [List.length_take] at this
      omega
    rw [hgo w' (by omega)]
    have hs : w'.drop i = u ++ w'.drop (i + u.length) := by
      have h1 : (w'.drop i).take u.length = u := by
        have h2 : (w'.take (i + u.length)).drop i = (w.take (i + u.length)).drop i := by rw [hw']
        rw [List.drop_take, List.drop_take] at h2
        rw [show i + u.length - i = u.length by omega] at h2
        rw [h2, ← hu]
      conv => lhs; rw [← List.take_append_drop u.length (w'.drop i)]
      rw [h1, List.drop_drop]
    rw [hs, e2]
    cases hr : f (w.drop i) with
    | mk o1 r1 =>
      rw [hr] at h
      cases o1 with
      | ok a =>
        simp only at h ⊢
        cases hz : Bincode.serializedSize a with
        | ok n =>
          rw [hz] at h
          simp only [Prod.mk.injEq] at h ⊢
          obtain ⟨rfl, rfl⟩ := h
          exact ⟨rfl, rfl⟩
        | err x =>
          rw [hz] at h
          simp only [Prod.mk.injEq] at h ⊢
          obtain ⟨rfl, rfl⟩ := h
          exact ⟨rfl, rfl⟩
        | panic =>
          rw [hz] at h
          simp only [Prod.mk.injEq] at h ⊢
          obtain ⟨rfl, rfl⟩ := h
          exact ⟨rfl, rfl⟩
      | err x =>
        simp only [Prod.mk.injEq] at h ⊢
        obtain ⟨rfl, rfl⟩ := h
        exact ⟨rfl, rfl⟩
      | panic =>
        simp only [Prod.mk.injEq] at h ⊢
        obtain ⟨rfl, rfl⟩ := h
        exact ⟨rfl, rfl⟩
  · have hpart : (w.take m).drop i = u.take (m - i) := by
      rw [htake m hm1]
      conv => rhs; rw [hu, List.take_take]
      rw [Nat.min_eq_left (by omega)]
    obtain ⟨x, q1, q2⟩ := e3 (u.take (m - i)) (u.drop (m - i)) (List.take_append_drop _ _).symm (by
      intro h0
      have := congrArg List.length h0
      simp only [List.length_drop, List.length_nil] at this
      omega)
    refine ⟨x, ?_, q2⟩
    rw [hgo (w.take m) (by simp only [List.length_take]; omega), hpart]
    cases hr : f (u.take (m - i)) with
    | mk o1 r1 =>
      rw [hr] at q1
      simp only at q1
      subst q1
      rfl

theorem handmade_toDe {α : Type} (ser : α → Outcome (List Tok)) (v : Visitor α) :
    toDe (visitThen (v.run .big) fun a r => (.ok (⟨a⟩ : Handmade ser v), r)) = Deserialize.de .big := by
  rw [toDe_then]
  rfl

theorem handmade_size {α : Type} (ser : α → Outcome (List Tok)) (v : Visitor α) (a : α) :
    Bincode.serializedSize (⟨a⟩ : Handmade ser v) =
      match ser a with
      | .ok ts => .ok ((ts.map Tok.size).sum)
      | .err x => .err x
      | .panic => .panic := rfl

/-! ## The theorems -/

/-- C99. A payload with a hand-written reader that passes every error on, whatever else it does: what `next_payload`
makes of it depends on the bytes it takes and nothing behind them, and every shorter packet is one in which bytes are
missing. -/
theorem C99 (chars : Bool) {α : Type} (ser : α → Outcome (List Tok)) (v : Visitor α) (hv : v.Strict chars) :
    SelfDelimiting chars (Handmade ser v) :=
  selfDelimiting_of (restsOn_then (v.restsOn .big chars hv) fun _ => restsOn_value _) (handmade_toDe ser v)

/-- C99. Any reader, also one that catches errors, leaves unread an end of what was there: it never sees a byte
twice, skips back or invents any. -/
theorem C99_forward (e : Endian) {α : Type} (v : Visitor α) (r : Bytes) : ∃ taken, r = taken ++ (v.run e r).2 :=
  v.movesOn e r

/-- C99. A reader panics only where its own code does: no bytes make `next_payload` panic otherwise, if the cursor
is inside the packet and writing the value does not panic. -/
theorem C99_panic {α : Type} (ser : α → Outcome (List Tok)) (v : Visitor α) (hv : v.Quiet)
    (hs : ∀ a, ser a ≠ .panic) (w : Bytes) (i : Nat) (hi : i ≤ w.length) :
    ((PacketDeserializer.mk ⟨w⟩ i).nextPayload (Handmade ser v)).1 ≠ .panic := by
  rw [nextPayload_inside (d := ⟨⟨w⟩, i⟩) hi, ← handmade_toDe]
  have hn := v.noPanic .big hv (w.drop i)
  unfold toDe visitThen
  simp only
  cases hr : v.run .big (w.drop i) with
  | mk o r =>
    rw [hr] at hn
    cases o with
    | ok a =>
      simp only
      rw [handmade_size]
      have := hs a
      cases hx : ser a with
      | ok ts => exact fun h => nomatch h
      | err x => exact fun h => nomatch h
      | panic => exact absurd hx this
    | err x => exact fun h => nomatch h
    | panic => exact absurd rfl hn

/-- C99. And a panic cannot be caught by a reader around it, as an error can: whatever that is prepared to do, it panics
too, as a whole element and as an element of something, and so does `next_payload`. -/
theorem C99_uncaught {α β : Type} (d : Visitor β) (w : Bytes) (i : Nat) (hi : i ≤ w.length)
    (h : (d.run .big (w.drop i)).1 = .panic) :
    ∀ v : Visitor α, ((∃ k, v = .after d k) ∨ (∃ k caught, v = .rescue d k caught) ∨
        (∃ n k, v = .tuple (n + 1) (.next d k)) ∨ (∃ n k caught, v = .tuple (n + 1) (.attempt d k caught))) →
      (v.run .big (w.drop i)).1 = .panic ∧
        ∀ ser, ((PacketDeserializer.mk ⟨w⟩ i).nextPayload (Handmade ser v)).1 = .panic := by
  intro v hv
  have hr : d.run .big (w.drop i) = (.panic, (d.run .big (w.drop i)).2) := Prod.ext h rfl
  have hp : (v.run .big (w.drop i)).1 = .panic := by
    rcases hv with ⟨k, rfl⟩ | ⟨k, caught, rfl⟩ | ⟨n, k, rfl⟩ | ⟨n, k, caught, rfl⟩
    · rw [Visitor.run, hr]
    · rw [Visitor.run, hr]
    · rw [Visitor.run, Elements.run, hr]
    · rw [Visitor.run, Elements.run, hr]
  refine ⟨hp, fun ser => ?_⟩
  rw [nextPayload_inside (d := ⟨⟨w⟩, i⟩) hi, ← handmade_toDe]
  unfold toDe visitThen
  have hv : v.run .big (w.drop i) = (.panic, (v.run .big (w.drop i)).2) := Prod.ext hp rfl
  simp only
  rw [hv]

/-- Example: a reader that panics on the first byte 7 and one that would catch its errors. -/
example : ((Visitor.u8 fun b => if b = 7 then .panic else .ok b).run .big ([7, 8].drop 0)).1 = .panic := rfl

/-- C99. The readers of the crate are such programs. -/
theorem C99_crate (e : Endian) :
    vBits.de e = Deserialize.de e ∧ vAddress.de e = Deserialize.de e ∧ vVarLen16.de e = Deserialize.de e ∧
    vVarLen32.de e = Deserialize.de e ∧ vVarLen64.de e = Deserialize.de e ∧ vRawEnd.de e = Deserialize.de e ∧
    vHeader.de e = Deserialize.de e ∧ vNested.de e = Deserialize.de e ∧ vAuth.de e = Deserialize.de e ∧
    vTime.de e = Deserialize.de e ∧ vPuncture.de e = Deserialize.de e ∧ vPunctureRequest.de e = Deserialize.de e ∧
    vIntroRequest.de e = Deserialize.de e ∧ vIntroResponse.de e = Deserialize.de e ∧
    ∀ s : Sch, s.visitor.de e = s.de e :=
  ⟨same_vBits e, same_vAddress e, same_vVarLen16 e, same_vVarLen32 e, same_vVarLen64 e, same_vRawEnd e,
    same_vHeader e, same_vNested e, same_vAuth e, same_vTime e, same_vPuncture e, same_vPunctureRequest e,
    same_vIntroRequest e, same_vIntroResponse e, same_sch_visitor e⟩

/-- C99. All payloads of the crate but the two introductions, which end in a `RawEnd`, rest on the bytes they take;
and so do all payloads an application derives without a `RawEnd`. -/
theorem C99_payloads :
    SelfDelimiting false VarLen16 ∧ SelfDelimiting false VarLen32 ∧ SelfDelimiting false VarLen64 ∧
    SelfDelimiting false NestedPacket ∧ SelfDelimiting false TimeDistributionPayload ∧
    SelfDelimiting false PuncturePayload ∧ SelfDelimiting false PunctureRequestPayload ∧
    SelfDelimiting false BinMemberAuthenticationPayload ∧
    ∀ chars (s : Sch), s.Closed chars → SelfDelimiting chars (Derived s) := by
  refine ⟨selfDelimiting_of (vVarLen16.restsOn .big false (strict_vVarLen16 _)) (same_vVarLen16 .big),
    selfDelimiting_of (vVarLen32.restsOn .big false (strict_vVarLen32 _)) (same_vVarLen32 .big),
    selfDelimiting_of (vVarLen64.restsOn .big false (strict_vVarLen64 _)) (same_vVarLen64 .big),
    selfDelimiting_of (vNested.restsOn .big false (strict_vNested _)) (same_vNested .big),
    selfDelimiting_of (vTime.restsOn .big false (strict_vTime _)) (same_vTime .big),
    selfDelimiting_of (vPuncture.restsOn .big false (strict_vPuncture _)) (same_vPuncture .big),
    selfDelimiting_of (vPunctureRequest.restsOn .big false (strict_vPunctureRequest _)) (same_vPunctureRequest .big),
    selfDelimiting_of (vAuth.restsOn .big false (strict_vAuth _)) (same_vAuth .big), fun chars s hs => ?_⟩
  refine selfDelimiting_of (f := visitThen (s.visitor.run .big) fun a r => (.ok ⟨a⟩, r))
    (restsOn_then (s.visitor.restsOn .big chars (strict_sch chars s hs)) fun _ => restsOn_value _) ?_
  rw [toDe_then, same_sch_visitor]
  rfl

/-- C99. A reader that catches errors need not: a `RawEnd` takes whatever is behind it. -/
theorem C99_open (chars : Bool) (ser : RawEnd → Outcome (List Tok)) (hs : ∀ v, ∃ ts, ser v = .ok ts) :
    ¬ SelfDelimiting chars (Handmade ser vRawEnd) := by
  have hn : ∀ w : Bytes, w.length ≤ usizeMax → ∃ d', (PacketDeserializer.mk ⟨w⟩ 0).nextPayload (Handmade ser vRawEnd) =
      (.ok ⟨⟨w⟩⟩, d') := by
    intro w hw
    obtain ⟨ts, hts⟩ := hs ⟨w⟩
    have h1 : (Deserialize.de .big : De (Handmade ser vRawEnd)) w = .ok (⟨⟨w⟩⟩, []) := by
      rw [← handmade_toDe, toDe_then]
      show De.bind (toDe (vRawEnd.run .big)) _ w = _
      rw [toDe_vRawEnd]
      unfold De.bind
      have : (Deserialize.de .big : De RawEnd) w = .ok (⟨w⟩, []) := by
        simp [Deserialize.de, rawLoop_eq, List.take_of_length_le hw, List.drop_of_length_le hw]
      rw [this]
      rfl
    have h2 : Bincode.serializedSize (⟨⟨w⟩⟩ : Handmade ser vRawEnd) = .ok ((ts.map Tok.size).sum) := by
      rw [handmade_size, hts]
    exact ⟨_, nextPayload_of_de (d := ⟨⟨w⟩, 0⟩) (Nat.zero_le _) (by simpa using h1) h2⟩
  intro h
  obtain ⟨d1, h1⟩ := hn [7] (by decide)
  obtain ⟨d2, h2⟩ := hn [7, 8] (by decide)
  obtain ⟨n, q1, q2, -⟩ := h [7] 0 _ d1 (Nat.zero_le _) h1 (complete_of_ok rfl)
  have hn1 : n ≤ 1 := by simpa using q1
  have := q2 [7, 8] (by
    rcases n with _ | _ | n
    · rfl
    · rfl
    · omega)
  rw [h2] at this
  simp only [Prod.mk.injEq, Outcome.ok.injEq, Handmade.mk.injEq, RawEnd.mk.injEq] at this
  exact absurd this.1 (by decide)

/-- C99. A reader that catches the error of an element goes on where that element stopped, in the middle of it: here
after an address cut short by one byte, with the first byte of its port.  The failed element counts as one of those
announced. -/
theorem C99_middle (e : Endian) (a b c d p : UInt8) (n : Nat) :
    (Visitor.tuple n (.attempt vAddress (fun _ => .done (.ok none)) fun _ =>
      .field (.u8 .ok) (.custom "no more") fun x => .done (.ok (some x)))).run e [a, b, c, d, p] =
    match n with
    | 0 => (.ok none, [a, b, c, d, p])
    | 1 => (.err (.custom "no more"), [p])
    | _ + 2 => (.ok (some p), []) := by
  have h4 : vIpv4.run e [a, b, c, d, p] = (.ok (a, b, c, d), [p]) := by
    simp [vIpv4, Elements.field, Visitor.run, Elements.run, visitPrim, deU8]
  have h : vAddress.run e [a, b, c, d, p] = (.err .eof, [p]) := by
    unfold vAddress
    rw [Visitor.run]
    unfold Elements.field
    rw [Elements.run, h4]
    simp only
    rw [Elements.run, Visitor.run]
    rfl
  rcases n with _ | _ | n
  · rw [Visitor.run, Elements.run, Elements.run]
  · rw [Visitor.run, Elements.run, h]
    simp only
    unfold Elements.field
    rw [Elements.run, Elements.run]
  · rw [Visitor.run, Elements.run, h]
    simp only
    unfold Elements.field
    rw [Elements.run, Visitor.run]
    simp only [visitPrim, deU8]
    rw [Elements.run]

/-! ## An application's reader -/

/-- A list of ports with a one-byte count, at most three, written by hand in an application. -/
def vPorts : Visitor (List UInt16) :=
  .tuple 4 (
    .field (.u8 .ok) (.custom "count") fun count =>
    if 3 < count then .done (.err (.custom "too many"))
    else .fields (.u16 .ok) (.custom "port") count.toNat fun ports => .done (.ok ports))

def serPorts (ports : List UInt16) : Outcome (List Tok) := .ok (.u8 (UInt8.ofNat ports.length) :: ports.map .u16)

theorem strict_vPorts : vPorts.Strict false := by
  refine strict_tuple (strict_field (strict_u8 _) fun count => ?_)
  split
  · exact strict_done _
  · exact strict_fields (strict_u16 _) _ fun _ => strict_done _

/-- It meets the hypotheses of `C99`, and there are packets with a complete answer: two ports, and too many. -/
example :
    SelfDelimiting false (Handmade serPorts vPorts) ∧
    (PacketDeserializer.mk ⟨[9, 2, 0, 80, 1, 187, 5]⟩ 1).nextPayload (Handmade serPorts vPorts) =
      (.ok ⟨[80, 443]⟩, ⟨⟨[9, 2, 0, 80, 1, 187, 5]⟩, 6⟩) ∧
    (PacketDeserializer.mk ⟨[4, 0, 80]⟩ 0).nextPayload (Handmade serPorts vPorts) =
      (.err (.custom "too many"), ⟨⟨[4, 0, 80]⟩, 0⟩) := by
  have h1 : vPorts.run .big [2, 0, 80, 1, 187, 5] = (.ok [80, 443], [5]) := by
    simp [vPorts, Elements.field, Elements.fields, Visitor.run, Elements.run, visitPrim, deU8, deU16, deInt, bind,
      De.bind, pure, De.pure, ofInt, ofLE]
  have h2 : vPorts.run .big [4, 0, 80] = (.err (.custom "too many"), [0, 80]) := by
    simp [vPorts, Elements.field, Visitor.run, Elements.run, visitPrim, deU8]
  refine ⟨C99 false _ _ strict_vPorts, ?_, ?_⟩
  · refine nextPayload_of_de (d := ⟨⟨[9, 2, 0, 80, 1, 187, 5]⟩, 1⟩) (n := 5) (r' := [5]) (by decide) ?_ rfl
    rw [← handmade_toDe]
    simp only [toDe, visitThen, List.drop_succ_cons, List.drop_zero, h1]
  · refine nextPayload_of_err (d := ⟨⟨[4, 0, 80]⟩, 0⟩) (by decide) ?_
    rw [← handmade_toDe]
    simp only [toDe, visitThen, List.drop_zero, h2]

/-! ## Cases for the theorems above -/

/-- `C99_open`: an application's own type that is read like raw bytes. -/
example : ¬ SelfDelimiting false (Handmade (fun v : RawEnd => .ok (v.data.map .u8)) vRawEnd) :=
  C99_open false _ fun _ => ⟨_, rfl⟩

/-- `C99_panic`: a reader that refuses zero. -/
example : ((PacketDeserializer.mk ⟨[1, 0]⟩ 1).nextPayload (Handmade (fun b : UInt8 => .ok [.u8 b])
    (Visitor.u8 fun b => if b = 0 then .err (.custom "zero") else .ok b))).1 ≠ .panic :=
  C99_panic _ (Visitor.u8 fun b => if b = 0 then .err (.custom "zero") else .ok b)
    (show ∀ b, _ from fun b => by simp only; split <;> simp) (fun _ => by simp) [1, 0] 1 (by decide)

/-- `C99_uncaught`: a reader that would catch the errors of one that panics on the byte 7 gets nothing from it. -/
example (caught : Error → Outcome UInt8) :
    ((Visitor.rescue (Visitor.u8 fun b => if b = 7 then .panic else .ok b) (fun b => .ok b) caught).run .big ([7, 8].drop 0)).1 =
      .panic :=
  (C99_uncaught (Visitor.u8 fun b => if b = 7 then .panic else .ok b) [7, 8] 0 (by decide) rfl _ (.inr (.inl ⟨_, _, rfl⟩))).1

end Ipv8
