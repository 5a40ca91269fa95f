import Verif.Props.Cost
import Verif.Props.Recursive
import Verif.Props.Panics
/-!
# Property C93: reading payloads until there are none left

A receiver that does not know how many payloads a packet has reads them in a loop until `next_payload` fails.
Whether and when that loop ends is up to whoever sent the packet.
-/

namespace Ipv8
open Spec PacketDeserializer

/-! ## Specification -/

/-- A receiver that reads payload after payload: from the payloads it has read so far it chooses the type of the next
one, or is content. -/
abbrev Parser := List AnyPayload → Option Kind

/-- The loop `while let Ok(v) = d.next_payload::<T>() { .. }`. -/
def Parser.loop (κ : Kind) : Parser := fun _ => some κ

/-- The receiver goes on from `d`, having read `seen`; in the end it has read `all`, with so many steps (`Model/Cost`),
was content or stopped by a failure, and has left the deserializer as `d'`. -/
inductive Parser.Ends (p : Parser) : List AnyPayload → PacketDeserializer → List AnyPayload → Nat → Outcome Unit →
    PacketDeserializer → Prop
  | content {seen d} : p seen = none → p.Ends seen d seen 0 (.ok ()) d
  | fails {seen d d' κ e n} : p seen = some κ → d.cnextPayload κ.Ty = ((.err e, d'), n) →
      p.Ends seen d seen n (.err e) d'
  | panics {seen d d' κ n} : p seen = some κ → d.cnextPayload κ.Ty = ((.panic, d'), n) →
      p.Ends seen d seen n .panic d'
  | reads {seen d d' κ v n all m o d''} : p seen = some κ → d.cnextPayload κ.Ty = ((.ok v, d'), n) →
      p.Ends (seen ++ [⟨κ, v⟩]) d' all m o d'' → p.Ends seen d all (n + m) o d''

/-- No value of the type can be added to a packet without making the packet longer. -/
def Kind.NeverEmpty (κ : Kind) : Prop := ∀ (v : κ.Ty) (p : Packet), p.add v ≠ (.ok (), p)

/-- The receiver only asks for types of which that is true. -/
def Parser.Advances (p : Parser) : Prop := ∀ seen κ, p seen = some κ → κ.NeverEmpty

/-- Steps for every byte of the packet that the cursor passes, at most. -/
def Kind.rate : Kind → Nat
  | .auth => 1726
  | κ => κ.slope + κ.base + 1

/-! ## Types that may be empty -/

theorem add_serialize {κ : Kind} {v : κ.Ty} {p : Packet} (h : p.add v = (.ok (), p)) :
    (Serialize.ser v : Outcome (List Tok)) = .ok [] := by
  unfold Packet.add at h
  cases hs : Bincode.serialize .big v with
  | ok i =>
    rw [hs] at h
    obtain ⟨b⟩ := p
    simp only [Prod.mk.injEq, true_and] at h
    have hi : i = [] := by
      have : b ++ i = b := by simpa using h
      simpa using this
    obtain ⟨ts, h1, h2⟩ := Bincode.serialize_eq_ok.mp hs
    have h3 := length_le_sizes ts
    have h4 := flatMap_bytes_length .big ts
    have h5 : (List.flatMap (Tok.bytes .big) ts).length = 0 := by rw [← h2, hi]; rfl
    have : ts = [] := by
      apply List.length_eq_zero_iff.mp
      omega
    rw [h1, this]
  | err e => rw [hs] at h; simp at h
  | panic => rw [hs] at h; simp at h

theorem vecLoop_total {α : Type} {d : De α} (h : ∀ r, ∃ v r', d r = .ok (v, r')) :
    ∀ n r, ∃ vs r', vecLoop d n r = .ok (vs, r')
  | 0, r => ⟨[], r, rfl⟩
  | n + 1, r => by
    obtain ⟨v, r1, h1⟩ := h r
    obtain ⟨vs, r2, h2⟩ := vecLoop_total h n r1
    refine ⟨v :: vs, r2, ?_⟩
    simp only [vecLoop]
    rw [De.bind_ok h1, De.bind_ok h2]
    rfl

theorem Sch.de_total (e : Endian) (s : Sch) : s.minSize = 0 → ∀ r, ∃ v r', s.de e r = .ok (v, r') := by
  induction s with
  | unit => intro _ r; exact ⟨(), r, rfl⟩
  | rawEnd => intro _ r; exact ⟨_, _, rfl⟩
  | array n s ih =>
    intro h r
    have hl : ∃ vs r', vecLoop (s.de e) n r = .ok (vs, r') := by
      rcases Nat.eq_zero_or_pos n with rfl | hn
      · exact ⟨[], r, rfl⟩
      · have hz : s.minSize = 0 := by
          simp only [Sch.minSize] at h
          rcases Nat.mul_eq_zero.mp h with h | h <;> omega
        exact vecLoop_total (ih hz) n r
    obtain ⟨vs, r', h1⟩ := hl
    exact ⟨⟨vs, (vecLoop_all (P := fun _ => True) (fun _ _ _ _ => trivial) _ _ _ _ h1).1⟩, r',
      deArray_eq_ok.mpr h1⟩
  | cons a b iha ihb =>
    intro h r
    simp only [Sch.minSize] at h
    obtain ⟨x, r1, h1⟩ := iha (by omega) r
    obtain ⟨y, r2, h2⟩ := ihb (by omega) r1
    refine ⟨(x, y), r2, ?_⟩
    simp only [Sch.de]
    rw [De.bind_ok h1, De.bind_ok h2]
    rfl
  | _ => intro h; simp [Sch.minSize] at h

theorem ok_nonempty {t : Tok} {ts : List Tok} (h : Outcome.ok (t :: ts) = Outcome.ok []) : False := by simp at h

theorem if_ok_nonempty {c : Prop} [Decidable c] {e : Error} {t : Tok} {ts : List Tok}
    (h : (if c then Outcome.err e else Outcome.ok (t :: ts)) = Outcome.ok []) : False := by
  split at h <;> simp at h

theorem Kind.neverEmpty_or (κ : Kind) : κ.NeverEmpty ∨ ∃ s, κ = .derived s ∧ s.minSize = 0 := by
  cases κ with
  | derived s =>
    by_cases hm : s.minSize = 0
    · exact .inr ⟨s, rfl, hm⟩
    · refine .inl fun v p h => ?_
      exact Sch.ser_nonempty s hm v.val [] (add_serialize h) rfl
  | varlen16 => exact .inl fun v p h => if_ok_nonempty (add_serialize h)
  | varlen32 => exact .inl fun v p h => if_ok_nonempty (add_serialize h)
  | varlen64 => exact .inl fun v p h => ok_nonempty (add_serialize h)
  | nested => exact .inl fun v p h => if_ok_nonempty (add_serialize h)
  | time => exact .inl fun v p h => ok_nonempty (add_serialize h)
  | auth => exact .inl fun v p h => ok_nonempty (add_serialize h)
  | puncture =>
    exact .inl fun v p h => by
      have : (Serialize.ser (α := PuncturePayload) v : Outcome (List Tok)) = .ok [] := add_serialize h
      simp only [Serialize.ser] at this
      repeat
        obtain ⟨a, _, this⟩ := Outcome.bind_eq_ok.mp this
      simp [Outcome.pure_eq] at this
  | punctureRequest =>
    exact .inl fun v p h => by
      have : (Serialize.ser (α := PunctureRequestPayload) v : Outcome (List Tok)) = .ok [] := add_serialize h
      simp only [Serialize.ser] at this
      repeat
        obtain ⟨a, _, this⟩ := Outcome.bind_eq_ok.mp this
      simp [Outcome.pure_eq] at this
  | introRequest =>
    exact .inl fun v p h => by
      have : (Serialize.ser (α := IntroductionRequestPayload) v : Outcome (List Tok)) = .ok [] := add_serialize h
      simp only [Serialize.ser] at this
      repeat
        obtain ⟨a, _, this⟩ := Outcome.bind_eq_ok.mp this
      simp [Outcome.pure_eq] at this
  | introResponse =>
    exact .inl fun v p h => by
      have : (Serialize.ser (α := IntroductionResponsePayload) v : Outcome (List Tok)) = .ok [] := add_serialize h
      simp only [Serialize.ser] at this
      repeat
        obtain ⟨a, _, this⟩ := Outcome.bind_eq_ok.mp this
      simp [Outcome.pure_eq] at this


/-! ## One read -/

theorem cnext_same {κ : Kind} {d d' : PacketDeserializer} {o : Outcome κ.Ty} {n : Nat}
    (h : d.cnextPayload κ.Ty = ((o, d'), n)) : d.nextPayload κ.Ty = (o, d') := by
  rw [← C87_next_same, h]

theorem next_moves {κ : Kind} (hκ : κ.NeverEmpty) {d d' : PacketDeserializer} {v : κ.Ty}
    (hl : d.pntr.bytes.length ≤ usizeMax) (h : d.nextPayload κ.Ty = (.ok v, d')) :
    d'.pntr = d.pntr ∧ d.index < d'.index ∧ d'.index ≤ d.pntr.bytes.length := by
  obtain ⟨w, hw, h1⟩ := C64_moves_by_size _ d d' v h
  have h2 : d'.index ≤ d.pntr.bytes.length := by
    by_cases ha : κ = .auth
    · subst ha
      obtain ⟨_, _, _, _, h5, _⟩ := C17_auth d _ v h
      exact h5
    · obtain ⟨_, _, h5, _⟩ := C17_partial κ ha d _ v hl h
      exact h5
  subst h1
  refine ⟨rfl, ?_, h2⟩
  cases w with
  | cons b w => simp
  | nil =>
    exfalso
    refine hκ v ⟨[]⟩ ?_
    simp [Packet.add, hw]

theorem next_stays {κ : Kind} {d d' : PacketDeserializer} {e : Error} (h : d.nextPayload κ.Ty = (.err e, d')) :
    d' = d := (C64_fails _ d d' e h).1

theorem lin_kind (e : Endian) (κ : Kind) (hκ : κ.NoEmptyElements) :
    ∃ m, Lin κ.slope κ.base m (CDeserialize.cde e : CDe κ.Ty) := by
  cases κ with
  | varlen16 => exact ⟨_, lin_varlen16 e⟩
  | varlen32 => exact ⟨_, lin_varlen32 e⟩
  | varlen64 => exact ⟨_, lin_varlen64 e⟩
  | nested => exact ⟨_, lin_nested e⟩
  | time => exact ⟨_, lin_time e⟩
  | puncture => exact ⟨_, lin_puncture e⟩
  | punctureRequest => exact ⟨_, lin_punctureRequest e⟩
  | introRequest => exact ⟨_, lin_introRequest e⟩
  | introResponse => exact ⟨_, lin_introResponse e⟩
  | auth => exact ⟨_, lin_auth e⟩
  | derived s => exact ⟨_, Lin.then (lin_sch e s hκ) _⟩

/-- A successful read: what it costs, by the bytes it consumed and the size of what it returned. -/
theorem next_cost {κ : Kind} (hn : κ.NoEmptyElements) {d d' : PacketDeserializer} {v : κ.Ty} {n : Nat}
    (h : d.cnextPayload κ.Ty = ((.ok v, d'), n)) :
    ∃ (u rest : Bytes), d.pntr.bytes.drop d.index = u ++ rest ∧
      (Deserialize.de .big : De κ.Ty) (d.pntr.bytes.drop d.index) = .ok (v, rest) ∧
      n ≤ κ.slope * u.length + κ.base + (d'.index - d.index) := by
  obtain ⟨m, hlin⟩ := lin_kind .big κ hn
  unfold cnextPayload at h
  cases hsl : sliceFrom d.pntr.bytes d.index with
  | ok s =>
    rw [hsl] at h
    have hs : s = d.pntr.bytes.drop d.index := by
      unfold sliceFrom at hsl
      split at hsl
      · simpa using hsl.symm
      · exact absurd hsl (by simp)
    have hr := hlin s
    have hsame := same_kind .big κ s
    simp only at h
    cases hc : (CDeserialize.cde .big : CDe κ.Ty) s with
    | mk o k =>
      rw [hc] at h hr hsame
      cases o with
      | ok x =>
        obtain ⟨v', rest⟩ := x
        obtain ⟨u, h1, _, h3⟩ := hr
        simp only at h hsame
        cases hz : Bincode.serializedSize v' with
        | ok j =>
          rw [hz] at h
          simp only [Prod.mk.injEq, Outcome.ok.injEq] at h
          obtain ⟨⟨rfl, rfl⟩, rfl⟩ := h
          have := sizeSteps_le v' j hz
          refine ⟨u, rest, by rw [← hs, h1], by rw [← hs, hsame], ?_⟩
          simp only
          omega
        | err x => rw [hz] at h; simp at h
        | panic => rw [hz] at h; simp at h
      | err x => simp at h
      | panic => simp at h
  | err x => rw [hsl] at h; simp at h
  | panic => rw [hsl] at h; simp at h

/-- A successful read costs so much for every byte that the cursor passes. -/
theorem next_rate {κ : Kind} (hκ : κ.NeverEmpty) (hn : κ.NoEmptyElements) {d d' : PacketDeserializer} {v : κ.Ty}
    {n : Nat} (hl : d.pntr.bytes.length ≤ usizeMax) (h : d.cnextPayload κ.Ty = ((.ok v, d'), n)) :
    n ≤ κ.rate * (d'.index - d.index) := by
  obtain ⟨u, rest, h1, h2, h3⟩ := next_cost hn h
  obtain ⟨h4, h5, h6⟩ := next_moves hκ hl (cnext_same h)
  by_cases ha : κ = .auth
  · subst ha
    obtain ⟨k, hk, _, h8, _, w, rest', h9, h10, h11⟩ := C17_auth d _ v (cnext_same h)
    have hrest : rest = rest' := by
      exact (Prod.mk.inj (Outcome.ok.inj (h2.symm.trans h11))).2
    subst hrest
    have hu : u.length = 2 + k := by
      have := congrArg List.length (h1.symm.trans h9)
      simp only [List.length_append] at this
      omega
    have hk' : k < 2 ^ 16 := by
      rw [hk]
      rw [fromBE_eq]
      have := ofInt_lt .big ((d.pntr.bytes.drop d.index).take 2)
      rw [show (256 : Nat) = 2 ^ 8 from rfl, ← Nat.pow_mul] at this
      refine Nat.lt_of_lt_of_le this (Nat.pow_le_pow_right (by omega) ?_)
      simp; omega
    have h12 : d'.index - d.index = 76 := by rw [h8]; simp
    rw [hu, h12] at h3
    rw [h12]
    simp only [Kind.slope, Kind.base, Kind.rate] at h3 ⊢
    omega
  · have hr : κ.rate = κ.slope + κ.base + 1 := by cases κ <;> first | rfl | exact absurd rfl ha
    obtain ⟨k, h8, _, w, rest', h9, h10, h11⟩ := C17_partial κ ha d _ v hl (cnext_same h)
    have hrest : rest = rest' := by
      exact (Prod.mk.inj (Outcome.ok.inj (h2.symm.trans h11))).2
    subst hrest
    have hu : u.length = k := by
      have := congrArg List.length (h1.symm.trans h9)
      simp only [List.length_append] at this
      omega
    have h12 : d'.index - d.index = k := by rw [h8]; simp
    rw [hu, h12] at h3
    rw [hr, h12, Nat.add_mul, Nat.add_mul]
    have : κ.base * 1 ≤ κ.base * k := Nat.mul_le_mul_left _ (by omega)
    omega

/-! ## Where a receiver stops -/

/-- The receiver, having read `all`, stops with this outcome at `d`. -/
def Parser.Stops (p : Parser) (all : List AnyPayload) (d : PacketDeserializer) : Outcome Unit → Prop
  | .ok () => p all = none
  | .err e => ∃ κ, p all = some κ ∧ d.nextPayload κ.Ty = (.err e, d)
  | .panic => ∃ κ, p all = some κ ∧ (d.nextPayload κ.Ty).1 = .panic

theorem cnext_panic {κ : Kind} {d : PacketDeserializer} (h : (d.nextPayload κ.Ty).1 = .panic) :
    ∃ n, d.cnextPayload κ.Ty = ((.panic, d), n) := by
  refine ⟨(d.cnextPayload κ.Ty).2, ?_⟩
  have h1 : d.nextPayload κ.Ty = (.panic, d) := by
    by_cases hi : d.index ≤ d.pntr.bytes.length
    · rw [nextPayload_inside hi] at h ⊢
      cases hd : (Deserialize.de .big : De κ.Ty) (d.pntr.bytes.drop d.index) with
      | ok x =>
        rw [hd] at h
        simp only at h ⊢
        cases hz : Bincode.serializedSize x.1 <;> rw [hz] at h <;> simp at h ⊢
      | err e => rw [hd] at h; simp at h
      | panic => rfl
    · unfold nextPayload sliceFrom
      rw [if_neg hi]
  rw [← h1, ← C87_next_same]

theorem cnext_of {κ : Kind} {d d' : PacketDeserializer} {o : Outcome κ.Ty} (h : d.nextPayload κ.Ty = (o, d')) :
    ∃ n, d.cnextPayload κ.Ty = ((o, d'), n) := by
  refine ⟨(d.cnextPayload κ.Ty).2, ?_⟩
  rw [← h, ← C87_next_same]

theorem Parser.Ends.reads_all {p : Parser} {seen all : List AnyPayload} {d d' : PacketDeserializer} {n : Nat}
    {o : Outcome Unit} (h : p.Ends seen d all n o d') :
    ∃ new, all = seen ++ new ∧ readAll d (new.map (·.1)) = .ok (new, d') ∧
      (∀ i (hi : i < new.length), p (seen ++ new.take i) = some new[i].1) ∧ p.Stops all d' o := by
  induction h with
  | @content seen d h => exact ⟨[], by simp, rfl, by simp, h⟩
  | @fails seen d d' κ e n h1 h2 =>
    have h3 := cnext_same h2
    have := next_stays h3
    subst this
    exact ⟨[], by simp, rfl, by simp, κ, h1, h3⟩
  | @panics seen d d' κ n h1 h2 =>
    have h3 := cnext_same h2
    obtain ⟨k, h4⟩ := cnext_panic (congrArg Prod.fst h3)
    have h5 := cnext_same h4
    have : d' = d := (Prod.mk.inj (h3.symm.trans h5)).2
    subst this
    exact ⟨[], by simp, rfl, by simp, κ, h1, congrArg Prod.fst h3⟩
  | @reads seen d d' κ v n all m o d'' h1 h2 h3 ih =>
    obtain ⟨new, g1, g2, g3, g4⟩ := ih
    have h4 := cnext_same h2
    refine ⟨⟨κ, v⟩ :: new, by simp [g1], by simp [readAll, h4, g2], ?_, g4⟩
    intro i hi
    cases i with
    | zero => simpa using h1
    | succ i =>
      have := g3 i (by simpa using hi)
      simpa using this

theorem Parser.ends_of {p : Parser} {d' : PacketDeserializer} {o : Outcome Unit} :
    ∀ (new seen : List AnyPayload) (d : PacketDeserializer), readAll d (new.map (·.1)) = .ok (new, d') →
      (∀ i (hi : i < new.length), p (seen ++ new.take i) = some new[i].1) → p.Stops (seen ++ new) d' o →
      ∃ n, p.Ends seen d (seen ++ new) n o d'
  | [], seen, d, h1, h2, h3 => by
    have : d = d' := by simpa [readAll] using h1
    subst this
    rw [List.append_nil] at h3 ⊢
    match o, h3 with
    | .ok (), h3 => exact ⟨0, .content h3⟩
    | .err e, ⟨κ, g1, g2⟩ =>
      obtain ⟨n, g3⟩ := cnext_of g2
      exact ⟨n, .fails g1 g3⟩
    | .panic, ⟨κ, g1, g2⟩ =>
      obtain ⟨n, g3⟩ := cnext_panic g2
      exact ⟨n, .panics g1 g3⟩
  | ⟨κ, v⟩ :: new, seen, d, h1, h2, h3 => by
    have hp : p seen = some κ := by
      have := h2 0 (by simp)
      rw [List.take_zero, List.append_nil] at this
      exact this
    simp only [List.map_cons, readAll] at h1
    cases hn : d.nextPayload κ.Ty with
    | mk a d1 =>
      rw [hn] at h1
      cases a with
      | ok w =>
        simp only at h1
        cases hr : readAll d1 (new.map (·.1)) with
        | ok x =>
          obtain ⟨vs, d2⟩ := x
          rw [hr] at h1
          simp only [Outcome.ok.injEq, Prod.mk.injEq, List.cons.injEq, Sigma.mk.injEq, heq_eq_eq, true_and] at h1
          obtain ⟨⟨rfl, rfl⟩, rfl⟩ := h1
          obtain ⟨n, g1⟩ := cnext_of hn
          obtain ⟨m, g2⟩ := Parser.ends_of (p := p) (o := o) vs (seen ++ [⟨κ, w⟩]) d1 hr (by
            intro i hi
            have := h2 (i + 1) (by simpa using hi)
            simpa using this) (by simpa using h3)
          refine ⟨n + m, .reads hp g1 ?_⟩
          simpa using g2
        | err e => rw [hr] at h1; simp at h1
        | panic => rw [hr] at h1; simp at h1
      | err e => simp at h1
      | panic => simp at h1

theorem Parser.Ends.unique {p : Parser} {seen all : List AnyPayload} {d d' : PacketDeserializer} {n : Nat}
    {o : Outcome Unit} (h : p.Ends seen d all n o d') : ∀ {all' n' o' d''}, p.Ends seen d all' n' o' d'' →
      all' = all ∧ n' = n ∧ o' = o ∧ d'' = d' := by
  induction h with
  | content h =>
    intro all' n' o' d'' h'
    cases h' <;> simp_all
  | fails h1 h2 =>
    intro all' n' o' d'' h'
    cases h' with
    | content g => simp_all
    | fails g1 g2 => rw [h1] at g1; cases g1; rw [h2] at g2; cases g2; simp
    | panics g1 g2 => rw [h1] at g1; cases g1; rw [h2] at g2; cases g2
    | reads g1 g2 g3 => rw [h1] at g1; cases g1; rw [h2] at g2; cases g2
  | panics h1 h2 =>
    intro all' n' o' d'' h'
    cases h' with
    | content g => simp_all
    | fails g1 g2 => rw [h1] at g1; cases g1; rw [h2] at g2; cases g2
    | panics g1 g2 => rw [h1] at g1; cases g1; rw [h2] at g2; cases g2; simp
    | reads g1 g2 g3 => rw [h1] at g1; cases g1; rw [h2] at g2; cases g2
  | reads h1 h2 h3 ih =>
    intro all' n' o' d'' h'
    cases h' with
    | content g => simp_all
    | fails g1 g2 => rw [h1] at g1; cases g1; rw [h2] at g2; cases g2
    | panics g1 g2 => rw [h1] at g1; cases g1; rw [h2] at g2; cases g2
    | reads g1 g2 g3 =>
      rw [h1] at g1; cases g1; rw [h2] at g2; cases g2
      obtain ⟨rfl, rfl, rfl, rfl⟩ := ih g3
      simp

theorem Parser.ends_exists {p : Parser} (hp : p.Advances) : ∀ (k : Nat) (seen : List AnyPayload) (d : PacketDeserializer),
    d.pntr.bytes.length ≤ usizeMax → d.index ≤ d.pntr.bytes.length → d.pntr.bytes.length - d.index = k →
    ∃ all n o d', p.Ends seen d all n o d' ∧ d'.pntr = d.pntr ∧ d'.index ≤ d.pntr.bytes.length ∧
      all.length + d.index ≤ seen.length + d'.index := by
  intro k
  induction k using Nat.strongRecOn with
  | _ k ih =>
    intro seen d hl hi hk
    cases hs : p seen with
    | none => exact ⟨seen, 0, .ok (), d, .content hs, rfl, hi, by omega⟩
    | some κ =>
      have hκ := hp seen κ hs
      cases hc : d.cnextPayload κ.Ty with
      | mk x n =>
        obtain ⟨o, d1⟩ := x
        cases o with
        | err e =>
          have := next_stays (cnext_same hc)
          subst this
          exact ⟨seen, n, _, _, .fails hs hc, rfl, hi, by omega⟩
        | panic =>
          have h3 := cnext_same hc
          obtain ⟨k, h4⟩ := cnext_panic (congrArg Prod.fst h3)
          have : d1 = d := (Prod.mk.inj (h3.symm.trans (cnext_same h4))).2
          subst this
          exact ⟨seen, n, _, _, .panics hs hc, rfl, hi, by omega⟩
        | ok v =>
          obtain ⟨h1, h2, h3⟩ := next_moves hκ hl (cnext_same hc)
          obtain ⟨all, m, o, d', g1, g2, g3, g4⟩ := ih (d1.pntr.bytes.length - d1.index) (by rw [h1]; omega)
            (seen ++ [⟨κ, v⟩]) d1 (by rw [h1]; exact hl) (by rw [h1]; exact h3) rfl
          refine ⟨all, n + m, o, d', .reads hs hc g1, by rw [g2, h1], by rw [h1] at g3; exact g3, ?_⟩
          simp only [List.length_append, List.length_cons, List.length_nil] at g4
          omega

theorem next_no_panic {κ : Kind} (ha : κ ≠ .auth) {d : PacketDeserializer} (hi : d.index ≤ d.pntr.bytes.length)
    (hl : d.pntr.bytes.length ≤ usizeMax) : (d.nextPayload κ.Ty).1 ≠ .panic := by
  have hs := κ.sizeExact ha
  rw [nextPayload_inside hi]
  cases hd : (Deserialize.de .big : De κ.Ty) (d.pntr.bytes.drop d.index) with
  | ok x =>
    obtain ⟨v, r'⟩ := x
    obtain ⟨bs, _, h2⟩ := hs.size .big _ _ _ (by simp; omega) hd
    simp [h2]
  | err e => simp
  | panic => exact absurd hd (hs.noPanic .big _)

/-- At the end of a packet there is nothing left that takes room. -/
theorem next_at_end {κ : Kind} (hκ : κ.NeverEmpty) {d : PacketDeserializer} (hi : d.index = d.pntr.bytes.length)
    (hl : d.pntr.bytes.length ≤ usizeMax) : ∃ e, d.nextPayload κ.Ty = (.err e, d) := by
  cases hn : d.nextPayload κ.Ty with
  | mk o d' =>
    cases o with
    | ok v => have := next_moves hκ hl hn; omega
    | err e => rw [next_stays hn]; exact ⟨e, rfl⟩
    | panic =>
      exfalso
      by_cases ha : κ = .auth
      · subst ha
        rcases (nextAuth_panic d).mp (congrArg Prod.fst hn) with h | h
        · omega
        · rw [hi, List.drop_length] at h
          obtain ⟨h, _⟩ := h
          simp at h
      · exact next_no_panic ha (by omega) hl (congrArg Prod.fst hn)

/-! ## The theorems -/

/-- C93. What it means that a receiver ends: the payloads are those that `next_payload` gives, one after the other,
each with the type that the receiver asked for; then it was content, or the next read failed, or panicked. -/
theorem C93_meaning (p : Parser) (d : PacketDeserializer) (all : List AnyPayload) (o : Outcome Unit)
    (d' : PacketDeserializer) :
    (∃ n, p.Ends [] d all n o d') ↔
      readAll d (all.map (·.1)) = .ok (all, d') ∧
      (∀ i (hi : i < all.length), p (all.take i) = some all[i].1) ∧
      match o with
      | .ok () => p all = none
      | .err e => ∃ κ, p all = some κ ∧ d'.nextPayload κ.Ty = (.err e, d')
      | .panic => ∃ κ, p all = some κ ∧ (d'.nextPayload κ.Ty).1 = .panic := by
  constructor
  · rintro ⟨n, h⟩
    obtain ⟨new, rfl, h1, h2, h3⟩ := h.reads_all
    simp only [List.nil_append] at h1 h2 h3 ⊢
    exact ⟨h1, h2, by cases o <;> exact h3⟩
  · rintro ⟨h1, h2, h3⟩
    have := Parser.ends_of (p := p) (o := o) all [] d h1 (by simpa using h2) (by
      rw [List.nil_append]
      cases o <;> exact h3)
    simpa using this

/-- C93. A receiver that asks only for types whose values take room ends, whatever is in the packet and whatever it
asks for, after at most as many payloads as there are bytes left.  There is one way in which it ends.  It does not
panic unless the last thing it asked for was an authentication payload. -/
theorem C93 (p : Parser) (hp : p.Advances) (d : PacketDeserializer) (hi : d.index ≤ d.pntr.bytes.length)
    (hl : d.pntr.bytes.length ≤ usizeMax) :
    ∃ all n o d', p.Ends [] d all n o d' ∧
      (∀ all' n' o' d'', p.Ends [] d all' n' o' d'' → all' = all ∧ n' = n ∧ o' = o ∧ d'' = d') ∧
      d'.pntr = d.pntr ∧ d'.index ≤ d.pntr.bytes.length ∧ all.length ≤ d'.index - d.index ∧
      (o = .panic → p all = some .auth) := by
  obtain ⟨all, n, o, d', h1, h2, h3, h4⟩ := Parser.ends_exists hp _ [] d hl hi rfl
  refine ⟨all, n, o, d', h1, fun _ _ _ _ h => h1.unique h, h2, h3, by simp at h4; omega, ?_⟩
  rintro rfl
  obtain ⟨new, _, _, _, κ, g1, g2⟩ := h1.reads_all
  rw [g1]
  by_cases ha : κ = .auth
  · rw [ha]
  · exfalso
    exact next_no_panic ha (by rw [h2]; exact h3) (by rw [h2]; exact hl) g2

theorem next_endless {κ : Kind} (hκ : ¬ κ.NeverEmpty) {d : PacketDeserializer} (hi : d.index ≤ d.pntr.bytes.length)
    (hl : d.pntr.bytes.length ≤ usizeMax) :
    ∃ v d', d.nextPayload κ.Ty = (.ok v, d') ∧ d'.pntr = d.pntr ∧ d'.index ≤ d.pntr.bytes.length := by
  rcases κ.neverEmpty_or with h | ⟨s, rfl, hm⟩
  · exact absurd h hκ
  · obtain ⟨x, r', h1⟩ := Sch.de_total .big s hm (d.pntr.bytes.drop d.index)
    have hs := Kind.sizeExact (.derived s) (by simp)
    have hd : (Deserialize.de .big : De (Kind.derived s).Ty) (d.pntr.bytes.drop d.index) = .ok (⟨x⟩, r') :=
      Derived.de_eq_ok.mpr h1
    obtain ⟨bs, h2, h3⟩ := hs.size .big _ _ _ (by simp; omega) hd
    have hn : d.nextPayload (Kind.derived s).Ty = (.ok ⟨x⟩, { d with index := d.index + bs.length }) := by
      rw [nextPayload_inside hi]
      simp only [hd, h3]
    refine ⟨_, _, hn, rfl, ?_⟩
    have := congrArg List.length h2
    rw [List.length_drop, List.length_append] at this
    simp only
    omega

/-- C93. With a type that has a value which takes no room, the loop never ends, whatever is in the packet: every
read succeeds, as often as you like. -/
theorem C93_endless (κ : Kind) (hκ : ¬ κ.NeverEmpty) (d : PacketDeserializer) (hi : d.index ≤ d.pntr.bytes.length)
    (hl : d.pntr.bytes.length ≤ usizeMax) :
    (∀ k, ∃ vs d', readAll d (List.replicate k κ) = .ok (vs, d')) ∧
      ∀ all n o d', ¬ (Parser.loop κ).Ends [] d all n o d' := by
  constructor
  · intro k
    induction k generalizing d with
    | zero => exact ⟨[], d, rfl⟩
    | succ k ih =>
      obtain ⟨v, d1, h1, h2, h3⟩ := next_endless hκ hi hl
      obtain ⟨vs, d', h4⟩ := ih d1 (by rw [h2]; exact h3) (by rw [h2]; exact hl)
      exact ⟨⟨κ, v⟩ :: vs, d', by simp [List.replicate_succ, readAll, h1, h4]⟩
  · intro all n o d' h
    generalize hs : ([] : List AnyPayload) = seen at h
    clear hs
    induction h with
    | content h => simp [Parser.loop] at h
    | @fails seen d d' κ' e n h1 h2 =>
      simp only [Parser.loop, Option.some.injEq] at h1
      subst h1
      obtain ⟨v, d1, g1, _, _⟩ := next_endless hκ hi hl
      have := cnext_same h2
      rw [g1] at this
      simp at this
    | @panics seen d d' κ' n h1 h2 =>
      simp only [Parser.loop, Option.some.injEq] at h1
      subst h1
      obtain ⟨v, d1, g1, _, _⟩ := next_endless hκ hi hl
      have := cnext_same h2
      rw [g1] at this
      simp at this
    | @reads seen d d' κ' v n all m o d'' h1 h2 h3 ih =>
      simp only [Parser.loop, Option.some.injEq] at h1
      subst h1
      obtain ⟨v', d1, g1, g2, g3⟩ := next_endless hκ hi hl
      have := cnext_same h2
      rw [g1] at this
      obtain ⟨_, rfl⟩ := Prod.mk.inj this
      exact ih (by rw [g2]; exact g3) (by rw [g2]; exact hl)

/-- C93. So the loop ends on every packet exactly if no value of its type can be added without making a packet
longer; if it fails to end on some packet, it does on all. -/
theorem C93_iff (κ : Kind) :
    κ.NeverEmpty ↔ ∀ d : PacketDeserializer, d.index ≤ d.pntr.bytes.length → d.pntr.bytes.length ≤ usizeMax →
      ∃ all n o d', (Parser.loop κ).Ends [] d all n o d' := by
  constructor
  · intro hκ d hi hl
    have hp : (Parser.loop κ).Advances := by
      intro seen κ' h
      simp only [Parser.loop, Option.some.injEq] at h
      exact h ▸ hκ
    obtain ⟨all, n, o, d', h, _⟩ := C93 _ hp d hi hl
    exact ⟨all, n, o, d', h⟩
  · intro h
    refine Classical.byContradiction fun hκ => ?_
    obtain ⟨all, n, o, d', h1⟩ := h ⟨⟨[]⟩, 0⟩ (by simp) (by simp)
    exact (C93_endless κ hκ ⟨⟨[]⟩, 0⟩ (by simp) (by simp)).2 _ _ _ _ h1

/-- C93. The payload types of the crate all take room. -/
theorem C93_crate (κ : Kind) (h : ∀ s, κ ≠ .derived s) : κ.NeverEmpty := by
  rcases κ.neverEmpty_or with h' | ⟨s, rfl, _⟩
  · exact h'
  · exact absurd rfl (h s)

/-- C93. A message of payloads of one type that knows where it ends: the loop reads exactly those payloads, in order,
and stops at the end of the packet with an error. -/
theorem C93_message (mid : FixedBytes 20) (t : UInt8) (κ : Kind) (hsd : κ.SelfDelimiting) (hκ : κ.NeverEmpty)
    (vs : List κ.Ty) (hf : ∀ v ∈ vs, κ.Fits v) (p q : Packet)
    (hp : Packet.new (Header.pyIpv8Header mid t) = .ok p) (hq : addAll p (vs.map fun v => ⟨κ, v⟩) = .ok q)
    (hl : q.bytes.length ≤ usizeMax) :
    ∃ d n e, q.startDeserialize.popHeader = (.ok (Header.pyIpv8Header mid t), d) ∧
      (Parser.loop κ).Ends [] d (vs.map fun v => ⟨κ, v⟩) n (.err e) ⟨q, q.bytes.length⟩ := by
  obtain ⟨d, h1, h2⟩ := C24 mid t (vs.map fun v => ⟨κ, v⟩) (by simpa using fun _ _ => hsd) (by simpa using hf) p q hp hq hl
  obtain ⟨e, h3⟩ := next_at_end (d := ⟨q, q.bytes.length⟩) hκ rfl hl
  obtain ⟨n, h4⟩ := (C93_meaning (Parser.loop κ) d (vs.map fun v => ⟨κ, v⟩) (.err e) ⟨q, q.bytes.length⟩).mpr
    ⟨h2, by simp [Parser.loop], κ, rfl, h3⟩
  exact ⟨d, n, e, h1, h4⟩

theorem Kind.slope_rate (κ : Kind) : κ.slope + 1 ≤ κ.rate := by
  cases κ <;> simp [Kind.rate, Kind.slope] <;> omega

/-- C93. All of it together takes time linear in the bytes left: whatever the receiver asks for, as long as it never
asks for types with values that take no room, or with vectors of such. -/
theorem C93_steps (p : Parser) (hp : p.Advances) (R B : Nat)
    (hk : ∀ seen κ, p seen = some κ → κ.NoEmptyElements ∧ κ.rate ≤ R ∧ κ.base ≤ B)
    (d d' : PacketDeserializer) (hl : d.pntr.bytes.length ≤ usizeMax) (all : List AnyPayload) (n : Nat)
    (o : Outcome Unit) (h : p.Ends [] d all n o d') : n ≤ R * (d.pntr.bytes.length - d.index) + B := by
  generalize ([] : List AnyPayload) = seen at h
  induction h with
  | content h => omega
  | @fails seen d d' κ e n h1 h2 =>
    obtain ⟨g1, g2, g3⟩ := hk _ _ h1
    have := C87_next κ g1 d hl
    rw [h2] at this
    have g4 : (κ.slope + 1) * (d.pntr.bytes.length - d.index) ≤ R * (d.pntr.bytes.length - d.index) :=
      Nat.mul_le_mul_right _ (Nat.le_trans κ.slope_rate g2)
    simp only at this
    omega
  | @panics seen d d' κ n h1 h2 =>
    obtain ⟨g1, g2, g3⟩ := hk _ _ h1
    have := C87_next κ g1 d hl
    rw [h2] at this
    have g4 : (κ.slope + 1) * (d.pntr.bytes.length - d.index) ≤ R * (d.pntr.bytes.length - d.index) :=
      Nat.mul_le_mul_right _ (Nat.le_trans κ.slope_rate g2)
    simp only at this
    omega
  | @reads seen d d' κ v n all m o d'' h1 h2 h3 ih =>
    obtain ⟨g1, g2, g3⟩ := hk _ _ h1
    have hκ := hp _ _ h1
    obtain ⟨e1, e2, e3⟩ := next_moves hκ hl (cnext_same h2)
    have e4 := next_rate hκ g1 hl h2
    have e5 := ih (by rw [e1]; exact hl)
    have e6 : κ.rate * (d'.index - d.index) ≤ R * (d'.index - d.index) := Nat.mul_le_mul_right _ g2
    have e7 : R * (d.pntr.bytes.length - d.index) =
        R * (d'.index - d.index) + R * (d.pntr.bytes.length - d'.index) := by
      rw [← Nat.mul_add]
      congr 1
      omega
    rw [e1] at e5
    omega

/-! ## Authentication payloads -/

/-- The bytes that a reader takes cost at least one step each, but for `K` of them. -/
def Low {α : Type} (K : Nat) (c : CDe α) : Prop :=
  ∀ r v r' n, c r = (.ok (v, r'), n) → r.length ≤ r'.length + n + K

theorem Low.bind {α β : Type} {K L : Nat} {c : CDe α} {f : α → CDe β} (h : Low K c) (hf : ∀ a, Low L (f a)) :
    Low (K + L) (c >>= f) := by
  intro r v r' n hr
  change CDe.bind c f r = _ at hr
  unfold CDe.bind at hr
  cases hc : c r with
  | mk o k =>
    rw [hc] at hr
    cases o with
    | ok x =>
      obtain ⟨a, r1⟩ := x
      simp only at hr
      have h1 := h r a r1 k hc
      cases hf1 : f a r1 with
      | mk o2 m =>
        rw [hf1] at hr
        simp only [Prod.mk.injEq] at hr
        obtain ⟨rfl, rfl⟩ := hr
        have := hf a r1 v r' m hf1
        omega
    | err e => simp at hr
    | panic => simp at hr

theorem Low.pure {α : Type} (a : α) : Low 0 (Pure.pure a : CDe α) := by
  intro r v r' n h
  cases h
  omega

theorem Low.lift {α : Type} (o : Outcome α) : Low 0 (CDe.free (De.lift o)) := by
  intro r v r' n h
  cases o with
  | ok a => cases h; omega
  | err e => cases h
  | panic => cases h

theorem Low.u8 : Low 0 (CDe.prim deU8) := by
  intro r v r' n h
  cases r with
  | nil => cases h
  | cons b r => cases h; simp

theorem Low.u16 (e : Endian) : Low 1 (CDe.prim (deU16 e)) := by
  intro r v r' n h
  simp only [CDe.prim, Prod.mk.injEq] at h
  obtain ⟨h1, rfl⟩ := h
  rw [deU16_eq_ok] at h1
  rw [h1]
  simp [Tok.size]
  omega

theorem Low.field {α : Type} {K : Nat} {c : CDe α} (h : Low K c) (e : Error) (n : Nat) : Low K (cfield c e n) := by
  have hs : Low 0 CDe.step := by
    intro r v r' n h
    cases h
    omega
  have hf : Low 0 (CDe.free (De.fail e) : CDe (α × Nat)) := by
    intro r v r' n h
    cases h
  have hn : Low K (cnextElement c n) := by
    cases n with
    | zero =>
      intro r v r' n h
      cases h
      omega
    | succ n =>
      have := Low.bind hs fun _ => Low.bind h fun a => Low.pure (some a, n)
      rw [Nat.zero_add, Nat.add_zero] at this
      exact this
  refine Low.bind (L := 0) hn ?_
  rintro ⟨o, k⟩
  cases o with
  | some a => exact Low.pure _
  | none => exact hf

theorem Low.repeat {α : Type} {c : CDe α} (h : Low 0 c) (e : Error) : ∀ k n, Low 0 (crepeatField c e k n)
  | 0, _ => Low.pure _
  | k + 1, n => Low.bind (K := 0) (L := 0) (h.field e n) fun _ => Low.bind (K := 0) (L := 0) (Low.repeat h e k _)
      fun _ => Low.pure _

theorem Low.auth (e : Endian) : Low 1 (CDeserialize.cde e : CDe BinMemberAuthenticationPayload) :=
  Low.bind (K := 1) (L := 0) (Low.bind (K := 1) (L := 0) ((Low.u16 e).field _ _) fun _ =>
    Low.bind (K := 0) (L := 0) (Low.repeat Low.u8 _ _ _) fun _ => Low.pure _) fun _ => Low.lift _

/-- `k` authentication payloads, each of which announces all that follows as part of its key. -/
def tower : Nat → Bytes
  | 0 => []
  | k + 1 => be16 (76 * k + 74) ++ libNaCLPK ++ List.replicate 64 0 ++ tower k

theorem tower_length : ∀ k, (tower k).length = 76 * k
  | 0 => rfl
  | k + 1 => by
    simp only [tower, List.length_append, tower_length k, List.length_replicate]
    simp [be16, libNaCLPK]
    omega

theorem tower_read (k : Nat) (hk : k < 862) (pre : Bytes) :
    ∃ v n, (⟨⟨pre ++ tower (k + 1)⟩, pre.length⟩ : PacketDeserializer).cnextPayload BinMemberAuthenticationPayload =
      ((.ok v, ⟨⟨pre ++ tower (k + 1)⟩, pre.length + 76⟩), n) ∧ 76 * (k + 1) ≤ n := by
  have hl : (libNaCLPK ++ List.replicate 64 0 ++ tower k).length = 76 * k + 74 := by
    simp [libNaCLPK, tower_length]
  have h1 : (Deserialize.de .big : De VarLen16) (tower (k + 1)) =
      .ok (⟨libNaCLPK ++ List.replicate 64 0 ++ tower k⟩, []) := by
    rw [VarLen16.de_eq_ok]
    simp only [hl]
    refine ⟨by omega, ?_⟩
    rw [List.append_nil, be16_eq]
    simp [tower]
  obtain ⟨v, h2⟩ : ∃ v, (Deserialize.de .big : De BinMemberAuthenticationPayload) (tower (k + 1)) = .ok (v, []) := by
    rw [BinMemberAuthenticationPayload.de_def, h1]
    simp only
    rw [authOfContents_eq, if_neg (by rw [hl]; omega), if_neg (by simp [libNaCLPK]), dif_neg (by rw [hl]; omega)]
    exact ⟨_, rfl⟩
  have hsz : Bincode.serializedSize v = .ok 76 := by
    rw [Bincode.size_of_serialize (BinMemberAuthenticationPayload.ser_eq .big v), authBytes_length]
  have hst : 1 ≤ sizeSteps v := by
    unfold sizeSteps
    simp [Serialize.ser]
  have h3 := same_auth .big (tower (k + 1))
  rw [h2] at h3
  cases hc : (CDeserialize.cde .big : CDe BinMemberAuthenticationPayload) (tower (k + 1)) with
  | mk o n =>
    rw [hc] at h3
    simp only at h3
    subst h3
    have h4 := Low.auth .big _ _ _ _ hc
    rw [tower_length] at h4
    refine ⟨v, n + sizeSteps v, ?_, by simp at h4; omega⟩
    unfold cnextPayload sliceFrom
    rw [if_pos (by simp)]
    simp only [List.drop_left]
    rw [hc]
    simp only [hsz]

/-- C93. For authentication payloads the cursor moves 76 bytes and the read may have looked at all that is left: with
`76 * k` bytes, for every `k` up to 862, it takes `38 * k * (k + 1)` steps and more to read `k` payloads. -/
theorem C93_auth (k : Nat) (hk : k ≤ 862) : ∃ bytes all n o d', bytes.length = 76 * k ∧
    (Parser.loop .auth).Ends [] ⟨⟨bytes⟩, 0⟩ all n o d' ∧ all.length = k ∧ 38 * k * (k + 1) ≤ n := by
  suffices ∀ (k : Nat), k ≤ 862 → ∀ (pre : Bytes) (seen : List AnyPayload), ∃ all n o d',
      (Parser.loop .auth).Ends seen ⟨⟨pre ++ tower k⟩, pre.length⟩ all n o d' ∧ all.length = seen.length + k ∧
      38 * k * (k + 1) ≤ n by
    obtain ⟨all, n, o, d', h1, h2, h3⟩ := this k hk [] []
    exact ⟨tower k, all, n, o, d', tower_length k, by simpa using h1, by simpa using h2, h3⟩
  intro k
  induction k with
  | zero =>
    intro _ pre seen
    have hn : ∃ e n, (⟨⟨pre ++ tower 0⟩, pre.length⟩ : PacketDeserializer).cnextPayload Kind.auth.Ty =
        ((.err e, ⟨⟨pre ++ tower 0⟩, pre.length⟩), n) := by
      refine ⟨.eof, 2, ?_⟩
      unfold cnextPayload sliceFrom
      rw [if_pos (by simp)]
      have : (pre ++ tower 0).drop pre.length = [] := by simp [tower]
      simp only [this]
      rfl
    obtain ⟨e, n, hn⟩ := hn
    exact ⟨seen, n, _, _, .fails rfl hn, by simp, by simp⟩
  | succ k ih =>
    intro hk pre seen
    obtain ⟨v, n, h1, h2⟩ := tower_read k (by omega) pre
    have hpre : pre ++ tower (k + 1) =
        (pre ++ (be16 (76 * k + 74) ++ libNaCLPK ++ List.replicate 64 0)) ++ tower k := by
      simp [tower]
    have hlen : (pre ++ (be16 (76 * k + 74) ++ libNaCLPK ++ List.replicate 64 (0 : UInt8))).length = pre.length + 76 := by
      simp [be16, libNaCLPK]
    obtain ⟨all, m, o, d', g1, g2, g3⟩ := ih (by omega) (pre ++ (be16 (76 * k + 74) ++ libNaCLPK ++ List.replicate 64 0))
      (seen ++ [⟨.auth, v⟩])
    rw [← hpre, hlen] at g1
    refine ⟨all, n + m, o, d', Parser.Ends.reads (κ := .auth) rfl h1 g1, by simp at g2; omega, ?_⟩
    have : 38 * (k + 1) * (k + 1 + 1) = 38 * k * (k + 1) + 76 * (k + 1) := by
      have : 38 * (k + 1) * (k + 1 + 1) = (k + 1) * (38 * (k + 2)) := by
        rw [Nat.mul_comm 38, Nat.mul_assoc]
      rw [this, show 38 * (k + 2) = 38 * k + 76 from by omega, Nat.mul_add, Nat.mul_comm (k + 1) (38 * k),
        Nat.mul_comm (k + 1) 76]
    omega

/-! ## The hypotheses are met -/

theorem neverEmpty_derived {s : Sch} (h : s.minSize ≠ 0) : (Kind.derived s).NeverEmpty := fun v _ hv =>
  Sch.ser_nonempty s h v.val [] (add_serialize hv) rfl

/-- A receiver that first reads a `u16` and then, depending on it, a `VarLen16` or puncture requests for ever. -/
def cautious : Parser
  | [] => some (.derived .u16)
  | ⟨.derived .u16, ⟨x⟩⟩ :: _ => if x = (0 : UInt16) then some .varlen16 else some .punctureRequest
  | _ :: _ => none

theorem cautious_asks (seen : List AnyPayload) (κ : Kind) (h : cautious seen = some κ) :
    κ = .derived .u16 ∨ κ = .varlen16 ∨ κ = .punctureRequest := by
  unfold cautious at h
  split at h
  · exact .inl (Option.some.inj h).symm
  · split at h
    · exact .inr (.inl (Option.some.inj h).symm)
    · exact .inr (.inr (Option.some.inj h).symm)
  · simp at h

theorem cautious_advances : cautious.Advances := by
  intro seen κ h
  rcases cautious_asks seen κ h with rfl | rfl | rfl
  · exact neverEmpty_derived (by decide)
  · exact C93_crate _ (by simp)
  · exact C93_crate _ (by simp)

/-- It ends on every packet, within 27 steps for every byte and 26 more. -/
example (b : Bytes) (hl : b.length ≤ usizeMax) : ∃ all n o d', cautious.Ends [] ⟨⟨b⟩, 0⟩ all n o d' ∧
    n ≤ 27 * b.length + 26 ∧ o ≠ .panic := by
  obtain ⟨all, n, o, d', h1, _, _, _, _, h2⟩ := C93 cautious cautious_advances ⟨⟨b⟩, 0⟩ (by simp) hl
  refine ⟨all, n, o, d', h1, ?_, ?_⟩
  · have := C93_steps cautious cautious_advances 27 26 (by
      intro seen κ h
      rcases cautious_asks seen κ h with rfl | rfl | rfl <;>
        exact ⟨trivial, by decide, by decide⟩) ⟨⟨b⟩, 0⟩ d' hl all n o h1
    simpa using this
  · intro ho
    have := h2 ho
    rcases cautious_asks all .auth this with h | h | h <;> cases h

/-- Reading `struct { rest: RawEnd }` in a loop never ends, and neither does reading an empty struct. -/
example : ¬ (Kind.derived (.cons .rawEnd .unit)).NeverEmpty ∧ ¬ (Kind.derived .unit).NeverEmpty :=
  ⟨fun h => h ⟨(⟨[]⟩, ())⟩ ⟨[]⟩ rfl, fun h => h ⟨()⟩ ⟨[]⟩ rfl⟩

/-- Two `VarLen16` after a header: the loop reads both and stops. -/
example (mid : FixedBytes 20) : ∃ q d n e, q.startDeserialize.popHeader = (.ok (Header.pyIpv8Header mid 7), d) ∧
    (Parser.loop .varlen16).Ends [] d [⟨.varlen16, (⟨[1, 2]⟩ : VarLen16)⟩, ⟨.varlen16, (⟨[]⟩ : VarLen16)⟩] n (.err e)
      ⟨q, q.bytes.length⟩ := by
  have hw := C10_wire mid 7
  have hlen := C10_length mid 7
  obtain ⟨d, n, e, h⟩ := C93_message mid 7 .varlen16 trivial (C93_crate _ (by simp))
    [(⟨[1, 2]⟩ : VarLen16), (⟨[]⟩ : VarLen16)] (by intro _ _; trivial) _ _ hw rfl (by
      simp [usizeMax, Tok.size]
      have := mid.2
      omega)
  exact ⟨_, d, n, e, h⟩

/-! ## Cases for the theorems above -/

/-- `C93_endless`: a program that reads `struct { rest: RawEnd }` in a loop, given the packet of three bytes. -/
example : ∀ all n o d', ¬ (Parser.loop (.derived (.cons .rawEnd .unit))).Ends [] ⟨⟨[1, 2, 3]⟩, 0⟩ all n o d' :=
  (C93_endless (.derived (.cons .rawEnd .unit)) (fun h => h ⟨(⟨[]⟩, ())⟩ ⟨[]⟩ rfl) ⟨⟨[1, 2, 3]⟩, 0⟩ (by decide) (by decide)).2

/-- `C93_auth`: as many as fit in a datagram. -/
example := C93_auth 862 (by decide)

/-- `C93_meaning`: a loop over `VarLen16`. -/
example := C93_meaning (Parser.loop .varlen16) ⟨⟨[0, 1, 7]⟩, 0⟩

end Ipv8
