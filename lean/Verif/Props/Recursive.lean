import Verif.Model.Recursive
import Verif.Props.Composite
import Verif.Props.Bounded
import Verif.Props.Errors
/-!
# Property C88: recursive payload types, and how much stack reading one takes
-/

namespace Ipv8
open Spec PacketDeserializer

variable {k : Nat} {B : Fin k → RSch k}

/-! ## Specification -/

/-- How deep values of named types are nested in a value. -/
def RTy.depth : {s : RSch k} → RTy B s → Nat
  | _, .leaf _ => 0
  | _, .named _ v => v.depth + 1
  | _, .none => 0
  | _, .some v => v.depth
  | _, .vec _ xs => (List.ofFn fun i => (xs i).depth).foldr max 0
  | _, .array xs => (List.ofFn fun i => (xs i).depth).foldr max 0
  | _, .unit => 0
  | _, .pair x y => max x.depth y.depth
  | _, .variant _ v => v.depth

/-- Every vector in the value has a length that fits a `usize`; true of every Rust value. -/
def RTy.Fits : {s : RSch k} → RTy B s → Prop
  | _, @RTy.leaf _ _ s x => s.Fits x
  | _, .named _ v => v.Fits
  | _, .none => True
  | _, .some v => v.Fits
  | _, .vec n xs => n ≤ usizeMax ∧ ∀ i, (xs i).Fits
  | _, .array xs => ∀ i, (xs i).Fits
  | _, .unit => True
  | _, .pair x y => x.Fits ∧ y.Fits
  | _, .variant _ v => v.Fits

/-- No `RawEnd` in the definition, and enums have at most `2^32` variants. -/
def RSch.SelfDelimiting : RSch k → Prop
  | .leaf s => s.SelfDelimiting
  | .option s => s.SelfDelimiting
  | .vec s => s.SelfDelimiting
  | .array _ s => s.SelfDelimiting
  | .cons a b => a.SelfDelimiting ∧ b.SelfDelimiting
  | .enum n f => n ≤ 2 ^ 32 ∧ ∀ i, (f i).SelfDelimiting
  | _ => True

/-- Reading it may take no byte at all (of a named type nothing is known). -/
def RSch.MayBeEmpty : RSch k → Prop
  | .leaf s => s.minSize = 0
  | .named _ => True
  | .option _ => False
  | .vec _ => False
  | .array n s => n = 0 ∨ s.MayBeEmpty
  | .unit => True
  | .cons a b => a.MayBeEmpty ∧ b.MayBeEmpty
  | .enum _ _ => False

/-- The reader may come to the named type `j` before it has read a byte. -/
def RSch.Meets (j : Fin k) : RSch k → Prop
  | .named i => i = j
  | .array n s => n ≠ 0 ∧ s.Meets j
  | .cons a b => a.Meets j ∨ (a.MayBeEmpty ∧ b.Meets j)
  | _ => False

/-- The definitions do not go round in a circle without a byte being read: `rank` goes down as long as none is.
Without this a type has no values, or is infinite. -/
structure Guarded (B : Fin k → RSch k) (rank : Fin k → Nat) (R : Nat) : Prop where
  below : ∀ i, rank i < R
  down : ∀ i j, (B i).Meets j → rank j < rank i

/-! ## Lists of outcomes -/

theorem foldr_max_le {l : List Nat} {m : Nat} : l.foldr max 0 ≤ m ↔ ∀ x ∈ l, x ≤ m := by
  induction l with
  | nil => simp
  | cons x l ih => simp only [List.foldr_cons, List.mem_cons, forall_eq_or_imp, ← ih]; omega

theorem ofFn_max_le {n : Nat} {f : Fin n → Nat} {m : Nat} :
    (List.ofFn f).foldr max 0 ≤ m ↔ ∀ i, f i ≤ m := by
  rw [foldr_max_le]
  constructor
  · intro h i; exact h _ (by simp)
  · intro h x hx
    simp only [List.mem_ofFn] at hx
    obtain ⟨i, rfl⟩ := hx
    exact h i

theorem serSeq_id {os : List (Outcome (List Tok))} {ts : List Tok} (h : serSeq id os = .ok ts) :
    ∃ tss : List (List Tok), os = tss.map .ok ∧ ts = tss.flatten := by
  induction os generalizing ts with
  | nil => cases h; exact ⟨[], rfl, rfl⟩
  | cons o os ih =>
    simp only [serSeq, Outcome.bind_eq_ok, Outcome.pure_eq, Outcome.ok.injEq, id] at h
    obtain ⟨a, ha, b, hb, rfl⟩ := h
    obtain ⟨tss, h1, h2⟩ := ih hb
    exact ⟨a :: tss, by simp [ha, h1], by simp [h2]⟩

theorem serSeq_id_ok (tss : List (List Tok)) : serSeq id (tss.map .ok) = .ok tss.flatten := by
  induction tss with
  | nil => rfl
  | cons t tss ih => simp [serSeq, ih]

/-- The elements of a sequence that was written. -/
theorem serSeq_ofFn {n : Nat} {o : Fin n → Outcome (List Tok)} {ts : List Tok} :
    serSeq id (List.ofFn o) = .ok ts ↔
      ∃ t : Fin n → List Tok, (∀ i, o i = .ok (t i)) ∧ ts = (List.ofFn t).flatten := by
  constructor
  · intro h
    obtain ⟨tss, h1, h2⟩ := serSeq_id h
    have hl : tss.length = n := by
      have := congrArg List.length h1
      simpa using this.symm
    subst hl
    refine ⟨fun i => tss[i], fun i => ?_, ?_⟩
    · have := congrArg (fun l => l[i.val]?) h1
      simpa using this
    · rw [h2]
      congr 1
      exact (List.ofFn_getElem).symm
  · rintro ⟨t, h1, rfl⟩
    have : List.ofFn o = (List.ofFn t).map .ok := by
      rw [List.map_ofFn]
      congr 1
      funext i
      exact h1 i
    rw [this, serSeq_id_ok]

/-- A loop over values whose bytes are there: it returns them all, unless one of them makes it stop. -/
theorem vecLoop_pairs {α : Type} {d : De α} {e : Endian} : ∀ (l : List (α × List Tok)) (rest : Bytes),
    (∀ p ∈ l, (∀ rest, d (flat e p.2 ++ rest) = .ok (p.1, rest)) ∨ (∀ rest, d (flat e p.2 ++ rest) = .panic)) →
    ((∀ p ∈ l, ∀ rest, d (flat e p.2 ++ rest) = .ok (p.1, rest)) →
      vecLoop d l.length (flat e (l.map Prod.snd).flatten ++ rest) = .ok (l.map Prod.fst, rest)) ∧
    ((∃ p ∈ l, ∀ rest, d (flat e p.2 ++ rest) = .panic) →
      vecLoop d l.length (flat e (l.map Prod.snd).flatten ++ rest) = .panic)
  | [], rest, _ => ⟨fun _ => rfl, fun ⟨_, hp, _⟩ => absurd hp (by simp)⟩
  | p :: l, rest, h => by
    have ih := vecLoop_pairs l rest (fun q hq => h q (by simp [hq]))
    have hflat : flat e (List.map Prod.snd (p :: l)).flatten ++ rest =
        flat e p.2 ++ (flat e (l.map Prod.snd).flatten ++ rest) := by
      simp [flat, List.flatMap_append]
    rw [hflat]
    simp only [List.length_cons, vecLoop]
    constructor
    · intro hg
      rw [De.bind_ok (hg p (by simp) _), De.bind_ok (ih.1 fun q hq => hg q (by simp [hq]))]
      rfl
    · rintro ⟨q, hq, hb⟩
      rcases h p (by simp) with hp | hp
      · rw [De.bind_ok (hp _)]
        rcases List.mem_cons.mp hq with rfl | hq
        · have h1 := hp []
          rw [hb []] at h1
          exact absurd h1 (by simp)
        · rw [De.bind_panic (ih.2 ⟨q, hq, hb⟩)]
      · rw [De.bind_panic (hp _)]

/-! ## Writing and reading back -/

theorem ofFn_get {α : Type} {n : Nat} (f : Fin n → α) (h : (List.ofFn f).length = n) :
    (fun i : Fin n => (List.ofFn f)[i.val]'(by rw [h]; exact i.isLt)) = f := by
  funext i
  simp

theorem deElements_ok {α : Type} {d : De α} {n : Nat} {r r' : Bytes} {xs : Fin n → α} :
    deElements d n r = .ok (xs, r') ↔ vecLoop d n r = .ok (List.ofFn xs, r') := by
  unfold deElements
  simp only [De.bind_eq_ok, De.pure_run, Outcome.ok.injEq, Prod.mk.injEq, deArray_eq_ok]
  constructor
  · rintro ⟨⟨l, hl⟩, r1, h1, rfl, rfl⟩
    subst hl
    rw [h1]
    simp only [Outcome.ok.injEq, Prod.mk.injEq, and_true]
    exact (List.ofFn_getElem).symm
  · intro h
    exact ⟨⟨List.ofFn xs, List.length_ofFn⟩, r', h, ofFn_get xs List.length_ofFn, rfl⟩

theorem deArray_panic {α : Type} {d : De α} {n : Nat} {r : Bytes} (h : vecLoop d n r = .panic) :
    deArray d n r = .panic := by
  unfold deArray
  exact De.bind_panic h

/-- A sequence of values read back, or not. -/
theorem array_back {α : Type} {d : De α} {e : Endian} {n : Nat} (xs : Fin n → α) (t : Fin n → List Tok)
    (depth : α → Nat) (f : Nat)
    (h : ∀ i rest, (depth (xs i) ≤ f → d (flat e (t i) ++ rest) = .ok (xs i, rest)) ∧
      (f < depth (xs i) → d (flat e (t i) ++ rest) = .panic)) (rest : Bytes) :
    ((List.ofFn fun i => depth (xs i)).foldr max 0 ≤ f →
      deElements d n (flat e (List.ofFn t).flatten ++ rest) = .ok (xs, rest)) ∧
    (f < (List.ofFn fun i => depth (xs i)).foldr max 0 →
      deElements d n (flat e (List.ofFn t).flatten ++ rest) = .panic) := by
  have hl : List.ofFn t = (List.ofFn fun i => (xs i, t i)).map Prod.snd := by
    rw [List.map_ofFn]; rfl
  have hl' : List.ofFn xs = (List.ofFn fun i => (xs i, t i)).map Prod.fst := by
    rw [List.map_ofFn]; rfl
  have key := vecLoop_pairs (d := d) (e := e) (List.ofFn fun i => (xs i, t i)) rest (by
    intro p hp
    simp only [List.mem_ofFn] at hp
    obtain ⟨i, rfl⟩ := hp
    by_cases hd : depth (xs i) ≤ f
    · exact .inl fun rest => (h i rest).1 hd
    · exact .inr fun rest => (h i rest).2 (by omega))
  rw [← hl, ← hl', List.length_ofFn] at key
  constructor
  · intro hm
    rw [ofFn_max_le] at hm
    rw [deElements_ok]
    refine key.1 ?_
    intro p hp
    simp only [List.mem_ofFn] at hp
    obtain ⟨i, rfl⟩ := hp
    exact fun rest => (h i rest).1 (hm i)
  · intro hm
    have : ∃ i, f < depth (xs i) := by
      apply Classical.byContradiction
      intro hn
      have : (List.ofFn fun i => depth (xs i)).foldr max 0 ≤ f := by
        rw [ofFn_max_le]
        intro i
        apply Classical.byContradiction
        intro hi
        exact hn ⟨i, by omega⟩
      omega
    obtain ⟨i, hi⟩ := this
    refine De.bind_panic (deArray_panic (key.2 ⟨(xs i, t i), ?_, fun rest => (h i rest).2 hi⟩))
    simp only [List.mem_ofFn]
    exact ⟨i, rfl⟩

/-- What was written reads back if the stack is deep enough, and overflows it otherwise. -/
theorem RTy.back (e : Endian) (hB : ∀ i, (B i).SelfDelimiting) {s : RSch k} (v : RTy B s) :
    s.SelfDelimiting → v.Fits → ∀ (fw : Nat) (ts : List Tok), v.ser fw = .ok ts → ∀ (fr : Nat) (rest : Bytes),
      (v.depth ≤ fr → s.step e (readNamed B e fr) (flat e ts ++ rest) = .ok (v, rest)) ∧
      (fr < v.depth → s.step e (readNamed B e fr) (flat e ts ++ rest) = .panic) := by
  induction v with
  | @leaf s x =>
    intro hs hf fw ts h fr rest
    refine ⟨fun _ => ?_, fun h => absurd h (by simp [RTy.depth])⟩
    simp only [RSch.step]
    rw [De.bind_ok (Sch.roundtrip e s hs x ts rest hf (by simpa [RTy.ser] using h))]
    rfl
  | named i v ih =>
    intro hs hf fw ts h fr rest
    cases fw with
    | zero => simp [RTy.ser] at h
    | succ fw =>
      simp only [RTy.ser] at h
      cases fr with
      | zero => exact ⟨fun h => absurd h (by simp [RTy.depth]), fun _ => rfl⟩
      | succ fr =>
        have := ih (hB i) hf fw ts h fr rest
        simp only [RSch.step, readNamed, RTy.depth]
        constructor
        · intro hd
          rw [De.bind_ok (this.1 (by omega))]
          rfl
        · intro hd
          rw [De.bind_panic (this.2 (by omega))]
  | none =>
    intro hs hf fw ts h fr rest
    simp only [RTy.ser, Outcome.ok.injEq] at h
    subst h
    exact ⟨fun _ => rfl, fun h => absurd h (by simp [RTy.depth])⟩
  | @some s v ih =>
    intro hs hf fw ts h fr rest
    simp only [RTy.ser, Outcome.bind_eq_ok, Outcome.pure_eq, Outcome.ok.injEq] at h
    obtain ⟨a, ha, rfl⟩ := h
    have := ih hs hf fw a ha fr rest
    have ho : deOption (s.step e (readNamed B e fr)) (flat e (.u8 1 :: a) ++ rest) =
        (do
          let a ← s.step e (readNamed B e fr)
          Pure.pure (Option.some a) : De (Option (RTy B s))) (flat e a ++ rest) := by
      simp only [deOption, flat, List.flatMap_cons, Tok.bytes, List.cons_append, List.nil_append]
      rw [De.bind_ok (deU8_cons _ _)]
      simp only [show (1 : UInt8) ≠ 0 by decide, if_false, if_true]
    simp only [RSch.step, RTy.depth]
    constructor
    · intro hd
      rw [De.bind_ok (a := Option.some v) (r' := rest) (by rw [ho, De.bind_ok (this.1 hd)]; rfl)]
      rfl
    · intro hd
      rw [De.bind_panic (by rw [ho, De.bind_panic (this.2 hd)])]
  | @vec s n xs ih =>
    intro hs hf fw ts h fr rest
    simp only [RTy.ser, Outcome.bind_eq_ok, Outcome.pure_eq, Outcome.ok.injEq] at h
    obtain ⟨a, ha, rfl⟩ := h
    rw [serSeq_ofFn] at ha
    obtain ⟨t, ht, rfl⟩ := ha
    have := array_back (d := s.step e (readNamed B e fr)) (e := e) xs t RTy.depth fr
      (fun i rest => ih i hs (hf.2 i) fw (t i) (ht i) fr rest) rest
    simp only [RSch.step, RTy.depth, flat, List.flatMap_cons, List.append_assoc] at this ⊢
    rw [De.bind_ok (deU64_tok e _ _), u64_length hf.1]
    constructor
    · intro hd
      rw [De.bind_ok (this.1 hd)]
      rfl
    · intro hd
      rw [De.bind_panic (this.2 hd)]
  | @array n s xs ih =>
    intro hs hf fw ts h fr rest
    simp only [RTy.ser] at h
    rw [serSeq_ofFn] at h
    obtain ⟨t, ht, rfl⟩ := h
    have := array_back (d := s.step e (readNamed B e fr)) (e := e) xs t RTy.depth fr
      (fun i rest => ih i hs (hf i) fw (t i) (ht i) fr rest) rest
    simp only [RSch.step, RTy.depth] at this ⊢
    constructor
    · intro hd
      rw [De.bind_ok (this.1 hd)]
      rfl
    · intro hd
      rw [De.bind_panic (this.2 hd)]
  | unit =>
    intro hs hf fw ts h fr rest
    simp only [RTy.ser, Outcome.ok.injEq] at h
    subst h
    exact ⟨fun _ => rfl, fun h => absurd h (by simp [RTy.depth])⟩
  | pair x y ihx ihy =>
    intro hs hf fw ts h fr rest
    simp only [RTy.ser, Outcome.bind_eq_ok, Outcome.pure_eq, Outcome.ok.injEq] at h
    obtain ⟨p, hp, q, hq, rfl⟩ := h
    have h2 := ihy hs.2 hf.2 fw q hq fr rest
    have h1 := ihx hs.1 hf.1 fw p hp fr (flat e q ++ rest)
    simp only [RSch.step, RTy.depth, flat, List.flatMap_append, List.append_assoc] at h1 h2 ⊢
    constructor
    · intro hd
      rw [De.bind_ok (h1.1 (by omega)), De.bind_ok (h2.1 (by omega))]
      rfl
    · intro hd
      by_cases hx : x.depth ≤ fr
      · rw [De.bind_ok (h1.1 hx), De.bind_panic (h2.2 (by omega))]
      · rw [De.bind_panic (h1.2 (by omega))]
  | @variant n f i v ih =>
    intro hs hf fw ts h fr rest
    simp only [RTy.ser, Outcome.bind_eq_ok, Outcome.pure_eq, Outcome.ok.injEq] at h
    obtain ⟨a, ha, rfl⟩ := h
    have hn : (UInt32.ofNat i.val).toNat = i.val := by
      rw [UInt32.toNat_ofNat']
      have := hs.1
      have := i.isLt
      omega
    have := ih (hs.2 i) hf fw a ha fr rest
    simp only [RSch.step, RTy.depth, flat, List.flatMap_cons, List.append_assoc] at this ⊢
    rw [De.bind_ok (deU32_tok e _ _)]
    have arm : ∀ m (hm : m = i.val), (if h : m < n then (do
        let x ← (f ⟨m, h⟩).step e (readNamed B e fr)
        Pure.pure (RTy.variant ⟨m, h⟩ x) : De (RTy B (.enum n f)))
        else De.fail (.custom "invalid value: expected variant index")) = (do
        let x ← (f i).step e (readNamed B e fr)
        Pure.pure (RTy.variant i x)) := by
      intro m hm
      subst hm
      rw [dif_pos i.isLt]
    rw [arm _ hn]
    constructor
    · intro hd
      rw [De.bind_ok (this.1 hd)]
      rfl
    · intro hd
      rw [De.bind_panic (this.2 hd)]

/-! ## What is read is what would be written -/

theorem RTy.ser_mono {s : RSch k} (v : RTy B s) : ∀ (f g : Nat) (ts : List Tok), v.ser f = .ok ts → v.depth ≤ f ∧
    (v.depth ≤ g → v.ser g = .ok ts) := by
  induction v with
  | leaf x => intro f g ts h; exact ⟨Nat.zero_le _, fun _ => h⟩
  | named i v ih =>
    intro f g ts h
    cases f with
    | zero => simp [RTy.ser] at h
    | succ f =>
      simp only [RTy.ser] at h
      refine ⟨by have := (ih f 0 ts h).1; simp only [RTy.depth]; omega, fun hg => ?_⟩
      cases g with
      | zero => simp [RTy.depth] at hg
      | succ g => exact (ih f g ts h).2 (by simp only [RTy.depth] at hg; omega)
  | none => intro f g ts h; exact ⟨Nat.zero_le _, fun _ => h⟩
  | some v ih =>
    intro f g ts h
    simp only [RTy.ser, Outcome.bind_eq_ok, Outcome.pure_eq, Outcome.ok.injEq, RTy.depth] at h ⊢
    obtain ⟨a, ha, rfl⟩ := h
    exact ⟨(ih f 0 a ha).1, fun hg => ⟨a, (ih f g a ha).2 hg, rfl⟩⟩
  | vec n xs ih =>
    intro f g ts h
    simp only [RTy.ser, Outcome.bind_eq_ok, Outcome.pure_eq, Outcome.ok.injEq, RTy.depth] at h ⊢
    obtain ⟨a, ha, rfl⟩ := h
    rw [serSeq_ofFn] at ha
    obtain ⟨t, ht, rfl⟩ := ha
    refine ⟨ofFn_max_le.mpr fun i => (ih i f 0 _ (ht i)).1, fun hg => ⟨_, ?_, rfl⟩⟩
    exact serSeq_ofFn.mpr ⟨t, fun i => (ih i f g _ (ht i)).2 (ofFn_max_le.mp hg i), rfl⟩
  | array xs ih =>
    intro f g ts h
    simp only [RTy.ser, RTy.depth] at h ⊢
    rw [serSeq_ofFn] at h
    obtain ⟨t, ht, rfl⟩ := h
    refine ⟨ofFn_max_le.mpr fun i => (ih i f 0 _ (ht i)).1, fun hg => ?_⟩
    exact serSeq_ofFn.mpr ⟨t, fun i => (ih i f g _ (ht i)).2 (ofFn_max_le.mp hg i), rfl⟩
  | unit => intro f g ts h; exact ⟨Nat.zero_le _, fun _ => h⟩
  | pair x y ihx ihy =>
    intro f g ts h
    simp only [RTy.ser, Outcome.bind_eq_ok, Outcome.pure_eq, Outcome.ok.injEq, RTy.depth] at h ⊢
    obtain ⟨p, hp, q, hq, rfl⟩ := h
    have h1 := ihx f g p hp
    have h2 := ihy f g q hq
    exact ⟨by omega, fun hg => ⟨p, h1.2 (by omega), q, h2.2 (by omega), rfl⟩⟩
  | variant i v ih =>
    intro f g ts h
    simp only [RTy.ser, Outcome.bind_eq_ok, Outcome.pure_eq, Outcome.ok.injEq, RTy.depth] at h ⊢
    obtain ⟨a, ha, rfl⟩ := h
    exact ⟨(ih f 0 a ha).1, fun hg => ⟨a, (ih f g a ha).2 hg, rfl⟩⟩

theorem Outcome.bind_eq_panic {α β : Type} {m : Outcome α} {f : α → Outcome β} :
    (m >>= f) = .panic ↔ m = .panic ∨ ∃ a, m = .ok a ∧ f a = .panic := by
  cases m <;> simp

theorem serSeq_ne_err {os : List (Outcome (List Tok))} (h : ∀ o ∈ os, ∀ x, o ≠ .err x) : ∀ x, serSeq id os ≠ .err x := by
  induction os with
  | nil => intro x hx; simp [serSeq] at hx
  | cons o os ih =>
    intro x hx
    simp only [serSeq, Outcome.bind_eq_err, Outcome.pure_eq, id] at hx
    rcases hx with hx | ⟨a, _, hx | ⟨b, _, hx⟩⟩
    · exact h o (by simp) x hx
    · exact ih (fun o ho => h o (by simp [ho])) x hx
    · simp at hx

theorem serSeq_id_ne_panic {n : Nat} {o : Fin n → Outcome (List Tok)} (h : ∀ i, o i ≠ .panic) :
    serSeq id (List.ofFn o) ≠ .panic := by
  induction n with
  | zero => simp [serSeq]
  | succ n ih =>
    intro hp
    simp only [List.ofFn_succ, serSeq, Outcome.bind_eq_panic, Outcome.pure_eq, id] at hp
    rcases hp with hp | ⟨_, _, hp | ⟨_, _, hp⟩⟩
    · exact h 0 hp
    · exact ih (fun i => h i.succ) hp
    · simp at hp

/-- What can be written with enough stack can fail with less only by overflowing it. -/
theorem RTy.ser_deep {s : RSch k} (v : RTy B s) : ∀ (f : Nat) (ts : List Tok), v.ser f = .ok ts → ∀ (g : Nat),
    g < v.depth → ∀ x, v.ser g ≠ .err x := by
  intro f ts h g hg
  clear hg
  induction v generalizing f ts g with
  | leaf x => intro y hy; simp only [RTy.ser] at h hy; rw [h] at hy; simp at hy
  | named i v ih =>
    intro x hx
    cases f with
    | zero => simp [RTy.ser] at h
    | succ f =>
      cases g with
      | zero => simp [RTy.ser] at hx
      | succ g => exact ih f ts h g x hx
  | none => intro x hx; simp [RTy.ser] at hx
  | some v ih =>
    intro x hx
    simp only [RTy.ser, Outcome.bind_eq_ok, Outcome.bind_eq_err, Outcome.pure_eq] at h hx
    obtain ⟨a, ha, _⟩ := h
    rcases hx with hx | ⟨_, _, hx⟩
    · exact ih f a ha g x hx
    · simp at hx
  | vec n xs ih =>
    intro x hx
    simp only [RTy.ser, Outcome.bind_eq_ok, Outcome.bind_eq_err, Outcome.pure_eq] at h hx
    obtain ⟨a, ha, _⟩ := h
    rw [serSeq_ofFn] at ha
    obtain ⟨t, ht, _⟩ := ha
    rcases hx with hx | ⟨_, _, hx⟩
    · refine serSeq_ne_err ?_ x hx
      intro o ho y
      simp only [List.mem_ofFn] at ho
      obtain ⟨i, rfl⟩ := ho
      exact ih i f (t i) (ht i) g y
    · simp at hx
  | array xs ih =>
    intro x hx
    simp only [RTy.ser] at h hx
    rw [serSeq_ofFn] at h
    obtain ⟨t, ht, _⟩ := h
    refine serSeq_ne_err ?_ x hx
    intro o ho y
    simp only [List.mem_ofFn] at ho
    obtain ⟨i, rfl⟩ := ho
    exact ih i f (t i) (ht i) g y
  | unit => intro x hx; simp [RTy.ser] at hx
  | pair x y ihx ihy =>
    intro z hz
    simp only [RTy.ser, Outcome.bind_eq_ok, Outcome.bind_eq_err, Outcome.pure_eq] at h hz
    obtain ⟨p, hp, q, hq, _⟩ := h
    rcases hz with hz | ⟨_, _, hz | ⟨_, _, hz⟩⟩
    · exact ihx f p hp g z hz
    · exact ihy f q hq g z hz
    · simp at hz
  | variant i v ih =>
    intro x hx
    simp only [RTy.ser, Outcome.bind_eq_ok, Outcome.bind_eq_err, Outcome.pure_eq] at h hx
    obtain ⟨a, ha, _⟩ := h
    rcases hx with hx | ⟨_, _, hx⟩
    · exact ih f a ha g x hx
    · simp at hx

theorem RTy.ser_ne_panic {s : RSch k} (v : RTy B s) : ∀ f : Nat, v.depth ≤ f → v.ser f ≠ .panic := by
  induction v with
  | @leaf s x => intro f _ h; exact Sch.ser_ne_panic s x (by simpa [RTy.ser] using h)
  | named i v ih =>
    intro f hd h
    cases f with
    | zero => simp [RTy.depth] at hd
    | succ f => exact ih f (by simp only [RTy.depth] at hd; omega) h
  | none => intro f _ h; simp [RTy.ser] at h
  | some v ih =>
    intro f hd h
    simp only [RTy.ser, Outcome.bind_eq_panic, Outcome.pure_eq] at h
    rcases h with h | ⟨_, _, h⟩
    · exact ih f hd h
    · simp at h
  | vec n xs ih =>
    intro f hd h
    simp only [RTy.ser, Outcome.bind_eq_panic, Outcome.pure_eq] at h
    rcases h with h | ⟨_, _, h⟩
    · exact serSeq_id_ne_panic (fun i => ih i f (ofFn_max_le.mp hd i)) h
    · simp at h
  | array xs ih =>
    intro f hd h
    simp only [RTy.ser] at h
    exact serSeq_id_ne_panic (fun i => ih i f (ofFn_max_le.mp hd i)) h
  | unit => intro f _ h; simp [RTy.ser] at h
  | pair x y ihx ihy =>
    intro f hd h
    simp only [RTy.ser, Outcome.bind_eq_panic, Outcome.pure_eq, RTy.depth] at h hd
    rcases h with h | ⟨_, _, h | ⟨_, _, h⟩⟩
    · exact ihx f (by omega) h
    · exact ihy f (by omega) h
    · simp at h
  | variant i v ih =>
    intro f hd h
    simp only [RTy.ser, Outcome.bind_eq_panic, Outcome.pure_eq] at h
    rcases h with h | ⟨_, _, h⟩
    · exact ih f hd h
    · simp at h

/-- A reader that returns only values whose bytes, with this much stack to write them, it has consumed. -/
def Reads (e : Endian) (f : Nat) {s : RSch k} (d : De (RTy B s)) : Prop :=
  ∀ r r' v, d r = .ok (v, r') → v.Fits ∧ ∃ ts, v.ser f = .ok ts ∧ r = flat e ts ++ r'

theorem vecLoop_pairs_exact {α : Type} {d : De α} {e : Endian} {P : α → List Tok → Prop}
    (hd : ∀ r r' v, d r = .ok (v, r') → ∃ ts, P v ts ∧ r = flat e ts ++ r') :
    ∀ (n : Nat) (r r' : Bytes) (xs : Fin n → α), vecLoop d n r = .ok (List.ofFn xs, r') →
      ∃ t : Fin n → List Tok, (∀ i, P (xs i) (t i)) ∧ r = flat e (List.ofFn t).flatten ++ r' := by
  intro n
  induction n with
  | zero =>
    intro r r' xs h
    simp only [vecLoop, De.pure_run, Outcome.ok.injEq, Prod.mk.injEq] at h
    exact ⟨fun i => i.elim0, fun i => i.elim0, by simp [flat, h.2]⟩
  | succ n ih =>
    intro r r' xs h
    simp only [vecLoop, De.bind_eq_ok, De.pure_run, Outcome.ok.injEq, Prod.mk.injEq, List.ofFn_succ,
      List.cons.injEq] at h
    obtain ⟨a, r1, h1, as, r2, h2, ⟨rfl, rfl⟩, rfl⟩ := h
    obtain ⟨t0, p0, rfl⟩ := hd _ _ _ h1
    obtain ⟨t, p, rfl⟩ := ih _ _ _ h2
    refine ⟨fun i => Fin.cases t0 t i, fun i => ?_, ?_⟩
    · cases i using Fin.cases with
      | zero => exact p0
      | succ i => exact p i
    · simp [List.ofFn_succ, flat, List.flatMap_append]

theorem RSch.step_exact (e : Endian) (f : Nat) (d : (i : Fin k) → De (RTy B (.named i)))
    (hd : ∀ i, Reads e f (d i)) (s : RSch k) : Reads e f (s.step e d) := by
  induction s with
  | leaf s =>
    intro r r' v h
    simp only [RSch.step, De.bind_eq_ok, De.pure_run, Outcome.ok.injEq, Prod.mk.injEq] at h
    obtain ⟨x, r1, h1, rfl, rfl⟩ := h
    obtain ⟨ts, h2, h3⟩ := Sch.de_exact e s _ _ _ h1
    exact ⟨Sch.de_fits e s _ _ _ h1, ts, by simpa [RTy.ser] using h2, h3⟩
  | named i => exact hd i
  | option s ih =>
    intro r r' v h
    simp only [RSch.step, deOption, De.bind_eq_ok, deU8_eq_ok] at h
    obtain ⟨o, r1, ⟨b, r2, rfl, h1⟩, h2⟩ := h
    by_cases h0 : b = 0
    · subst h0
      simp only [if_true, De.pure_run, Outcome.ok.injEq, Prod.mk.injEq] at h1
      obtain ⟨rfl, rfl⟩ := h1
      simp only [De.pure_run, Outcome.ok.injEq, Prod.mk.injEq] at h2
      obtain ⟨rfl, rfl⟩ := h2
      exact ⟨trivial, [.u8 0], rfl, rfl⟩
    · rw [if_neg h0] at h1
      by_cases hb : b = 1
      · subst hb
        simp only [if_true, De.bind_eq_ok, De.pure_run, Outcome.ok.injEq, Prod.mk.injEq] at h1
        obtain ⟨a, r3, h3, rfl, rfl⟩ := h1
        simp only [De.pure_run, Outcome.ok.injEq, Prod.mk.injEq] at h2
        obtain ⟨rfl, rfl⟩ := h2
        obtain ⟨h4, ts, h5, rfl⟩ := ih _ _ _ h3
        exact ⟨h4, .u8 1 :: ts, by simp [RTy.ser, h5], by simp [flat, Tok.bytes]⟩
      · rw [if_neg hb] at h1
        simp at h1
  | vec s ih =>
    intro r r' v h
    simp only [RSch.step, De.bind_eq_ok, De.pure_run, Outcome.ok.injEq, Prod.mk.injEq, deU64_eq_ok,
      deElements_ok] at h
    obtain ⟨n, r1, rfl, xs, r2, h2, rfl, rfl⟩ := h
    obtain ⟨t, h3, rfl⟩ := vecLoop_pairs_exact (P := fun v ts => v.Fits ∧ v.ser f = .ok ts) (e := e) (by
      intro r r' v h
      obtain ⟨h1, ts, h2, h3⟩ := ih r r' v h
      exact ⟨ts, ⟨h1, h2⟩, h3⟩) _ _ _ _ h2
    have hn := n.toNat_lt
    refine ⟨⟨by simp only [usizeMax]; omega, fun i => (h3 i).1⟩, .u64 n :: (List.ofFn t).flatten, ?_, ?_⟩
    · simp only [RTy.ser, Outcome.bind_eq_ok, Outcome.pure_eq, Outcome.ok.injEq]
      exact ⟨_, serSeq_ofFn.mpr ⟨t, fun i => (h3 i).2, rfl⟩, by simp⟩
    · simp [flat]
  | array n s ih =>
    intro r r' v h
    simp only [RSch.step, De.bind_eq_ok, De.pure_run, Outcome.ok.injEq, Prod.mk.injEq, deElements_ok] at h
    obtain ⟨xs, r2, h2, rfl, rfl⟩ := h
    obtain ⟨t, h3, rfl⟩ := vecLoop_pairs_exact (P := fun v ts => v.Fits ∧ v.ser f = .ok ts) (e := e) (by
      intro r r' v h
      obtain ⟨h1, ts, h2, h3⟩ := ih r r' v h
      exact ⟨ts, ⟨h1, h2⟩, h3⟩) _ _ _ _ h2
    exact ⟨fun i => (h3 i).1, _, serSeq_ofFn.mpr ⟨t, fun i => (h3 i).2, rfl⟩, rfl⟩
  | unit =>
    intro r r' v h
    simp only [RSch.step, De.pure_run, Outcome.ok.injEq, Prod.mk.injEq] at h
    obtain ⟨rfl, rfl⟩ := h
    exact ⟨trivial, [], rfl, rfl⟩
  | cons a b iha ihb =>
    intro r r' v h
    simp only [RSch.step, De.bind_eq_ok, De.pure_run, Outcome.ok.injEq, Prod.mk.injEq] at h
    obtain ⟨x, r1, h1, y, r2, h2, rfl, rfl⟩ := h
    obtain ⟨f1, p, h3, rfl⟩ := iha _ _ _ h1
    obtain ⟨f2, q, h4, rfl⟩ := ihb _ _ _ h2
    exact ⟨⟨f1, f2⟩, p ++ q, by simp [RTy.ser, h3, h4], by simp [flat]⟩
  | enum n g ih =>
    intro r r' v h
    simp only [RSch.step, De.bind_eq_ok, deU32_eq_ok] at h
    obtain ⟨i, r1, rfl, h⟩ := h
    by_cases hi : i.toNat < n
    · rw [dif_pos hi] at h
      simp only [De.bind_eq_ok, De.pure_run, Outcome.ok.injEq, Prod.mk.injEq] at h
      obtain ⟨x, r2, h2, rfl, rfl⟩ := h
      obtain ⟨f1, ts, h3, rfl⟩ := ih _ _ _ _ h2
      exact ⟨f1, .u32 i :: ts, by simp [RTy.ser, h3], by simp [flat]⟩
    · rw [dif_neg hi] at h
      simp at h

theorem readNamed_exact (e : Endian) (f : Nat) : ∀ i : Fin k, Reads e f (readNamed B e f i) := by
  induction f with
  | zero => intro i r r' v h; simp [readNamed] at h
  | succ f ih =>
    intro i r r' v h
    simp only [readNamed, De.bind_eq_ok, De.pure_run, Outcome.ok.injEq, Prod.mk.injEq] at h
    obtain ⟨v, r1, h1, rfl, rfl⟩ := h
    obtain ⟨h2, ts, h3, h4⟩ := RSch.step_exact e f (readNamed B e f) ih (B i) _ _ _ h1
    exact ⟨h2, ts, by simpa [RTy.ser] using h3, h4⟩

/-! ## More stack changes nothing else -/

/-- The second reader does what the first does wherever that one does not overflow the stack. -/
def Extends {α : Type} (d d' : De α) : Prop := ∀ r, d r ≠ .panic → d' r = d r

theorem Extends.refl {α : Type} (d : De α) : Extends d d := fun _ _ => rfl

theorem Extends.bind {α β : Type} {d d' : De α} {f f' : α → De β} (h : Extends d d')
    (hf : ∀ a, Extends (f a) (f' a)) : Extends (d >>= f) (d' >>= f') := by
  intro r hp
  rw [De.bind_run] at hp
  rw [De.bind_run, De.bind_run]
  cases hd : d r with
  | ok x =>
    rw [hd] at hp
    rw [h r (by simp [hd]), hd]
    exact hf x.1 x.2 hp
  | err x => rw [h r (by simp [hd]), hd]
  | panic => rw [hd] at hp; exact absurd rfl hp

theorem Extends.vecLoop {α : Type} {d d' : De α} (h : Extends d d') :
    ∀ n, Extends (Ipv8.vecLoop d n) (Ipv8.vecLoop d' n)
  | 0 => Extends.refl _
  | n + 1 => h.bind fun _ => (Extends.vecLoop h n).bind fun _ => Extends.refl _

theorem Extends.elements {α : Type} {d d' : De α} (h : Extends d d') (n : Nat) :
    Extends (deElements d n) (deElements d' n) :=
  Extends.bind ((h.vecLoop n).bind fun _ => Extends.refl _) fun _ => Extends.refl _

theorem RSch.step_extends (e : Endian) {d d' : (i : Fin k) → De (RTy B (.named i))} (h : ∀ i, Extends (d i) (d' i))
    (s : RSch k) : Extends (s.step e d) (s.step e d') := by
  induction s with
  | leaf s => exact Extends.refl _
  | named i => exact h i
  | option s ih =>
    refine Extends.bind (Extends.bind (Extends.refl _) fun b => ?_) fun _ => Extends.refl _
    by_cases h0 : b = 0
    · simp only [h0, if_true]; exact Extends.refl _
    · by_cases h1 : b = 1
      · simp only [h1, show (1 : UInt8) ≠ 0 by decide, if_false, if_true]
        exact Extends.bind ih fun _ => Extends.refl _
      · simp only [h0, h1, if_false]; exact Extends.refl _
  | vec s ih => exact Extends.bind (Extends.refl _) fun n => (ih.elements _).bind fun _ => Extends.refl _
  | array n s ih => exact (ih.elements _).bind fun _ => Extends.refl _
  | unit => exact Extends.refl _
  | cons a b iha ihb => exact iha.bind fun _ => ihb.bind fun _ => Extends.refl _
  | enum n f ih =>
    refine Extends.bind (Extends.refl _) fun i => ?_
    by_cases hi : i.toNat < n
    · simp only [hi, dif_pos]
      exact (ih _).bind fun _ => Extends.refl _
    · simp only [hi, dif_neg, not_false_eq_true]
      exact Extends.refl _

theorem readNamed_extends (e : Endian) (f g : Nat) (h : f ≤ g) : ∀ i : Fin k,
    Extends (readNamed B e f i) (readNamed B e g i) := by
  induction f generalizing g with
  | zero => intro i r hp; exact absurd rfl hp
  | succ f ih =>
    intro i
    cases g with
    | zero => omega
    | succ g => exact (RSch.step_extends e (ih g (by omega)) (B i)).bind fun _ => Extends.refl _

/-! ## How much stack is enough -/

theorem flat_ne_nil (e : Endian) {ts : List Tok} (h : ts ≠ []) : flat e ts ≠ [] := by
  cases ts with
  | nil => exact absurd rfl h
  | cons t ts =>
    intro hf
    have h1 := congrArg List.length hf
    rw [flat_length] at h1
    simp only [tokSize, List.map_cons, List.sum_cons, List.length_nil] at h1
    cases t <;> simp [Tok.size] at h1

theorem Sch.ser_nonempty (s : Sch) : s.minSize ≠ 0 → ∀ (x : s.Ty) (ts : List Tok), s.ser x = .ok ts → ts ≠ [] := by
  induction s with
  | option s ih =>
    intro _ x ts h
    cases x with
    | none => cases h; simp
    | some x =>
      simp only [Sch.ser, Outcome.bind_eq_ok, Outcome.pure_eq, Outcome.ok.injEq] at h
      obtain ⟨a, _, rfl⟩ := h
      simp
  | vec s ih =>
    intro _ x ts h
    simp only [Sch.ser, Outcome.bind_eq_ok, Outcome.pure_eq, Outcome.ok.injEq] at h
    obtain ⟨a, _, rfl⟩ := h
    simp
  | array n s ih =>
    intro hm x ts h
    obtain ⟨l, hl⟩ := x
    cases l with
    | nil => subst hl; simp [Sch.minSize] at hm
    | cons y l =>
      simp only [Sch.ser, serSeq, Outcome.bind_eq_ok, Outcome.pure_eq, Outcome.ok.injEq] at h
      obtain ⟨a, ha, b, _, rfl⟩ := h
      have := ih (by intro h0; simp [Sch.minSize, h0] at hm) y a ha
      simp [this]
  | unit => intro h; exact absurd rfl h
  | cons a b iha ihb =>
    intro hm x ts h
    simp only [Sch.ser, Outcome.bind_eq_ok, Outcome.pure_eq, Outcome.ok.injEq] at h
    obtain ⟨p, hp, q, hq, rfl⟩ := h
    by_cases ha : a.minSize = 0
    · have := ihb (by simp only [Sch.minSize, ha] at hm; omega) x.2 q hq
      simp [this]
    · have := iha ha x.1 p hp
      simp [this]
  | enum n f ih =>
    intro _ x ts h
    simp only [Sch.ser, Outcome.bind_eq_ok, Outcome.pure_eq, Outcome.ok.injEq] at h
    obtain ⟨a, _, rfl⟩ := h
    simp
  | rawEnd => intro h; exact absurd rfl h
  | char =>
    intro _ x ts h
    cases h
    obtain ⟨b, bs, e1, _⟩ := utf8CharWidth_encode x
    simp [e1]
  | address =>
    intro _ x ts h
    have := Sch.elements_le .address trivial x ts h
    intro h0
    subst h0
    simp [Sch.minSize, Sch.elements, toks] at this
  | varlen16 =>
    intro _ x ts h
    have := Sch.elements_le .varlen16 trivial x ts h
    intro h0
    subst h0
    simp [Sch.minSize, Sch.elements, toks] at this
  | varlen32 =>
    intro _ x ts h
    have := Sch.elements_le .varlen32 trivial x ts h
    intro h0
    subst h0
    simp [Sch.minSize, Sch.elements, toks] at this
  | varlen64 =>
    intro _ x ts h
    have := Sch.elements_le .varlen64 trivial x ts h
    intro h0
    subst h0
    simp [Sch.minSize, Sch.elements, toks] at this
  | nested =>
    intro _ x ts h
    have := Sch.elements_le .nested trivial x ts h
    intro h0
    subst h0
    simp [Sch.minSize, Sch.elements, toks] at this
  | _ => intro _ x ts h; cases h; simp

/-- What a successful read leaves. -/
def Shrinks {α : Type} (d : De α) (strict : Prop) : Prop :=
  ∀ r r' v, d r = .ok (v, r') → r'.length ≤ r.length ∧ (strict → r'.length < r.length)

theorem vecLoop_shrinks {α : Type} {d : De α} (h : Shrinks d False) (n : Nat) : Shrinks (vecLoop d n) False := by
  induction n with
  | zero =>
    intro r r' v hv
    simp only [vecLoop, De.pure_run, Outcome.ok.injEq, Prod.mk.injEq] at hv
    exact ⟨by rw [hv.2]; exact Nat.le_refl _, fun h => h.elim⟩
  | succ n ih =>
    intro r r' v hv
    simp only [vecLoop, De.bind_eq_ok, De.pure_run, Outcome.ok.injEq, Prod.mk.injEq] at hv
    obtain ⟨a, r1, h1, as, r2, h2, _, rfl⟩ := hv
    have := (h _ _ _ h1).1
    have := (ih _ _ _ h2).1
    exact ⟨by omega, fun h => h.elim⟩

theorem RSch.step_shrinks (e : Endian) (d : (i : Fin k) → De (RTy B (.named i)))
    (hd : ∀ i, Shrinks (d i) False) (s : RSch k) : Shrinks (s.step e d) (¬ s.MayBeEmpty) := by
  have weak : ∀ {α : Type} {d : De α} {b : Prop}, Shrinks d b → Shrinks d False :=
    fun h r r' v hv => ⟨(h r r' v hv).1, fun hb => hb.elim⟩
  induction s with
  | leaf s =>
    intro r r' v h
    simp only [RSch.step, De.bind_eq_ok, De.pure_run, Outcome.ok.injEq, Prod.mk.injEq] at h
    obtain ⟨x, r1, h1, rfl, rfl⟩ := h
    obtain ⟨ts, h2, h3⟩ := Sch.de_exact e s _ _ _ h1
    rw [h3, List.length_append]
    refine ⟨by omega, fun hb => ?_⟩
    have hm : s.minSize ≠ 0 := by simpa [RSch.MayBeEmpty] using hb
    have := List.length_pos_iff.mpr (flat_ne_nil e (Sch.ser_nonempty s hm x ts h2))
    omega
  | named i =>
    intro r r' v h
    exact ⟨(hd i _ _ _ h).1, fun hb => absurd hb (by simp [RSch.MayBeEmpty])⟩
  | option s ih =>
    intro r r' v h
    simp only [RSch.step, deOption, De.bind_eq_ok, deU8_eq_ok] at h
    obtain ⟨o, r1, ⟨b, r2, rfl, h1⟩, h2⟩ := h
    have h3 : r' = r1 := by
      cases o <;> simp only [De.pure_run, Outcome.ok.injEq, Prod.mk.injEq] at h2 <;> exact h2.2.symm
    subst h3
    have h4 : r'.length ≤ r2.length := by
      split at h1
      · simp only [De.pure_run, Outcome.ok.injEq, Prod.mk.injEq] at h1
        rw [h1.2]; exact Nat.le_refl _
      · split at h1
        · simp only [De.bind_eq_ok, De.pure_run, Outcome.ok.injEq, Prod.mk.injEq] at h1
          obtain ⟨a, r3, h5, _, rfl⟩ := h1
          exact (ih _ _ _ h5).1
        · simp at h1
    simp only [List.length_cons]
    exact ⟨by omega, fun _ => by omega⟩
  | vec s ih =>
    intro r r' v h
    simp only [RSch.step, De.bind_eq_ok, De.pure_run, Outcome.ok.injEq, Prod.mk.injEq, deU64_eq_ok,
      deElements_ok] at h
    obtain ⟨n, r1, rfl, xs, r2, h2, _, rfl⟩ := h
    have := (vecLoop_shrinks (weak ih) _ _ _ _ h2).1
    rw [List.length_append]
    have h8 : ((Tok.u64 n).bytes e).length = 8 := by simp [Tok.bytes]
    exact ⟨by omega, fun _ => by omega⟩
  | array n s ih =>
    intro r r' v h
    simp only [RSch.step, De.bind_eq_ok, De.pure_run, Outcome.ok.injEq, Prod.mk.injEq, deElements_ok] at h
    obtain ⟨xs, r2, h2, _, rfl⟩ := h
    refine ⟨(vecLoop_shrinks (weak ih) _ _ _ _ h2).1, fun hb => ?_⟩
    simp only [RSch.MayBeEmpty] at hb
    cases n with
    | zero => exact absurd (Or.inl rfl) hb
    | succ n =>
      simp only [vecLoop, De.bind_eq_ok, De.pure_run, Outcome.ok.injEq, Prod.mk.injEq] at h2
      obtain ⟨a, r3, h3, as, r4, h4, _, rfl⟩ := h2
      have h5 := (ih _ _ _ h3).2 (fun hm => hb (Or.inr hm))
      have h6 := (vecLoop_shrinks (weak ih) _ _ _ _ h4).1
      omega
  | unit =>
    intro r r' v h
    simp only [RSch.step, De.pure_run, Outcome.ok.injEq, Prod.mk.injEq] at h
    exact ⟨by rw [h.2]; exact Nat.le_refl _, fun hb => absurd hb (by simp [RSch.MayBeEmpty])⟩
  | cons a b iha ihb =>
    intro r r' v h
    simp only [RSch.step, De.bind_eq_ok, De.pure_run, Outcome.ok.injEq, Prod.mk.injEq] at h
    obtain ⟨x, r1, h1, y, r2, h2, _, rfl⟩ := h
    have h3 := iha _ _ _ h1
    have h4 := ihb _ _ _ h2
    refine ⟨by omega, fun hb => ?_⟩
    simp only [RSch.MayBeEmpty] at hb
    by_cases ha : a.MayBeEmpty
    · have := h4.2 (fun hm => hb ⟨ha, hm⟩)
      omega
    · have := h3.2 ha
      omega
  | enum n f ih =>
    intro r r' v h
    simp only [RSch.step, De.bind_eq_ok, deU32_eq_ok] at h
    obtain ⟨i, r1, rfl, h⟩ := h
    by_cases hi : i.toNat < n
    · rw [dif_pos hi] at h
      simp only [De.bind_eq_ok, De.pure_run, Outcome.ok.injEq, Prod.mk.injEq] at h
      obtain ⟨x, r2, h2, _, rfl⟩ := h
      have := (ih _ _ _ _ h2).1
      have h8 : ((Tok.u32 i).bytes e).length = 4 := by simp [Tok.bytes]
      rw [List.length_append]
      exact ⟨by omega, fun _ => by omega⟩
    · rw [dif_neg hi] at h
      simp at h

theorem readNamed_shrinks (e : Endian) (f : Nat) (i : Fin k) : Shrinks (readNamed B e f i) False := by
  intro r r' v h
  obtain ⟨_, ts, _, h2⟩ := readNamed_exact e f i _ _ _ h
  exact ⟨by rw [h2, List.length_append]; omega, fun h => h.elim⟩

theorem vecLoop_safe {α : Type} {d : De α} {m : Nat} (hs : Shrinks d False)
    (h : ∀ r, r.length ≤ m → d r ≠ .panic) : ∀ n r, r.length ≤ m → vecLoop d n r ≠ .panic
  | 0, r, _ => by simp [vecLoop]
  | n + 1, r, hr => by
    intro hp
    simp only [vecLoop, De.bind_eq_panic] at hp
    rcases hp with hp | ⟨a, r1, h1, hp | ⟨as, r2, h2, hp⟩⟩
    · exact h r hr hp
    · exact vecLoop_safe hs h n r1 (by have := (hs _ _ _ h1).1; omega) hp
    · simp at hp

theorem deElements_safe {α : Type} {d : De α} {n : Nat} {r : Bytes} (h : vecLoop d n r ≠ .panic) :
    deElements d n r ≠ .panic := by
  intro hp
  simp only [deElements, deArray, De.bind_eq_panic] at hp
  rcases hp with (hp | ⟨a, r1, h1, hp⟩) | ⟨a, r1, h1, hp⟩
  · exact h hp
  · split at hp <;> simp at hp
  · simp at hp

/-- A field is read without a stack overflow if the named types it meets first are, here, and all others are once
a byte has been read. -/
theorem RSch.step_safe (e : Endian) (d : (i : Fin k) → De (RTy B (.named i))) (hd : ∀ i, Shrinks (d i) False)
    (s : RSch k) : ∀ r : Bytes, (∀ j, s.Meets j → ∀ r', r'.length ≤ r.length → d j r' ≠ .panic) →
      (∀ j r', r'.length < r.length → d j r' ≠ .panic) → s.step e d r ≠ .panic := by
  have weak : ∀ {α : Type} {d : De α} {b : Prop}, Shrinks d b → Shrinks d False :=
    fun h r r' v hv => ⟨(h r r' v hv).1, fun hb => hb.elim⟩
  induction s with
  | leaf s =>
    intro r _ _ hp
    simp only [RSch.step, De.bind_eq_panic] at hp
    rcases hp with hp | ⟨_, _, _, hp⟩
    · exact Sch.de_ne_panic e s r hp
    · simp at hp
  | named i => intro r h1 _; exact h1 i rfl r (Nat.le_refl _)
  | option s ih =>
    intro r _ h2 hp
    simp only [RSch.step, deOption, De.bind_eq_panic, deU8_eq_ok] at hp
    rcases hp with (hp | ⟨b, r1, rfl, hp⟩) | ⟨o, r1, _, hp⟩
    · exact deU8_ne_panic _ hp
    · split at hp
      · simp at hp
      · split at hp
        · simp only [De.bind_eq_panic] at hp
          rcases hp with hp | ⟨_, _, _, hp⟩
          · exact ih r1 (fun j _ r' hr => h2 j r' (by simp only [List.length_cons]; omega))
              (fun j r' hr => h2 j r' (by simp only [List.length_cons]; omega)) hp
          · simp at hp
        · simp at hp
    · cases o <;> simp at hp
  | vec s ih =>
    intro r _ h2 hp
    simp only [RSch.step, De.bind_eq_panic, deU64_eq_ok] at hp
    rcases hp with hp | ⟨n, r1, rfl, hp | ⟨_, _, _, hp⟩⟩
    · exact deU64_ne_panic _ _ hp
    · have h8 : ((Tok.u64 n).bytes e).length = 8 := by simp [Tok.bytes]
      rw [List.length_append] at h2
      refine deElements_safe (vecLoop_safe (weak (RSch.step_shrinks e d hd s)) (m := r1.length) ?_ _ _
        (Nat.le_refl _)) hp
      intro r' hr'
      exact ih r' (fun j _ r'' hr => h2 j r'' (by omega)) (fun j r'' hr => h2 j r'' (by omega))
    · simp at hp
  | array n s ih =>
    intro r h1 h2 hp
    simp only [RSch.step, De.bind_eq_panic] at hp
    rcases hp with hp | ⟨_, _, _, hp⟩
    · cases n with
      | zero => exact deElements_safe (by simp [vecLoop]) hp
      | succ n =>
        refine deElements_safe (vecLoop_safe (weak (RSch.step_shrinks e d hd s)) (m := r.length) ?_ _ _
          (Nat.le_refl _)) hp
        intro r' hr'
        exact ih r' (fun j hj r'' hr => h1 j ⟨by omega, hj⟩ r'' (by omega)) (fun j r'' hr => h2 j r'' (by omega))
    · simp at hp
  | unit => intro r _ _ hp; simp [RSch.step] at hp
  | cons a b iha ihb =>
    intro r h1 h2 hp
    simp only [RSch.step, De.bind_eq_panic] at hp
    rcases hp with hp | ⟨x, r1, hx, hp | ⟨_, _, _, hp⟩⟩
    · exact iha r (fun j hj => h1 j (.inl hj)) h2 hp
    · have hs := RSch.step_shrinks e d hd a _ _ _ hx
      refine ihb r1 (fun j hj r' hr => ?_) (fun j r' hr => h2 j r' (by omega)) hp
      by_cases ha : a.MayBeEmpty
      · exact h1 j (.inr ⟨ha, hj⟩) r' (by omega)
      · have := hs.2 ha
        exact h2 j r' (by omega)
    · simp at hp
  | enum n f ih =>
    intro r _ h2 hp
    simp only [RSch.step, De.bind_eq_panic, deU32_eq_ok] at hp
    rcases hp with hp | ⟨i, r1, rfl, hp⟩
    · exact deU32_ne_panic _ _ hp
    · have h8 : ((Tok.u32 i).bytes e).length = 4 := by simp [Tok.bytes]
      rw [List.length_append] at h2
      split at hp
      · simp only [De.bind_eq_panic] at hp
        rcases hp with hp | ⟨_, _, _, hp⟩
        · exact ih _ r1 (fun j _ r'' hr => h2 j r'' (by omega)) (fun j r'' hr => h2 j r'' (by omega)) hp
        · simp at hp
      · simp at hp

/-- Enough stack: so many nested calls for each byte there is, and as many as the type goes down at first. -/
theorem readNamed_safe (e : Endian) {rank : Fin k → Nat} {R : Nat} (hg : Guarded B rank R) :
    ∀ (f : Nat) (i : Fin k) (r : Bytes), r.length * R + rank i + 1 ≤ f → readNamed B e f i r ≠ .panic := by
  intro f
  induction f with
  | zero => intro i r h; omega
  | succ f ih =>
    intro i r h hp
    simp only [readNamed, De.bind_eq_panic] at hp
    rcases hp with hp | ⟨_, _, _, hp⟩
    · refine RSch.step_safe e (readNamed B e f) (readNamed_shrinks e f) (B i) r ?_ ?_ hp
      · intro j hj r' hr
        refine ih j r' ?_
        have h1 := hg.down i j hj
        have h2 := Nat.mul_le_mul_right R hr
        omega
      · intro j r' hr
        refine ih j r' ?_
        have h1 := hg.below j
        have h2 : (r'.length + 1) * R ≤ r.length * R := Nat.mul_le_mul_right R hr
        rw [Nat.add_mul] at h2
        omega
    · simp at hp

/-! ## The theorems -/

theorem Recursive.de_eq {i : Fin k} {rd wr : Nat} (r : Bytes) :
    (Deserialize.de .big : De (Recursive B i rd wr)) r = (do
      let v ← readNamed B .big rd i
      Pure.pure ⟨v⟩ : De (Recursive B i rd wr)) r := rfl

theorem Recursive.de_eq_ok {i : Fin k} {rd wr : Nat} {r r' : Bytes} {v : Recursive B i rd wr} :
    (Deserialize.de .big : De (Recursive B i rd wr)) r = .ok (v, r') ↔
      readNamed B .big rd i r = .ok (v.val, r') := by
  rw [Recursive.de_eq, De.bind_eq_ok]
  constructor
  · rintro ⟨a, r1, h, h2⟩
    simp only [De.pure_run, Outcome.ok.injEq, Prod.mk.injEq] at h2
    obtain ⟨rfl, rfl⟩ := h2
    exact h
  · intro h
    exact ⟨v.val, r', h, rfl⟩

theorem Recursive.size {i : Fin k} {rd wr : Nat} {v : Recursive B i rd wr} {ts : List Tok}
    (h : v.val.ser wr = .ok ts) : Bincode.serializedSize v = .ok (flat .big ts).length :=
  Bincode.size_of_serialize (Bincode.serialize_of_ser .big h)

theorem Recursive.written {i : Fin k} {rd wr : Nat} {p q : Packet} {v : Recursive B i rd wr}
    (h : p.add v = (.ok (), q)) : ∃ ts, v.val.ser wr = .ok ts ∧ q = ⟨p.bytes ++ flat .big ts⟩ := by
  rw [add_ok_iff] at h
  obtain ⟨w, hw, rfl⟩ := h
  rw [Bincode.serialize_eq_ok] at hw
  obtain ⟨ts, hts, rfl⟩ := hw
  exact ⟨ts, hts, rfl⟩

theorem drop_at (a b : Bytes) : (a ++ b).drop a.length = b := by simp

/-- C88. A value of a recursive type (a list, a tree, types that contain each other) that a sender's `add` accepts
reads back identically anywhere in a packet, and the cursor is then behind it, if the receiver's stack has room for
as many nested calls as the value is deep. -/
theorem C88 (hB : ∀ i, (B i).SelfDelimiting) (i : Fin k) (rd0 wr0 rd wr : Nat) (v : RTy B (.named i)) (hf : v.Fits)
    (p q : Packet) (h : p.add (⟨v⟩ : Recursive B i rd0 wr0) = (.ok (), q)) (hrd : v.depth ≤ rd) (hwr : v.depth ≤ wr)
    (post : Bytes) :
    nextPayload (Recursive B i rd wr) ⟨⟨q.bytes ++ post⟩, p.bytes.length⟩ =
      (.ok ⟨v⟩, ⟨⟨q.bytes ++ post⟩, q.bytes.length⟩) := by
  obtain ⟨ts, hts, rfl⟩ := Recursive.written h
  have hb := (RTy.back .big hB v trivial hf wr0 ts hts rd post).1 hrd
  rw [nextPayload_of_de (v := ⟨v⟩) (r' := post) (by simp) (Recursive.de_eq_ok.mpr (by
    simp only [List.append_assoc, drop_at]; exact hb)) (Recursive.size ((v.ser_mono wr0 wr ts hts).2 hwr))]
  simp

/-- C88. And if it has not, reading the value aborts the receiver. -/
theorem C88_abort (hB : ∀ i, (B i).SelfDelimiting) (i : Fin k) (rd0 wr0 rd wr : Nat) (v : RTy B (.named i))
    (hf : v.Fits) (p q : Packet) (h : p.add (⟨v⟩ : Recursive B i rd0 wr0) = (.ok (), q)) (hrd : rd < v.depth)
    (post : Bytes) :
    nextPayload (Recursive B i rd wr) ⟨⟨q.bytes ++ post⟩, p.bytes.length⟩ =
      (.panic, ⟨⟨q.bytes ++ post⟩, p.bytes.length⟩) := by
  obtain ⟨ts, hts, rfl⟩ := Recursive.written h
  have hb := (RTy.back .big hB v trivial hf wr0 ts hts rd post).2 hrd
  refine nextPayload_of_panic (by simp) ?_
  rw [Recursive.de_eq, De.bind_panic]
  simp only [List.append_assoc, drop_at]
  exact hb

/-- C88. Whatever is read, the cursor moves behind exactly the bytes that were consumed, and these are the bytes
that would be written for it (with as much stack for the size pass as for reading). -/
theorem C88_cursor (i : Fin k) (rd wr : Nat) (hw : rd ≤ wr) (d d' : PacketDeserializer) (v : Recursive B i rd wr)
    (h : d.nextPayload (Recursive B i rd wr) = (.ok v, d')) :
    ∃ w rest, Bincode.serialize .big v = .ok w ∧ d.pntr.bytes.drop d.index = w ++ rest ∧
      d' = ⟨d.pntr, d.index + w.length⟩ ∧ d'.index ≤ d.pntr.bytes.length := by
  have hi : d.index ≤ d.pntr.bytes.length := by
    unfold nextPayload sliceFrom at h
    by_cases hx : d.index ≤ d.pntr.bytes.length
    · exact hx
    · simp [hx] at h
  rw [nextPayload_inside hi] at h
  cases hd : (Deserialize.de .big : De (Recursive B i rd wr)) (d.pntr.bytes.drop d.index) with
  | err e => simp [hd] at h
  | panic => simp [hd] at h
  | ok x =>
    obtain ⟨v', r'⟩ := x
    obtain ⟨_, ts, h1, h2⟩ := readNamed_exact .big rd i _ _ _ (Recursive.de_eq_ok.mp hd)
    have h3 := v'.val.ser_mono rd wr ts h1
    have h4 := h3.2 (by have := h3.1; omega)
    rw [hd] at h
    simp only [Recursive.size h4, Prod.mk.injEq, Outcome.ok.injEq] at h
    obtain ⟨rfl, rfl⟩ := h
    refine ⟨flat .big ts, r', Bincode.serialize_of_ser .big h4, h2, rfl, ?_⟩
    have := congrArg List.length h2
    simp only [List.length_drop, List.length_append] at this ⊢
    omega

/-- C88. More stack never changes an answer. -/
theorem C88_stack (i : Fin k) (rd wr rd' wr' : Nat) (hrd : rd ≤ rd') (hwr : wr ≤ wr') (d : PacketDeserializer) :
    (∀ v d', d.nextPayload (Recursive B i rd wr) = (.ok v, d') →
      d.nextPayload (Recursive B i rd' wr') = (.ok ⟨v.val⟩, d')) ∧
    (∀ e d', d.nextPayload (Recursive B i rd wr) = (.err e, d') →
      d.nextPayload (Recursive B i rd' wr') = (.err e, d')) := by
  by_cases hi : d.index ≤ d.pntr.bytes.length
  · have he := readNamed_extends (B := B) .big rd rd' hrd i (d.pntr.bytes.drop d.index)
    rw [nextPayload_inside hi]
    cases hr : readNamed B .big rd i (d.pntr.bytes.drop d.index) with
    | panic =>
      have h0 : (Deserialize.de .big : De (Recursive B i rd wr)) (d.pntr.bytes.drop d.index) = .panic := by
        rw [Recursive.de_eq, De.bind_panic hr]
      rw [h0]
      constructor <;> intros <;> simp_all
    | err x =>
      have h0 : (Deserialize.de .big : De (Recursive B i rd wr)) (d.pntr.bytes.drop d.index) = .err x := by
        rw [Recursive.de_eq, De.bind_err hr]
      have h1 : (Deserialize.de .big : De (Recursive B i rd' wr')) (d.pntr.bytes.drop d.index) = .err x := by
        rw [Recursive.de_eq, De.bind_err (by rw [he (by simp [hr]), hr])]
      rw [h0, nextPayload_of_err hi h1]
      exact ⟨by simp, by simp⟩
    | ok x =>
      obtain ⟨v, r'⟩ := x
      have h0 : (Deserialize.de .big : De (Recursive B i rd wr)) (d.pntr.bytes.drop d.index) = .ok (⟨v⟩, r') :=
        Recursive.de_eq_ok.mpr hr
      have h1 : (Deserialize.de .big : De (Recursive B i rd' wr')) (d.pntr.bytes.drop d.index) = .ok (⟨v⟩, r') :=
        Recursive.de_eq_ok.mpr (by rw [he (by simp [hr]), hr])
      obtain ⟨_, ts, h2, _⟩ := readNamed_exact .big rd i _ _ _ hr
      rw [h0]
      simp only
      cases hs : v.ser wr with
      | panic =>
        have : Bincode.serializedSize (⟨v⟩ : Recursive B i rd wr) = .panic := by
          have hz : (Serialize.ser (⟨v⟩ : Recursive B i rd wr) : Outcome (List Tok)) = .panic := hs
          simp [Bincode.serializedSize, hz]
        rw [this]
        constructor <;> intros <;> simp_all
      | err x =>
        by_cases hd : v.depth ≤ wr
        · rw [(v.ser_mono rd wr ts h2).2 hd] at hs
          exact absurd hs (by simp)
        · exact absurd hs (RTy.ser_deep v rd ts h2 wr (by omega) x)
      | ok ts' =>
        have h3 := v.ser_mono wr wr' ts' hs
        have h4 := h3.2 (by have := h3.1; omega)
        rw [Recursive.size (v := (⟨v⟩ : Recursive B i rd wr)) hs,
          nextPayload_of_de hi h1 (Recursive.size (v := (⟨v⟩ : Recursive B i rd' wr')) h4)]
        constructor
        · intro v' d' h
          simp only [Prod.mk.injEq, Outcome.ok.injEq] at h
          obtain ⟨rfl, rfl⟩ := h
          rfl
        · intro e d' h
          simp at h
  · have : d.nextPayload (Recursive B i rd wr) = (.panic, d) := by
      unfold nextPayload sliceFrom; simp [hi]
    rw [this]
    constructor <;> intros <;> simp_all

/-- C88. How much stack is enough: for a type that reads at least a byte in every round, a number of nested calls
proportional to the bytes left in the packet.  Then nothing anybody sends overflows it. -/
theorem C88_enough {rank : Fin k → Nat} {R : Nat} (hg : Guarded B rank R) (i : Fin k) (d : PacketDeserializer)
    (hi : d.index ≤ d.pntr.bytes.length) (rd wr : Nat)
    (hrd : (d.pntr.bytes.length - d.index) * R + rank i + 1 ≤ rd)
    (hwr : (d.pntr.bytes.length - d.index) * R + rank i + 1 ≤ wr) :
    (d.nextPayload (Recursive B i rd wr)).1 ≠ .panic ∧
    ∀ v d', d.nextPayload (Recursive B i rd wr) = (.ok v, d') →
      v.val.depth ≤ (d.pntr.bytes.length - d.index) * R + rank i + 1 := by
  rw [← List.length_drop] at hrd hwr ⊢
  have hsafe := readNamed_safe .big hg _ i (d.pntr.bytes.drop d.index) (Nat.le_refl _)
  have he := readNamed_extends (B := B) .big _ rd hrd i _ hsafe
  rw [nextPayload_inside hi]
  cases hr : readNamed B .big ((d.pntr.bytes.drop d.index).length * R + rank i + 1) i
      (d.pntr.bytes.drop d.index) with
  | panic => exact absurd hr hsafe
  | err x =>
    have h0 : (Deserialize.de .big : De (Recursive B i rd wr)) (d.pntr.bytes.drop d.index) = .err x := by
      rw [Recursive.de_eq, De.bind_err (by rw [he, hr])]
    rw [h0]
    simp
  | ok x =>
    obtain ⟨v, r'⟩ := x
    have h0 : (Deserialize.de .big : De (Recursive B i rd wr)) (d.pntr.bytes.drop d.index) = .ok (⟨v⟩, r') :=
      Recursive.de_eq_ok.mpr (by rw [he, hr])
    obtain ⟨_, ts, h2, _⟩ := readNamed_exact .big _ i _ _ _ hr
    have h3 := v.ser_mono _ wr ts h2
    have h4 := h3.2 (by have := h3.1; omega)
    rw [h0]
    simp only [Recursive.size (v := (⟨v⟩ : Recursive B i rd wr)) h4]
    refine ⟨by simp, fun v' d' h => ?_⟩
    simp only [Prod.mk.injEq, Outcome.ok.injEq] at h
    rw [← h.1]
    exact h3.1

/-- C88. Writing a value that is not too deep does not overflow the stack either. -/
theorem C88_write (i : Fin k) (rd wr : Nat) (v : RTy B (.named i)) (hd : v.depth ≤ wr) (p : Packet) :
    (p.add (⟨v⟩ : Recursive B i rd wr)).1 ≠ .panic := by
  intro h
  unfold Packet.add Bincode.serialize at h
  have h1 : (Serialize.ser (⟨v⟩ : Recursive B i rd wr) : Outcome (List Tok)) ≠ .panic := v.ser_ne_panic wr hd
  cases h2 : (Serialize.ser (⟨v⟩ : Recursive B i rd wr) : Outcome (List Tok)) with
  | panic => exact h1 h2
  | ok a => simp [h2] at h
  | err e => simp [h2] at h

/-- C88. Writing a value that is too deep overflows it: what a thread with more stack can add, one with less cannot. -/
theorem C88_write_abort (i : Fin k) (rd wr wr' : Nat) (v : RTy B (.named i)) (hd : wr < v.depth) (p q : Packet)
    (h : p.add (⟨v⟩ : Recursive B i rd wr') = (.ok (), q)) :
    (p.add (⟨v⟩ : Recursive B i rd wr)).1 = .panic := by
  obtain ⟨ts, hts, rfl⟩ := Recursive.written h
  have h1 := RTy.ser_deep v wr' ts hts wr hd
  have h2 : (Serialize.ser (⟨v⟩ : Recursive B i rd wr) : Outcome (List Tok)) = .panic := by
    change v.ser wr = .panic
    cases hs : v.ser wr with
    | panic => rfl
    | err x => exact absurd hs (h1 x)
    | ok a => have := (v.ser_mono wr 0 a hs).1; omega
  simp [Packet.add, Bincode.serialize, h2]

/-! ## How deep a datagram can go -/

/-- `struct Chain { next: Option<Box<Chain>> }`. -/
def chainDef : Fin 1 → RSch 1 := fun _ => .option (.named 0)

/-- So many links. -/
def chain : Nat → RTy chainDef (.named 0)
  | 0 => .named 0 .none
  | n + 1 => .named 0 (.some (chain n))

theorem chain_depth (n : Nat) : (chain n).depth = n + 1 := by
  induction n with
  | zero => rfl
  | succ n ih => simp only [chain, RTy.depth, ih]

theorem chain_fits (n : Nat) : (chain n).Fits := by
  induction n with
  | zero => trivial
  | succ n ih => exact ih

theorem chain_ser (n : Nat) : (chain n).ser (n + 1) = .ok (List.replicate n (.u8 1) ++ [.u8 0]) := by
  induction n with
  | zero => rfl
  | succ n ih => simp only [chain, RTy.ser, ih, List.replicate_succ]; rfl

theorem chain_guarded : Guarded chainDef (fun _ => 0) 1 := ⟨fun _ => by omega, fun _ _ h => h.elim⟩

/-- C88. A datagram may need a nested call for nearly every byte: however deep the stack is, `rd + 1` bytes overflow
it. -/
theorem C88_deep (rd wr : Nat) : ∃ bytes : Bytes, bytes.length = rd + 1 ∧
    nextPayload (Recursive chainDef 0 rd wr) ⟨⟨bytes⟩, 0⟩ = (.panic, ⟨⟨bytes⟩, 0⟩) := by
  have hadd : Packet.add ⟨[]⟩ (⟨chain rd⟩ : Recursive chainDef 0 rd (rd + 1)) =
      (.ok (), ⟨flat .big (List.replicate rd (.u8 1) ++ [.u8 0])⟩) := by
    rw [add_ok_iff]
    exact ⟨_, Bincode.serialize_of_ser .big (chain_ser rd), by simp⟩
  have := C88_abort (B := chainDef) (fun _ => trivial) 0 rd (rd + 1) rd wr (chain rd) (chain_fits rd) _ _ hadd
    (by rw [chain_depth]; omega) []
  refine ⟨_, ?_, by simpa using this⟩
  simp [Tok.size]

/-- `enum Tree { Leaf(u8), Node(Box<Tree>, Box<Tree>) }`. -/
def treeDef : Fin 1 → RSch 1 := fun _ =>
  .enum 2 fun i => if i = 0 then .leaf .u8 else .cons (.named 0) (.cons (.named 0) .unit)

/-- It meets the conditions. -/
example : (∀ i, (treeDef i).SelfDelimiting) ∧ Guarded treeDef (fun _ => 0) 1 := by
  refine ⟨fun _ => ⟨by omega, fun i => ?_⟩, ⟨fun _ => by omega, fun _ _ h => h.elim⟩⟩
  match i with
  | 0 => trivial
  | 1 => exact ⟨trivial, trivial, trivial⟩

/-- A tree with two leaves, in fourteen bytes: read with room for two nested calls, not with one. -/
def smallTree : RTy treeDef (.named 0) :=
  .named 0 (.variant (f := fun i => if i = 0 then .leaf .u8 else .cons (.named 0) (.cons (.named 0) .unit)) 1
    (.pair (.named 0 (.variant (f := fun i => if i = 0 then .leaf .u8 else .cons (.named 0) (.cons (.named 0) .unit)) 0
      (.leaf (s := .u8) 7)))
      (.pair (.named 0 (.variant (f := fun i => if i = 0 then .leaf .u8 else .cons (.named 0) (.cons (.named 0) .unit)) 0
        (.leaf (s := .u8) 9))) .unit)))

example : smallTree.depth = 2 ∧ smallTree.Fits := by
  refine ⟨rfl, trivial, trivial, trivial⟩

theorem smallTree_ser : smallTree.ser 2 = .ok [.u32 1, .u32 0, .u8 7, .u32 0, .u8 9] := by rfl

/-- Behind a header it is read with room for two nested calls, and aborts the receiver with room for one. -/
example : ∃ q : Packet, Packet.add ⟨[1, 2]⟩ (⟨smallTree⟩ : Recursive treeDef 0 2 2) = (.ok (), q) ∧
    q.bytes.length = 16 ∧
    nextPayload (Recursive treeDef 0 2 2) ⟨⟨q.bytes ++ [5]⟩, 2⟩ = (.ok ⟨smallTree⟩, ⟨⟨q.bytes ++ [5]⟩, 16⟩) ∧
    nextPayload (Recursive treeDef 0 1 2) ⟨⟨q.bytes ++ [5]⟩, 2⟩ = (.panic, ⟨⟨q.bytes ++ [5]⟩, 2⟩) := by
  have hadd : Packet.add ⟨[1, 2]⟩ (⟨smallTree⟩ : Recursive treeDef 0 2 2) =
      (.ok (), ⟨[1, 2] ++ flat .big [.u32 1, .u32 0, .u8 7, .u32 0, .u8 9]⟩) := by
    rw [add_ok_iff]
    exact ⟨_, Bincode.serialize_of_ser .big smallTree_ser, rfl⟩
  have hB : ∀ i, (treeDef i).SelfDelimiting := by
    refine fun _ => ⟨by omega, fun i => ?_⟩
    match i with
    | 0 => trivial
    | 1 => exact ⟨trivial, trivial, trivial⟩
  exact ⟨_, hadd, rfl, C88 hB 0 2 2 2 2 smallTree ⟨trivial, trivial, trivial⟩ _ _ hadd (by decide) (by decide) [5],
    C88_abort hB 0 2 2 1 2 smallTree ⟨trivial, trivial, trivial⟩ _ _ hadd (by decide) [5]⟩

/-- Two types that contain each other, one of them directly: `struct Dir { name: u8, files: Vec<Entry> }` and
`struct Entry { dir: Dir, size: u8 }`. -/
def dirDef : Fin 2 → RSch 2 := fun i =>
  if i = 0 then .cons (.leaf .u8) (.cons (.vec (.named 1)) .unit) else .cons (.named 0) (.cons (.leaf .u8) .unit)

example : Guarded dirDef (fun i => i.val) 2 := by
  refine ⟨fun i => i.isLt, fun i j h => ?_⟩
  match i with
  | 0 => simp [dirDef, RSch.Meets, RSch.MayBeEmpty, Sch.minSize] at h
  | 1 => simp [dirDef, RSch.Meets, RSch.MayBeEmpty, Sch.minSize] at h; subst h; decide

/-! ## Cases for the theorems above -/

/-- `C88_write` and `C88_write_abort`: the small tree is written with room for two nested calls, not with one. -/
example : (Packet.add ⟨[1, 2]⟩ (⟨smallTree⟩ : Recursive treeDef 0 2 2)).1 ≠ .panic ∧
    (Packet.add ⟨[1, 2]⟩ (⟨smallTree⟩ : Recursive treeDef 0 2 1)).1 = .panic := by
  refine ⟨C88_write 0 2 2 smallTree (Nat.le_refl _) ⟨[1, 2]⟩, ?_⟩
  have hadd : Packet.add ⟨[1, 2]⟩ (⟨smallTree⟩ : Recursive treeDef 0 2 2) =
      (.ok (), ⟨[1, 2] ++ flat .big [.u32 1, .u32 0, .u8 7, .u32 0, .u8 9]⟩) := by
    rw [add_ok_iff]
    exact ⟨_, Bincode.serialize_of_ser .big smallTree_ser, rfl⟩
  exact C88_write_abort 0 2 1 2 smallTree (by decide) ⟨[1, 2]⟩ _ hadd

/-- `C88_enough`, `C88_stack` and `C88_cursor`: seventeen nested calls are enough for a packet of sixteen bytes. -/
example (d : PacketDeserializer) (hd : d.pntr.bytes.length = 16) (hi : d.index = 0) :
    (d.nextPayload (Recursive treeDef 0 17 17)).1 ≠ .panic ∧
    ∀ v d', d.nextPayload (Recursive treeDef 0 17 17) = (.ok v, d') →
      d.nextPayload (Recursive treeDef 0 20 20) = (.ok ⟨v.val⟩, d') ∧ d'.index ≤ 16 := by
  have hg : Guarded treeDef (fun _ => 0) 1 := ⟨fun _ => by omega, fun _ _ h => h.elim⟩
  refine ⟨(C88_enough hg 0 d (by omega) 17 17 (by omega) (by omega)).1, fun v d' h => ⟨?_, ?_⟩⟩
  · exact (C88_stack 0 17 17 20 20 (by omega) (by omega) d).1 v d' h
  · obtain ⟨_, _, _, _, _, h5⟩ := C88_cursor 0 17 17 (by omega) d d' v h
    omega

end Ipv8
