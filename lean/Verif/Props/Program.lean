import Verif.Model.Program
import Verif.Props.Writer
/-!
# C101: hand-written `Serialize` implementations

Whatever program a payload's `serialize` is (`Writing`), `Packet::add` runs it twice.  What the calls come to is said
here in terms of what the program hands over, one value after the other, when it is started in a given state
(`Writing.says`); in that no serializer and no buffer occur.
-/

namespace Ipv8

open Wr

/-! ## Specification -/

/-- What a run of a program comes to: how it ended, the values it handed over, and the state it left. -/
structure Said (σ : Type) where
  out : Outcome Unit
  toks : List Tok
  state : σ

/-- What a program hands over when it is started in the state `s`, and how it ends. -/
def Writing.says {σ : Type} : Writing σ → σ → Said σ
  | .done o, s => ⟨o, [], s⟩
  | .look k, s => (k s).says s
  | .change f k, s => k.says (f s)
  | .put t k, s => ⟨(k.says s).out, t :: (k.says s).toks, (k.says s).state⟩
  | .unsized k, s => (k sequenceMustHaveLength).says s
  | .part w k, s =>
    let a := w.says s
    let b (r : Option Error) : Said σ :=
      ⟨((k r).says a.state).out, a.toks ++ ((k r).says a.state).toks, ((k r).says a.state).state⟩
    match a.out with
    | .ok () => b none
    | .err e => b (some e)
    | .panic => a

/-- The bytes of primitive values in network byte order. -/
def wireBytes (ts : List Tok) : Bytes := ts.flatMap (Tok.bytes .big)

/-- A program that does the same whenever it is run, starting where the last run stopped. -/
def Writing.Repeats {σ : Type} (w : Writing σ) (s : σ) : Prop :=
  (w.says (w.says s).state).out = (w.says s).out ∧ (w.says (w.says s).state).toks = (w.says s).toks

/-- The type whose `Serialize` is the program `w` (a program without a state). -/
structure Programmed {α : Type} (w : α → Writing Unit) where
  val : α

instance {α : Type} (w : α → Writing Unit) : Ipv8Payload (Programmed w) := ⟨⟩

/-- It is read as any other type. -/
instance {α : Type} [Deserialize α] (w : α → Writing Unit) : Deserialize (Programmed w) where
  de e := do
    let x ← (Deserialize.de e : De α)
    pure ⟨x⟩

instance {α : Type} (w : α → Writing Unit) : Serialize (Programmed w) where
  ser x :=
    match ((w x.val).says ()).out with
    | .ok () => .ok ((w x.val).says ()).toks
    | .err e => .err e
    | .panic => .panic

/-- A program that passes every error on: it does not return `Ok` after a part has failed. -/
def Writing.Strict {σ : Type} : Writing σ → Prop
  | .done _ => True
  | .look k => ∀ s, (k s).Strict
  | .change _ k => k.Strict
  | .put _ k => k.Strict
  | .unsized k => ∀ s, ((k sequenceMustHaveLength).says s).out ≠ .ok ()
  | .part w k => w.Strict ∧ (k none).Strict ∧ ∀ e s, ((k (some e)).says s).out ≠ .ok ()

/-- In the run from `s` nothing was refused: every part, and every part of a part, has been written to its end. -/
def Writing.Whole {σ : Type} : Writing σ → σ → Prop
  | .done _, _ => True
  | .look k, s => (k s).Whole s
  | .change f k, s => k.Whole (f s)
  | .put _ k, s => k.Whole s
  | .unsized _, _ => False
  | .part w k, s => (w.says s).out = .ok () ∧ w.Whole s ∧ (k none).Whole (w.says s).state

/-- On every serializer, in every state and without touching it, the program does what the writer `x` of
`Model/Writer.lean` does: the serializer gets the same values in the same order, and the end is the same. -/
def Writing.Is {σ : Type} (w : Writing σ) (x : Wr) : Prop :=
  w.Strict ∧ ∀ (S : Type) (sink : S → Tok → S) (start : S) (s : σ),
    w.run sink start s = (x.out, x.toks.foldl sink start, s)

/-! ## Runs -/

/-- A run on any serializer is what the program says, given to the serializer one value after the other. -/
theorem Writing.run_eq {σ S : Type} (sink : S → Tok → S) (w : Writing σ) : ∀ (x : S) (s : σ),
    w.run sink x s = ((w.says s).out, (w.says s).toks.foldl sink x, (w.says s).state) := by
  induction w with
  | done o => exact fun x s => rfl
  | look k ih => exact fun x s => ih s x s
  | change f k ih => exact fun x s => ih x (f s)
  | put t k ih => exact fun x s => ih (sink x t) s
  | unsized k ih => exact fun x s => ih _ x s
  | part w k ihw ihk =>
    intro x s
    rw [run, ihw]
    simp only [says]
    rcases ho : (w.says s).out with ⟨⟨⟩⟩ | e | _
    · simp only [ihk, List.foldl_append]
    · simp only [ihk, List.foldl_append]
    · simp only [ho]

theorem Writing.run_counting {σ : Type} (w : Writing σ) (s : σ) :
    w.run counting 0 s = ((w.says s).out, ((w.says s).toks.map Tok.size).sum, (w.says s).state) := by
  rw [w.run_eq, ← sizePass_eq]
  rfl

theorem Writing.run_writing {σ : Type} (low : Nat) (e : Endian) (w : Writing σ) (b : Buf) (s : σ) :
    w.run (writing low e) b s = ((w.says s).out, writePass low e b (w.says s).toks, (w.says s).state) := by
  rw [w.run_eq]
  rfl

/-! ## The two runs -/

theorem pserialize_eq {σ : Type} (low : Nat) (e : Endian) (w : Writing σ) (s : σ) :
    pserialize low e w s =
      match (w.says s).out with
      | .ok () =>
        match (w.says (w.says s).state).out with
        | .ok () => (.ok (writePass low e (Buf.withCapacity ((w.says s).toks.map Tok.size).sum)
            (w.says (w.says s).state).toks), (w.says (w.says s).state).state)
        | .err x => (.err x, (w.says (w.says s).state).state)
        | .panic => (.panic, (w.says (w.says s).state).state)
      | .err x => (.err x, (w.says s).state)
      | .panic => (.panic, (w.says s).state) := by
  unfold pserialize
  rw [w.run_counting]
  rcases (w.says s).out with ⟨⟨⟩⟩ | x | _
  · simp only [w.run_writing]
    rcases (w.says (w.says s).state).out with ⟨⟨⟩⟩ | x | _ <;> rfl
  · rfl
  · rfl

/-! ## The theorems -/

/-- C101. `Packet::add` of any payload, whatever its `serialize` does: the program is run, and if that returned `Ok`
it is run once more in the state it was left in.  The packet is extended by what the second run handed over if both
returned `Ok`; else it is as it was, and the caller gets the first error or panic. -/
theorem C101 {σ : Type} (low : Nat) (p : Buf) (w : Writing σ) (s : σ) :
    let first := w.says s
    let second := w.says first.state
    let r := padd low p w s
    r.1 = (if first.out.isOk then second.out else first.out) ∧
    r.2.1.bytes = p.bytes ++ (if first.out.isOk && second.out.isOk then wireBytes second.toks else []) ∧
    (r.1.isOk = false → r.2.1 = p) ∧
    r.2.2 = (if first.out.isOk then second.state else first.state) := by
  simp only
  unfold padd
  rw [pserialize_eq]
  rcases (w.says s).out with ⟨⟨⟩⟩ | x | _
  · rcases ho : (w.says (w.says s).state).out with ⟨⟨⟩⟩ | x | _
    · simp [Outcome.isOk, writePass_bytes, Buf.withCapacity, wireBytes]
    · simp [Outcome.isOk]
    · simp [Outcome.isOk]
  · simp [Outcome.isOk]
  · simp [Outcome.isOk]

/-- C101. A payload that writes the same both times: `add` returns what one run returns, and appends what one run
hands over; bincode's buffer is exactly as large as what it holds and was requested once. -/
theorem C101_repeats {σ : Type} (low : Nat) (p : Buf) (w : Writing σ) (s : σ) (h : w.Repeats s) :
    let said := w.says s
    let r := padd low p w s
    r.1 = said.out ∧
    r.2.1.bytes = p.bytes ++ (if said.out.isOk then wireBytes said.toks else []) ∧
    (∀ b, (pserialize low .big w s).1 = .ok b →
      b.bytes = wireBytes said.toks ∧ b.cap = b.bytes.length ∧ b.asked = b.bytes.length) := by
  obtain ⟨h1, h2⟩ := h
  obtain ⟨g1, g2, -, -⟩ := C101 low p w s
  simp only at g1 g2 ⊢
  refine ⟨?_, ?_, ?_⟩
  · rw [g1, h1]; split <;> rfl
  · rw [g2, h1, h2, Bool.and_self]
  · intro b hb
    rw [pserialize_eq] at hb
    rcases ho : (w.says s).out with ⟨⟨⟩⟩ | x | _
    · rw [ho] at hb h1
      simp only [h1, h2, Outcome.ok.injEq] at hb
      have hr := writePass_room low .big (w.says s).toks (Buf.withCapacity ((w.says s).toks.map Tok.size).sum)
        (by simp [Buf.withCapacity])
      have hw := writePass_bytes low .big (w.says s).toks (Buf.withCapacity ((w.says s).toks.map Tok.size).sum)
      rw [hb] at hr hw
      have hl : b.bytes.length = ((w.says s).toks.map Tok.size).sum := by
        rw [hw]
        simp [Buf.withCapacity, List.length_flatMap, Tok.bytes_length]
      rw [hl]
      exact ⟨by rw [hw]; rfl, hr.1, hr.2⟩
    · rw [ho] at hb; cases hb
    · rw [ho] at hb; cases hb

/-- C101. A program without a state is a function of the value, and `add` is what `Model/Packet.lean` says for the
type whose `Serialize` it is: hand-written `Serialize` implementations without interior mutability are covered by all
that is proved there for every `Serialize`. -/
theorem C101_pure {α : Type} (low : Nat) (p : Buf) (w : α → Writing Unit) (v : α) :
    (w v).Repeats () ∧
    ((padd low p (w v) ()).1, Packet.mk (padd low p (w v) ()).2.1.bytes) =
      Packet.add ⟨p.bytes⟩ (Programmed.mk v : Programmed w) := by
  have hr : (w v).Repeats () := ⟨rfl, rfl⟩
  refine ⟨hr, ?_⟩
  obtain ⟨h1, h2, -⟩ := C101_repeats low p (w v) () hr
  rw [h1, h2]
  unfold Packet.add Bincode.serialize
  simp only [Serialize.ser]
  rcases ho : ((w v).says ()).out with ⟨⟨⟩⟩ | x | _ <;> simp [Outcome.isOk, wireBytes]


theorem whole_of_strict {σ : Type} (w : Writing σ) (h : w.Strict) : ∀ s, (w.says s).out = .ok () → w.Whole s := by
  induction w with
  | done o => exact fun _ _ => trivial
  | look k ih => exact fun s => ih s (h s) s
  | change f k ih => exact fun s => ih h (f s)
  | put t k ih => exact fun s => ih h s
  | unsized k ih => exact fun s hs => h s hs
  | part w k ihw ihk =>
    intro s hs
    obtain ⟨h1, h2, h3⟩ := h
    simp only [Writing.says] at hs
    rcases ho : (w.says s).out with ⟨⟨⟩⟩ | e | _
    · rw [ho] at hs
      exact ⟨ho, ihw h1 s ho, ihk none h2 _ hs⟩
    · rw [ho] at hs
      exact absurd hs (h3 e _)
    · rw [ho] at hs
      simp only [ho] at hs
      cases hs

/-- C101. A program that passes errors on: if `add` returned `Ok`, all its parts were written to their end, both times. -/
theorem C101_whole {σ : Type} (low : Nat) (p : Buf) (w : Writing σ) (hw : w.Strict) (s : σ)
    (h : (padd low p w s).1 = .ok ()) : w.Whole s ∧ w.Whole (w.says s).state := by
  obtain ⟨h1, -⟩ := C101 low p w s
  rw [h] at h1
  rcases ho : (w.says s).out with ⟨⟨⟩⟩ | x | _
  · rw [ho] at h1
    exact ⟨whole_of_strict w hw s ho, whole_of_strict w hw _ h1.symm⟩
  · rw [ho] at h1; cases h1
  · rw [ho] at h1; cases h1

/-- C101. What bincode requests for its buffer: the size the first run counted, and more only if the second run
hands over more, then in proportion to that. -/
theorem C101_memory {σ : Type} (low : Nat) (e : Endian) (w : Writing σ) (s : σ) (b : Buf)
    (h : (pserialize low e w s).1 = .ok b) :
    let n := ((w.says s).toks.map Tok.size).sum
    b.cap ≤ max n (2 * b.bytes.length + low) ∧ b.asked ≤ 2 * b.cap ∧
    (b.bytes.length ≤ n → b.cap = n ∧ b.asked = n) := by
  simp only
  rw [pserialize_eq] at h
  rcases ho : (w.says s).out with ⟨⟨⟩⟩ | x | _
  · rw [ho] at h
    rcases ho' : (w.says (w.says s).state).out with ⟨⟨⟩⟩ | x | _
    · simp only [ho', Outcome.ok.injEq] at h
      have key : ∀ (ts : List Tok) (n : Nat) (b : Buf),
          b.bytes.length ≤ b.cap ∧ b.asked ≤ 2 * b.cap ∧ b.cap ≤ max n (2 * b.bytes.length + low) →
          (writePass low e b ts).bytes.length ≤ (writePass low e b ts).cap ∧
          (writePass low e b ts).asked ≤ 2 * (writePass low e b ts).cap ∧
          (writePass low e b ts).cap ≤ max n (2 * (writePass low e b ts).bytes.length + low) := by
        intro ts n
        induction ts with
        | nil => exact fun b h => h
        | cons t ts ih =>
          intro b hb
          refine ih (b.extend low (t.bytes e)) ?_
          generalize t.bytes e = bs
          unfold Buf.extend Buf.reserve
          split
          · simp only [List.length_append]
            omega
          · simp only [List.length_append]
            omega
      have hk := key (w.says (w.says s).state).toks ((w.says s).toks.map Tok.size).sum
        (Buf.withCapacity ((w.says s).toks.map Tok.size).sum)
        ⟨Nat.zero_le _, by simp only [Buf.withCapacity]; omega, by simp only [Buf.withCapacity]; omega⟩
      have hw := writePass_bytes low e (w.says (w.says s).state).toks
        (Buf.withCapacity ((w.says s).toks.map Tok.size).sum)
      have hr := writePass_room low e (w.says (w.says s).state).toks
        (Buf.withCapacity ((w.says s).toks.map Tok.size).sum)
      rw [h] at hk hw hr
      refine ⟨hk.2.2, hk.2.1, fun hl => ?_⟩
      have hl' : b.bytes.length = ((w.says (w.says s).state).toks.map Tok.size).sum := by
        rw [hw]
        simp [Buf.withCapacity, List.length_flatMap, Tok.bytes_length]
      have := hr (by simp only [Buf.withCapacity, List.length_nil]; omega)
      exact this
    · simp only [ho'] at h; cases h
    · simp only [ho'] at h; cases h
  · rw [ho] at h; cases h
  · rw [ho] at h; cases h

/-! ## Errors that are caught -/

/-- C101. A writer that leaves out what cannot be written, as `let _ = state.serialize_element(x)` looks like: it
returns `Ok`, but what the refused elements had handed over by then stays in the packet. -/
theorem C101_caught {α : Type} (low : Nat) (p : Buf) (f : α → Writing Unit) (xs : List α)
    (h : ∀ x ∈ xs, ((f x).says ()).out ≠ .panic) :
    let r := padd low p (Writing.lenient f xs) ()
    r.1 = .ok () ∧ r.2.1.bytes = p.bytes ++ xs.flatMap fun x => wireBytes ((f x).says ()).toks := by
  have key : ∀ xs : List α, (∀ x ∈ xs, ((f x).says ()).out ≠ .panic) →
      (Writing.lenient f xs).says () = ⟨.ok (), xs.flatMap fun x => ((f x).says ()).toks, ()⟩ := by
    intro xs
    induction xs with
    | nil => intro _; rfl
    | cons x xs ih =>
      intro h
      have h1 := h x (by simp)
      have h2 := ih fun y hy => h y (by simp [hy])
      simp only [Writing.lenient, Writing.says]
      rcases ho : ((f x).says ()).out with ⟨⟨⟩⟩ | e | _
      · simp only [h2, List.flatMap_cons]
      · simp only [h2, List.flatMap_cons]
      · exact absurd ho h1
  obtain ⟨g1, g2, -⟩ := C101_repeats low p (Writing.lenient f xs) () ⟨rfl, rfl⟩
  simp only at g1 g2 ⊢
  rw [key xs h] at g1 g2
  refine ⟨g1, ?_⟩
  rw [g2]
  simp [Outcome.isOk, wireBytes, List.flatMap_assoc]

/-! ## The writers of the crate -/

namespace Writing

variable {σ : Type}

/-- `Writing.Is` in terms of what the program says. -/
def SaysAs (w : Writing σ) (x : Wr) : Prop := w.Strict ∧ ∀ s, w.says s = ⟨x.out, x.toks, s⟩

theorem SaysAs.is {w : Writing σ} {x : Wr} (h : w.SaysAs x) : w.Is x := by
  refine ⟨h.1, fun S sink start s => ?_⟩
  rw [w.run_eq, h.2 s]

theorem says_andThen {a b : Writing σ} {x y : Wr} (ha : a.SaysAs x) (hb : b.SaysAs y) : (andThen a b).SaysAs (x ⨟ y) := by
  obtain ⟨a1, a2⟩ := ha
  obtain ⟨b1, b2⟩ := hb
  refine ⟨⟨a1, b1, fun e s => by simp [says]⟩, fun s => ?_⟩
  simp only [andThen, says, a2, Wr.andThen]
  rcases ho : x.out with ⟨⟨⟩⟩ | e | _
  · simp only [b2]
  · simp
  · simp [ho]

theorem says_one (t : Tok) : (one t : Writing σ).SaysAs (Wr.put t) := ⟨trivial, fun _ => rfl⟩
theorem says_fine : (fine : Writing σ).SaysAs Wr.done := ⟨trivial, fun _ => rfl⟩
theorem says_fine' : (fine : Writing σ).SaysAs call := ⟨trivial, fun _ => rfl⟩
theorem says_fail (e : Error) : (Writing.fail e : Writing σ).SaysAs (Wr.fail e) := ⟨trivial, fun _ => rfl⟩

/-- Only the end and the values count. -/
theorem SaysAs.congr {w : Writing σ} {x y : Wr} (h : w.SaysAs x) (h1 : x.out = y.out) (h2 : x.toks = y.toks) : w.SaysAs y := by
  refine ⟨h.1, fun s => ?_⟩
  rw [h.2, h1, h2]

/-- A call in front, that hands over nothing. -/
theorem SaysAs.call_then {w : Writing σ} {x : Wr} (h : w.SaysAs x) : w.SaysAs (call ⨟ x) := h.congr rfl rfl

theorem SaysAs.copy_then {w : Writing σ} {x : Wr} (n : Nat) (h : w.SaysAs x) : w.SaysAs (copy n ⨟ x) := h.congr rfl rfl

/-- A call at the end, that hands over nothing. -/
theorem SaysAs.then_call {w : Writing σ} {x : Wr} (h : w.SaysAs x) : w.SaysAs (x ⨟ call) := by
  refine h.congr ?_ ?_ <;> (unfold Wr.andThen; rcases ho : x.out with ⟨⟨⟩⟩ | e | _ <;> simp [call])

theorem says_bytes : ∀ bs : Bytes, (bytes bs : Writing σ).SaysAs (puts bs)
  | [] => says_fine
  | b :: bs => says_andThen (says_one _) (says_bytes bs)

theorem says_each {α : Type} {f : α → Writing σ} {g : α → Wr} (h : ∀ x, (f x).SaysAs (g x)) :
    ∀ xs : List α, (each f xs).SaysAs (Wr.each g xs)
  | [] => says_fine
  | x :: xs => (says_andThen (h x) (says_each h xs)).call_then

theorem says_bits (b : Bits) : (bits b : Writing σ).SaysAs (WSerialize.wr b) := (says_one _).then_call.call_then

theorem says_address (a : Address) : (address a : Writing σ).SaysAs (WSerialize.wr a) := by
  obtain ⟨a⟩ := a
  cases a with
  | v4 a b c d port =>
    exact (says_andThen (says_bytes _).then_call.call_then (says_one _).then_call).call_then
  | v6 => exact says_fail _

theorem says_varLen16 (v : VarLen16) : (varLen16 v : Writing σ).SaysAs (WSerialize.wr v) := by
  simp only [varLen16, WSerialize.wr]
  split
  · exact says_fail _
  · exact (says_andThen (says_one _) (says_bytes _).then_call).call_then

theorem says_varLen32 (v : VarLen32) : (varLen32 v : Writing σ).SaysAs (WSerialize.wr v) := by
  simp only [varLen32, WSerialize.wr]
  split
  · exact says_fail _
  · exact (says_andThen (says_one _) (says_bytes _).then_call).call_then

theorem says_varLen64 (v : VarLen64) : (varLen64 v : Writing σ).SaysAs (WSerialize.wr v) :=
  (says_andThen (says_one _) (says_bytes _).then_call).call_then

theorem says_rawEnd (v : RawEnd) : (rawEnd v : Writing σ).SaysAs (WSerialize.wr v) := (says_bytes _).then_call.call_then

theorem says_header (h : Header) : (header h : Writing σ).SaysAs (WSerialize.wr h) := by
  obtain ⟨size, version, midHash, messageType⟩ := h
  cases version
  refine (says_andThen (says_one _) ?_).call_then
  cases midHash with
  | none => exact says_fail _
  | some hash =>
    refine says_andThen (says_bytes _) ?_
    cases messageType with
    | none => exact says_fail _
    | some t => exact (says_one _).then_call

theorem says_nested (p : NestedPacket) : (nested p : Writing σ).SaysAs (WSerialize.wr p) :=
  ((says_andThen (says_varLen16 _) says_fine').call_then.call_then).copy_then _

theorem says_time (p : TimeDistributionPayload) : (time p : Writing σ).SaysAs (WSerialize.wr p) := (says_one _).then_call.call_then

theorem says_puncture (p : PuncturePayload) : (puncture p : Writing σ).SaysAs (WSerialize.wr p) :=
  (says_andThen (says_address _).call_then (says_andThen (says_address _).call_then (says_one _).then_call)).call_then

theorem says_punctureRequest (p : PunctureRequestPayload) : (punctureRequest p : Writing σ).SaysAs (WSerialize.wr p) :=
  (says_andThen (says_address _).call_then (says_andThen (says_address _).call_then (says_one _).then_call)).call_then

theorem says_introRequest (p : IntroductionRequestPayload) : (introRequest p : Writing σ).SaysAs (WSerialize.wr p) :=
  (says_andThen (says_address _).call_then <| says_andThen (says_address _).call_then <| says_andThen (says_address _).call_then <|
    says_andThen (says_bits _).call_then <| says_andThen (says_one _) (says_rawEnd _).call_then.then_call).call_then

theorem says_introResponse (p : IntroductionResponsePayload) : (introResponse p : Writing σ).SaysAs (WSerialize.wr p) :=
  (says_andThen (says_address _).call_then <| says_andThen (says_address _).call_then <| says_andThen (says_address _).call_then <|
    says_andThen (says_address _).call_then <| says_andThen (says_address _).call_then <|
    says_andThen (says_bits _).call_then <| says_andThen (says_one _) (says_rawEnd _).call_then.then_call).call_then

theorem says_auth (p : BinMemberAuthenticationPayload) : (auth p : Writing σ).SaysAs (WSerialize.wr p) :=
  (says_andThen (says_one _) <| says_andThen (says_bytes _) <| says_andThen (says_bytes _) (says_bytes _).then_call).call_then

theorem says_signature (x : Signature) : (signature x : Writing σ).SaysAs (WSerialize.wr x) := (says_bytes _).then_call.call_then

theorem says_derived (s : Sch) : ∀ x : s.Ty, (derived s x : Writing σ).SaysAs (s.wr x) := by
  induction s with
  | u8 => exact fun x => says_one _
  | u16 => exact fun x => says_one _
  | u32 => exact fun x => says_one _
  | u64 => exact fun x => says_one _
  | u128 => exact fun x => says_one _
  | i8 => exact fun x => says_one _
  | i16 => exact fun x => says_one _
  | i32 => exact fun x => says_one _
  | i64 => exact fun x => says_one _
  | bool => exact fun x => says_one _
  | char => exact fun x => says_bytes _
  | string => exact fun x => says_andThen (says_one _) (says_bytes _)
  | bits => exact fun x => says_bits x
  | address => exact fun x => says_address x
  | varlen16 => exact fun x => says_varLen16 x
  | varlen32 => exact fun x => says_varLen32 x
  | varlen64 => exact fun x => says_varLen64 x
  | nested => exact fun x => says_nested x
  | rawEnd => exact fun x => says_rawEnd x
  | option s ih =>
    intro x
    cases x with
    | none => exact says_one _
    | some x => exact says_andThen (says_one _) (ih x)
  | vec s ih => exact fun xs => says_andThen (says_one _) (says_each ih xs).then_call
  | array n s ih => exact fun xs => (says_each ih xs.val).then_call.call_then
  | unit => exact fun x => says_fine'
  | cons a b iha ihb => exact fun x => (says_andThen (iha x.1) (ihb x.2)).call_then
  | enum n f ih => exact fun x => says_andThen (says_one _) (ih x.1 x.2)

theorem says_ofKind (κ : Kind) (v : κ.Ty) : (ofKind κ v : Writing σ).SaysAs (WSerialize.wr v) := by
  cases κ with
  | varlen16 => exact says_varLen16 v
  | varlen32 => exact says_varLen32 v
  | varlen64 => exact says_varLen64 v
  | nested => exact says_nested v
  | time => exact says_time v
  | puncture => exact says_puncture v
  | punctureRequest => exact says_punctureRequest v
  | introRequest => exact says_introRequest v
  | introResponse => exact says_introResponse v
  | auth => exact says_auth v
  | derived s => exact says_derived s v.val

end Writing

/-- C101. The writers of the crate, and derived ones, are programs of this kind: they pass every error on, have no
state, end as the writers of `Model/Writer.lean` do and hand over the same values in the same order, also when they
fail half way. -/
theorem C101_crate {σ : Type} :
    (∀ (κ : Kind) (v : κ.Ty), (Writing.ofKind κ v : Writing σ).Is (WSerialize.wr v)) ∧
    (∀ h : Header, (Writing.header h : Writing σ).Is (WSerialize.wr h)) ∧
    (∀ x : Signature, (Writing.signature x : Writing σ).Is (WSerialize.wr x)) :=
  ⟨fun κ v => (Writing.says_ofKind κ v).is, fun h => (Writing.says_header h).is, fun x => (Writing.says_signature x).is⟩

/-- C101. So `add` of a payload of the crate is, run by run, what `Packet.add` says; and if it returned `Ok`, nothing in
the payload was left out. -/
theorem C101_payload {σ : Type} (low : Nat) (p : Buf) (κ : Kind) (v : κ.Ty) (s : σ) :
    let r := padd low p (Writing.ofKind κ v) s
    (r.1, Packet.mk r.2.1.bytes) = Packet.add ⟨p.bytes⟩ v ∧ r.2.2 = s ∧
    (r.1 = .ok () → (Writing.ofKind κ v).Whole s) := by
  obtain ⟨hs, hi⟩ := Writing.says_ofKind (σ := σ) κ v
  have hr : (Writing.ofKind κ v : Writing σ).Repeats s := by
    unfold Writing.Repeats
    rw [hi s]
    simp only [hi s, and_self]
  obtain ⟨h1, h2, -⟩ := C101_repeats low p _ s hr
  obtain ⟨-, -, -, h4⟩ := C101 low p (Writing.ofKind κ v) s
  have hk := result_kind κ v
  simp only at h1 h2 h4 ⊢
  refine ⟨?_, ?_, ?_⟩
  · rw [h1, h2, hi s]
    unfold Packet.add Bincode.serialize
    rw [← hk]
    unfold Wr.result
    rcases (WSerialize.wr v).out with ⟨⟨⟩⟩ | x | _ <;> simp [Outcome.isOk, wireBytes]
  · rw [h4, hi s]
    simp only [hi s]
    split <;> rfl
  · intro h
    rw [h1] at h
    exact whole_of_strict _ hs s h

/-! ## The cursor -/

/-- C101. `next_payload` of any type, whatever its `deserialize` and `serialize` do: the value is what the reader made,
the cursor moves by what a run of the freshly read value's writer hands over; if that run fails or panics, the value is
lost and the cursor stays. -/
theorem C101_cursor {α σ : Type} (de : De α) (w : α → Writing σ) (init : α → σ) (d : PacketDeserializer)
    (hd : d.index ≤ d.pntr.bytes.length) :
    pnext de w init d =
      match de (d.pntr.bytes.drop d.index) with
      | .ok (v, _) =>
        match ((w v).says (init v)).out with
        | .ok () => (.ok (v, ((w v).says (init v)).state),
            ⟨d.pntr, d.index + (((w v).says (init v)).toks.map Tok.size).sum⟩)
        | .err e => (.err e, d)
        | .panic => (.panic, d)
      | .err e => (.err e, d)
      | .panic => (.panic, d) := by
  unfold pnext sliceFrom
  rw [if_pos hd]
  simp only
  rcases de (d.pntr.bytes.drop d.index) with ⟨v, r⟩ | e | _
  · simp only [(w v).run_counting]
    rcases ((w v).says (init v)).out with ⟨⟨⟩⟩ | x | _ <;> rfl
  · rfl
  · rfl

/-- C101. So what comes next in the packet is what the reader left unread exactly if the value is written with as many
bytes as it was read from. -/
theorem C101_aligned {α σ : Type} (de : De α) (w : α → Writing σ) (init : α → σ) (d d' : PacketDeserializer) (v : α)
    (s : σ) (taken rest : Bytes) (hd : d.pntr.bytes.drop d.index = taken ++ rest) (hi : d.index ≤ d.pntr.bytes.length)
    (hv : de (taken ++ rest) = .ok (v, rest)) (h : pnext de w init d = (.ok (v, s), d')) :
    (d'.index = d.index + taken.length ↔ (wireBytes ((w v).says (init v)).toks).length = taken.length) ∧
    (d'.index = d.index + taken.length → d'.pntr.bytes.drop d'.index = rest) := by
  rw [C101_cursor de w init d hi, hd, hv] at h
  simp only at h
  rcases ho : ((w v).says (init v)).out with ⟨⟨⟩⟩ | x | _
  · rw [ho] at h
    simp only [Prod.mk.injEq] at h
    obtain ⟨-, rfl⟩ := h
    have hl : (wireBytes ((w v).says (init v)).toks).length = (((w v).says (init v)).toks.map Tok.size).sum := by
      simp [wireBytes, List.length_flatMap, Tok.bytes_length]
    rw [hl]
    refine ⟨?_, ?_⟩
    · simp only
      omega
    · intro hx
      simp only at hx ⊢
      rw [hx, ← List.drop_drop, hd, List.drop_left]
  · rw [ho] at h; cases h
  · rw [ho] at h; cases h

/-- C101. A value that is written with more bytes than were left moves the cursor past the end; from there every read,
of whatever type, panics, and nothing brings the cursor back. -/
theorem C101_overrun {α β σ τ : Type} (de : De α) (w : α → Writing σ) (init : α → σ) (d d' : PacketDeserializer) (v : α)
    (s : σ) (h : pnext de w init d = (.ok (v, s), d'))
    (hlong : d.pntr.bytes.length - d.index < (wireBytes ((w v).says (init v)).toks).length)
    (de' : De β) (w' : β → Writing τ) (init' : β → τ) :
    pnext de' w' init' d' = (.panic, d') := by
  have hi : d.index ≤ d.pntr.bytes.length := by
    apply Decidable.byContradiction
    intro hc
    unfold pnext sliceFrom at h
    rw [if_neg hc] at h
    cases h
  rw [C101_cursor de w init d hi] at h
  rcases hde : de (d.pntr.bytes.drop d.index) with ⟨v', r⟩ | e | _
  · rw [hde] at h
    simp only at h
    rcases ho : ((w v').says (init v')).out with ⟨⟨⟩⟩ | x | _
    · rw [ho] at h
      simp only [Prod.mk.injEq, Outcome.ok.injEq] at h
      obtain ⟨⟨rfl, rfl⟩, rfl⟩ := h
      have hl : (wireBytes ((w v').says (init v')).toks).length = (((w v').says (init v')).toks.map Tok.size).sum := by
        simp [wireBytes, List.length_flatMap, Tok.bytes_length]
      unfold pnext sliceFrom
      rw [if_neg (by simp only; omega)]
    · rw [ho] at h; cases h
    · rw [ho] at h; cases h
  · rw [hde] at h; cases h
  · rw [hde] at h; cases h

/-- C101. Without a state it is the `next_payload` of `Model/Crypto.lean` for the type whose `Serialize` the program
is. -/
theorem C101_next {α : Type} [Deserialize α] (w : α → Writing Unit) (d : PacketDeserializer) :
    pnext (Deserialize.de .big) w (fun _ => ()) d =
      match d.nextPayload (Programmed w) with
      | (.ok v, d') => (.ok (v.val, ()), d')
      | (.err e, d') => (.err e, d')
      | (.panic, d') => (.panic, d') := by
  unfold pnext PacketDeserializer.nextPayload
  rcases sliceFrom d.pntr.bytes d.index with r | e | _
  · have hde : (Deserialize.de .big : De (Programmed w)) r = (match (Deserialize.de .big : De α) r with
        | .ok (x, r') => .ok (⟨x⟩, r')
        | .err e => .err e
        | .panic => .panic) := by
      show De.bind (Deserialize.de .big : De α) (fun x => De.pure (Programmed.mk x)) r = _
      unfold De.bind
      rcases (Deserialize.de .big : De α) r with ⟨x, r'⟩ | e | _ <;> rfl
    simp only [Bincode.deserialize, hde]
    rcases (Deserialize.de .big : De α) r with ⟨x, r'⟩ | e | _
    · simp only [(w x).run_counting, Bincode.serializedSize, Serialize.ser]
      rcases ((w x).says ()).out with ⟨⟨⟩⟩ | e | _ <;> rfl
    · rfl
    · rfl
  · rfl
  · rfl

/-! ## Payloads that change while they are written -/

/-- A payload with a counter (`Cell<u8>`), which its `serialize` advances and writes. -/
def ticket : Writing UInt8 := .change (· + 1) (.look fun n => Writing.one (.u8 n))

/-- C101. Every `add` advances it twice, and what the packet gets is its value after the second time: of the numbers
the counter goes through, those at odd places are never sent. -/
theorem C101_twice (low : Nat) (p : Buf) (n : UInt8) :
    let r := padd low p ticket n
    r.1 = .ok () ∧ r.2.1.bytes = p.bytes ++ [n + 2] ∧ r.2.2 = n + 2 := by
  obtain ⟨h1, h2, -, h4⟩ := C101 low p ticket n
  have e1 : ∀ m, ticket.says m = ⟨.ok (), [.u8 (m + 1)], m + 1⟩ := fun _ => rfl
  have e2 : n + 1 + 1 = n + 2 := by rw [UInt8.add_assoc]; rfl
  simp only [e1] at h1 h2 h4 ⊢
  rw [h1, h2, h4, e2]
  exact ⟨rfl, rfl, rfl⟩

/-- A payload that says more the second time. -/
def growing : Writing Bool := .look fun
  | false => .change (fun _ => true) (Writing.one (.u8 1))
  | true => .change (fun _ => false) (Writing.bytes [1, 2, 3])

/-- One that fails the second time only. -/
def souring : Writing Bool := .look fun
  | false => .change (fun _ => true) (Writing.one (.u8 1))
  | true => .put (.u64 7) (Writing.fail (.custom "no more"))

/-- C101. The buffer is made for one byte and gets three; the packet gets all three.  And an `add` can be refused
although the size was counted; the packet is not touched. -/
example :
    (pserialize 8 .big growing false).1 = .ok ⟨[1, 2, 3], 8, 9⟩ ∧
    padd 8 ⟨[9], 8, 8⟩ growing false = (.ok (), ⟨[9, 1, 2, 3], 8, 8⟩, false) ∧
    padd 8 ⟨[9], 8, 8⟩ souring false = (.err (.custom "no more"), ⟨[9], 8, 8⟩, true) ∧
    ¬ growing.Repeats false := by
  refine ⟨rfl, rfl, rfl, ?_⟩
  intro h
  exact absurd h.2 (by decide)

set_option maxRecDepth 4000 in
/-- C101. Two headers of which one has no hash, written by one who catches errors: `Ok`, and two stray bytes in front
of the good one; by one who passes errors on: refused, nothing written. -/
example :
    let bad : Header := ⟨23, .PyIPV8Header, none, none⟩
    let good : Header := ⟨23, .PyIPV8Header, some (List.replicate 20 7), some 245⟩
    padd 8 Buf.empty (Writing.lenient Writing.header [bad, good]) () =
      (.ok (), ⟨[0, 2] ++ ([0, 2] ++ List.replicate 20 7 ++ [245]), 25, 25⟩, ()) ∧
    padd 8 Buf.empty (Writing.each Writing.header [bad, good]) () =
      (.err (.custom "mid_hash was empty and this wasn't expected"), Buf.empty, ()) ∧
    ¬ (Writing.lenient Writing.header [bad, good]).Whole () := by
  refine ⟨rfl, rfl, ?_⟩
  intro h
  have := h.1
  cases this

/-- The hypotheses of C101_aligned and C101_overrun: a byte that is written as it is read, and one that is written
twice. -/
example :
    let d : PacketDeserializer := ⟨⟨[5, 6]⟩, 1⟩
    pnext (deU8) (fun x => (Writing.one (.u8 x) : Writing Unit)) (fun _ => ()) d = (.ok (6, ()), ⟨⟨[5, 6]⟩, 2⟩) ∧
    pnext (deU8) (fun x => (Writing.bytes [x, x] : Writing Unit)) (fun _ => ()) d = (.ok (6, ()), ⟨⟨[5, 6]⟩, 3⟩) ∧
    pnext (deU8) (fun x => (Writing.one (.u8 x) : Writing Unit)) (fun _ => ()) ⟨⟨[5, 6]⟩, 3⟩ =
      (.panic, ⟨⟨[5, 6]⟩, 3⟩) :=
  ⟨rfl, rfl, rfl⟩

/-! ## Cases for the theorems above -/

set_option maxRecDepth 4000 in
/-- `C101_caught`: a header that is refused and one that is not, written by one who catches errors. -/
example : (padd 8 Buf.empty (Writing.lenient Writing.header
    [(⟨23, .PyIPV8Header, none, none⟩ : Header), ⟨23, .PyIPV8Header, some (List.replicate 20 7), some 245⟩]) ()).1 = .ok () :=
  (C101_caught 8 Buf.empty Writing.header
    [(⟨23, .PyIPV8Header, none, none⟩ : Header), ⟨23, .PyIPV8Header, some (List.replicate 20 7), some 245⟩]
    (by decide)).1

/-- `C101_memory` and `C101_whole`: the payload that says more the second time. -/
example : (8 ≤ max 1 (2 * 3 + 8)) ∧ growing.Whole false ∧ growing.Whole true :=
  ⟨(C101_memory 8 .big growing false ⟨[1, 2, 3], 8, 9⟩ rfl).1,
    C101_whole 8 ⟨[9], 8, 8⟩ growing (fun s => by cases s <;> simp [Writing.Strict, Writing.one, Writing.bytes, Writing.fine, Writing.andThen, Writing.says]) false rfl⟩

/-- `C101_cursor`: from the second byte. -/
example {σ : Type} (w : UInt8 → Writing σ) (init : UInt8 → σ) := C101_cursor deU8 w init ⟨⟨[1, 2]⟩, 1⟩ (by decide)

end Ipv8
