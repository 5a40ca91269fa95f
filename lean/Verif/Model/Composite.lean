import Verif.Model.Derive
/-!
# Payload structs with hand-written codecs, maps and sets inside

`Sch` (Model/Derive.lean) has the building blocks of the crate as leaves.  An application may put anything
into a payload struct for which it has a `Serialize` and a `Deserialize` implementation: a type with a codec
written by hand (as `serialization/mod.rs:24-33` allows and the crate itself does for its payloads), a field
with `#[serde(with = "...")]` or `#[serde(skip)]`, another payload of the crate, a `HashMap`, `BTreeMap`,
`HashSet` or `BTreeSet`.  `Shape` is the type of all such definitions.  What the derive macro and bincode 1.1
do with them is assumed behaviour of dependencies, like `Model/Serde.lean`.  `Box<T>`, newtypes and generic
structs need nothing: they are written and read like what they contain.  Borrowed fields (`&str`) are ruled
out by the bound `for<'de> T: Deserialize<'de>` of `next_payload` (`serialization/mod.rs:45-48`).
-/

namespace Ipv8

/-- A type with its `impl Serialize` and `impl Deserialize`. -/
structure Codec (α : Type) where
  ser : α → Outcome (List Tok)
  de : Endian → De α

/-- The codec a type of the crate comes with. -/
def Codec.of (α : Type) [Serialize α] [Deserialize α] : Codec α := ⟨Serialize.ser, Deserialize.de⟩

/-- The codec of a derived type over the crate's building blocks. -/
def Codec.ofSch (s : Sch) : Codec s.Ty := ⟨s.ser, fun e => s.de e⟩

/-- `#[serde(skip)]`: nothing is written, and reading gives `Default::default()`. -/
def Codec.skip {α : Type} (dflt : α) : Codec α := ⟨fun _ => .ok [], fun _ => pure dflt⟩

/-- A map value: its pairs in the order in which iterating over the map yields them. -/
structure MapOf (κ ν : Type) where
  entries : List (κ × ν)

/-- How a kind of map orders its pairs when it is iterated over: by key (`BTreeMap`), or in a way nobody
can foresee (`HashMap`), but always the same pairs. -/
structure MapOrder (κ ν : Type) where
  order : List (κ × ν) → List (κ × ν)
  perm : ∀ l, (order l).Perm l

/-- The shape of a type with derived `Serialize` and `Deserialize`.  A struct with fields `f1 … fn` is
`cons f1 (… (cons fn unit))`; a set is a map to `unit` (serde writes sets as sequences). -/
inductive Shape : Type → Type 1
  | leaf {α : Type} (c : Codec α) : Shape α
  | option {α : Type} (s : Shape α) : Shape (Option α)
  | vec {α : Type} (s : Shape α) : Shape (List α)
  | array {α : Type} (n : Nat) (s : Shape α) : Shape { l : List α // l.length = n }
  | unit : Shape Unit
  | cons {α β : Type} (head : Shape α) (tail : Shape β) : Shape (α × β)
  | enum (n : Nat) (T : Fin n → Type) (variants : (i : Fin n) → Shape (T i)) : Shape ((i : Fin n) × T i)
  | map {κ ν : Type} [DecidableEq κ] (key : Codec κ) (value : Shape ν) (o : MapOrder κ ν) :
      Shape (MapOf κ ν)

/-- Derived `Serialize` on bincode, as for `Sch`; a map as a `u64` count and then key, value, key,
value, ... in the order of iteration. -/
def Shape.ser : {α : Type} → Shape α → α → Outcome (List Tok)
  | _, .leaf c, x => c.ser x
  | _, .option _, none => .ok [.u8 0]
  | _, .option s, some x => do
    let a ← s.ser x
    pure (.u8 1 :: a)
  | _, .vec s, xs => do
    let a ← serSeq s.ser xs
    pure (.u64 (UInt64.ofNat xs.length) :: a)
  | _, .array _ s, xs => serSeq s.ser xs.val
  | _, .unit, _ => .ok []
  | _, .cons a b, x => do
    let p ← a.ser x.1
    let q ← b.ser x.2
    pure (p ++ q)
  | _, .enum _ _ f, x => do
    let a ← (f x.1).ser x.2
    pure (.u32 (UInt32.ofNat x.1.val) :: a)
  | _, @Shape.map _ _ _ k s _, m => do
    let a ← serSeq (fun p : _ × _ => do
      let a ← k.ser p.1
      let b ← s.ser p.2
      pure (a ++ b)) m.entries
    pure (.u64 (UInt64.ofNat m.entries.length) :: a)

/-- Derived `Deserialize` on bincode, as for `Sch`; a map by inserting every pair read, in order
(`MapVisitor` of serde), later pairs overwriting earlier ones with the same key. -/
def Shape.de (e : Endian) : {α : Type} → Shape α → De α
  | _, .leaf c => c.de e
  | _, .option s => deOption (s.de e)
  | _, .vec s => deVec e (s.de e)
  | _, .array n s => deArray (s.de e) n
  | _, .unit => pure ()
  | _, .cons a b => do
    let x ← a.de e
    let y ← b.de e
    pure (x, y)
  | _, .enum n _ f => do
    let i ← deU32 e
    if h : i.toNat < n then do
      let x ← (f ⟨i.toNat, h⟩).de e
      pure ⟨⟨i.toNat, h⟩, x⟩
    else De.fail (.custom "invalid value: expected variant index")
  | _, @Shape.map _ _ _ k s o => do
    let es ← deVec e (do
      let a ← k.de e
      let b ← s.de e
      pure (a, b))
    pure ⟨o.order (es.foldl mapInsert [])⟩

/-- A payload type of an application. -/
structure Composite {α : Type} (s : Shape α) where
  val : α

instance {α : Type} (s : Shape α) : Ipv8Payload (Composite s) := ⟨⟩
instance {α : Type} (s : Shape α) : Serialize (Composite s) := ⟨fun v => s.ser v.val⟩
instance {α : Type} (s : Shape α) : Deserialize (Composite s) where
  de e := do
    let v ← s.de e
    pure ⟨v⟩

/-- The codec of a composite type, to be used as the codec of a key or a field. -/
def Shape.codec {α : Type} (s : Shape α) : Codec α := ⟨s.ser, fun e => s.de e⟩

/-- The same definition with the crate's building blocks as leaves. -/
def Sch.shape : (s : Sch) → Shape s.Ty
  | .option s => .option s.shape
  | .vec s => .vec s.shape
  | .array n s => .array n s.shape
  | .unit => .unit
  | .cons a b => .cons a.shape b.shape
  | .enum n f => .enum n (fun i => (f i).Ty) (fun i => (f i).shape)
  | s => .leaf (Codec.ofSch s)

end Ipv8
