import Verif.Model.Crypto
import Verif.Model.Derive
/-!
# Recursive payload types

An application may derive `Serialize` and `Deserialize` for types that contain themselves, directly or through
each other, behind a `Box`, an `Option`, a `Vec` or an enum: lists, trees, expressions.  `Sch` (Model/Derive.lean) has
no such types.  The derived code then calls itself, and neither serde nor bincode 1.1 limits how deep: what ends it is
the value, the bytes, or the stack of the thread.  Like the rest of what the derive macro and bincode do, this is
assumed behaviour of dependencies; the code of the crate it runs under is `add` and `next_payload`
(`serialization/mod.rs:45-69`, `172-179`).
-/

namespace Ipv8

/-- The definition of a type that may mention any of `k` types with names, itself included.  `leaf` is any type
without recursion. -/
inductive RSch (k : Nat) : Type
  | leaf (s : Sch)
  | named (i : Fin k)
  | option (s : RSch k)
  | vec (s : RSch k)
  | array (n : Nat) (s : RSch k)
  | unit
  | cons (head tail : RSch k)
  | enum (n : Nat) (variants : Fin n → RSch k)

/-- The values of such a type, where `B` has the definitions of the named types.  Values are finite. -/
inductive RTy {k : Nat} (B : Fin k → RSch k) : RSch k → Type
  | leaf {s : Sch} (x : s.Ty) : RTy B (.leaf s)
  | named (i : Fin k) (v : RTy B (B i)) : RTy B (.named i)
  | none {s : RSch k} : RTy B (.option s)
  | some {s : RSch k} (v : RTy B s) : RTy B (.option s)
  | vec {s : RSch k} (n : Nat) (xs : Fin n → RTy B s) : RTy B (.vec s)
  | array {n : Nat} {s : RSch k} (xs : Fin n → RTy B s) : RTy B (.array n s)
  | unit : RTy B .unit
  | pair {a b : RSch k} (x : RTy B a) (y : RTy B b) : RTy B (.cons a b)
  | variant {n : Nat} {f : Fin n → RSch k} (i : Fin n) (v : RTy B (f i)) : RTy B (.enum n f)

variable {k : Nat} {B : Fin k → RSch k}

/-- Derived `Serialize`, on a stack with room for `stack` nested calls for named types.  When there is no more room
the process is aborted; that is written as a panic here.  (Simplification: all those calls take up the same room.) -/
def RTy.ser : {s : RSch k} → (stack : Nat) → RTy B s → Outcome (List Tok)
  | _, _, @RTy.leaf _ _ s x => s.ser x
  | _, 0, .named _ _ => .panic
  | _, stack + 1, .named _ v => v.ser stack
  | _, _, .none => .ok [.u8 0]
  | _, stack, .some v => do
    let a ← v.ser stack
    pure (.u8 1 :: a)
  | _, stack, .vec n xs => do
    let a ← serSeq id (List.ofFn fun i => (xs i).ser stack)
    pure (.u64 (UInt64.ofNat n) :: a)
  | _, stack, .array xs => serSeq id (List.ofFn fun i => (xs i).ser stack)
  | _, _, .unit => .ok []
  | _, stack, .pair x y => do
    let p ← x.ser stack
    let q ← y.ser stack
    pure (p ++ q)
  | _, stack, .variant i v => do
    let a ← v.ser stack
    pure (.u32 (UInt32.ofNat i.val) :: a)

/-- So many elements, one after the other (as `deArray`; the elements as a function of their position). -/
def deElements {α : Type} (d : De α) (n : Nat) : De (Fin n → α) := do
  let xs ← deArray d n
  pure fun i => xs.val[i.val]'(by rw [xs.property]; exact i.isLt)

/-- A field of type `s`, given what reads the named types. -/
def RSch.step (e : Endian) (d : (i : Fin k) → De (RTy B (.named i))) : (s : RSch k) → De (RTy B s)
  | .leaf s => do
    let x ← s.de e
    pure (.leaf x)
  | .named i => d i
  | .option s => do
    let o ← deOption (s.step e d)
    match o with
    | none => pure .none
    | some v => pure (.some v)
  | .vec s => do
    let n ← deU64 e
    let xs ← deElements (s.step e d) n.toNat
    pure (.vec n.toNat xs)
  | .array n s => do
    let xs ← deElements (s.step e d) n
    pure (.array xs)
  | .unit => pure .unit
  | .cons a b => do
    let x ← a.step e d
    let y ← b.step e d
    pure (.pair x y)
  | .enum n f => do
    let i ← deU32 e
    if h : i.toNat < n then do
      let x ← (f ⟨i.toNat, h⟩).step e d
      pure (.variant ⟨i.toNat, h⟩ x)
    else De.fail (.custom "invalid value: expected variant index")

/-- Derived `Deserialize` of a named type, on a stack with room for `stack` nested calls of this kind. -/
def readNamed (B : Fin k → RSch k) (e : Endian) : (stack : Nat) → (i : Fin k) → De (RTy B (.named i))
  | 0, _ => fun _ => .panic
  | stack + 1, i => do
    let v ← (B i).step e (readNamed B e stack)
    pure (.named i v)

/-- A payload type of an application: one of the named types, on threads whose stacks have room for `rd` nested
calls of the reader and `wr` of the writer. -/
structure Recursive (B : Fin k → RSch k) (i : Fin k) (rd wr : Nat) where
  val : RTy B (.named i)

instance (i : Fin k) (rd wr : Nat) : Ipv8Payload (Recursive B i rd wr) := ⟨⟩
instance (i : Fin k) (rd wr : Nat) : Serialize (Recursive B i rd wr) := ⟨fun v => v.val.ser wr⟩
instance (i : Fin k) (rd wr : Nat) : Deserialize (Recursive B i rd wr) where
  de e := do
    let v ← readNamed B e rd i
    pure ⟨v⟩

end Ipv8
