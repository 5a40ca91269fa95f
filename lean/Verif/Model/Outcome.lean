/-!
# Outcomes of Rust calls

A Rust call that returns `Result<T, E>` and may panic is modelled as a total function into
`Outcome T`.  `Option`-returning code is modelled with Lean's `Option`.
-/

namespace Ipv8

/-- A string of bytes: Rust's `Vec<u8>` / `&[u8]`. -/
abbrev Bytes := List UInt8

/-- Largest `usize` on the 64-bit targets the crate supports (`std::usize::MAX`, used in
`serialization/rawend.rs:52` and `serialization/header.rs:206`).  `varlen.rs:125` (`1 << 32` as a
`usize`) does not compile on 32-bit targets, so 64 bits is the only case. -/
def usizeMax : Nat := 2 ^ 64 - 1

/-- The error values the crate produces.  Simplification: payload texts of
`serde::{ser,de}::Error::custom` are kept as strings, bincode's `ErrorKind::Io` is only split by the
single kind that a slice reader can produce (`eof`).
Unit-struct errors made with `create_error!` (`error.rs:3-21`): `serialization/mod.rs:18`,
`community/mod.rs:17-25`, `crypto/signature.rs:12-20`, `util.rs:5`, `networking/mod.rs:18-19`. -/
inductive Error
  | eof
  | custom (msg : String)
  | invalidLength (n : Nat)
  | invalidBool
  | invalidTag
  | invalidUtf8
  | invalidChar
  | header
  | headerUnwrap
  | mid
  | unknownCommunity
  | keyRejected
  | keyGeneration
  | signing
  | conversion
  | threadPool
  | io (code : Nat)
  | app (code : Nat)
  deriving DecidableEq, Repr

/-- Result of a Rust call: `Ok v`, `Err e`, or a panic (out-of-range slice, `usize` underflow). -/
inductive Outcome (α : Type) where
  | ok (a : α)
  | err (e : Error)
  | panic
  deriving DecidableEq, Repr

namespace Outcome

/-- Rust's `?` operator: continue on `Ok`, return early on `Err`; a panic unwinds. -/
@[inline] def bind {α β : Type} (x : Outcome α) (f : α → Outcome β) : Outcome β :=
  match x with
  | ok a => f a
  | err e => err e
  | panic => panic

instance : Monad Outcome where
  pure := ok
  bind := bind

/-- The call returned `Ok`. -/
def isOk {α : Type} : Outcome α → Bool
  | ok _ => true
  | _ => false

/-- The call returned `Err`. -/
def isErr {α : Type} : Outcome α → Bool
  | err _ => true
  | _ => false

/-- The call panicked. -/
def isPanic {α : Type} : Outcome α → Bool
  | panic => true
  | _ => false

/-- `.ok_or(e)?` / `.ok_or_else(|| e)?` on an `Option`. -/
def ofOption {α : Type} (e : Error) : Option α → Outcome α
  | some a => ok a
  | none => err e

/-- `.or(Err(e))?` / `.or_else(|_| Err(e))?`: replace the error value. -/
def orErr {α : Type} (e : Error) : Outcome α → Outcome α
  | ok a => ok a
  | err _ => err e
  | panic => panic

end Outcome

/-- `&s[a..b]`: panics when out of range. -/
def slice (s : Bytes) (a b : Nat) : Outcome Bytes :=
  if a ≤ b ∧ b ≤ s.length then .ok ((s.take b).drop a) else .panic

/-- `&s[a..]`: panics when out of range. -/
def sliceFrom (s : Bytes) (a : Nat) : Outcome Bytes :=
  if a ≤ s.length then .ok (s.drop a) else .panic

/-- Rust's `[u8; n]`. -/
abbrev FixedBytes (n : Nat) := { l : Bytes // l.length = n }

instance (n : Nat) : DecidableEq (FixedBytes n) :=
  inferInstanceAs (DecidableEq { l : Bytes // l.length = n })

instance (n : Nat) : Repr (FixedBytes n) := ⟨fun x p => reprPrec x.1 p⟩

/-- `zerocopy::LayoutVerified::<_, [u8; n]>::new(data)`: `Some` exactly when the slice has the size of
the type (`[u8; n]` has alignment 1, so the alignment test always passes).
Used in `util.rs:14`, `crypto/signature.rs:98,112`, `payloads/binmemberauthenticationpayload.rs:79,83`. -/
def toFixed (n : Nat) (data : Bytes) : Option (FixedBytes n) :=
  if h : data.length = n then some ⟨data, h⟩ else none

/-- `n` copies of one byte as an array; only used to write down concrete examples. -/
def FixedBytes.replicate (n : Nat) (b : UInt8) : FixedBytes n :=
  ⟨List.replicate n b, List.length_replicate⟩

end Ipv8
