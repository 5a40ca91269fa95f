import Verif.Model.Crypto
/-!
# Python binding

`rust_ipv8_in_python/src/borrowedbundler.rs`.
-/

namespace Ipv8

/-- Exceptions raised by the binding. -/
inductive PyErr
  | valueError (msg : String)
  | keyError (msg : String)
  deriving DecidableEq, Repr

/-- Result of a Python call into Rust: a value, an exception, or a Rust panic. -/
inductive PyOutcome (α : Type) where
  | ok (a : α)
  | raise (e : PyErr)
  | panic
  deriving DecidableEq, Repr

/-- `.or(Err(exception))?`. -/
def PyOutcome.orRaise {α β : Type} (o : Outcome α) (e : PyErr) (f : α → PyOutcome β) : PyOutcome β :=
  match o with
  | .ok a => f a
  | .err _ => .raise e
  | .panic => .panic

/-- `borrowedbundler.rs:11-30` (`_auth` is ignored; releasing the GIL has no effect on the value).
`verify` returns a plain `bool` and slicing cannot return an error, so that the two `.err` arms are
never taken; they are there because `Outcome` has three cases. -/
def borrowedVerifySignature (R : Ring) (_auth data : Bytes) : PyOutcome (Bool × Bytes) :=
  let packet : Packet := ⟨data⟩
  PyOutcome.orRaise packet.startDeserialize.skipHeader (.valueError "Could not ignore the header")
    fun de =>
      match de.verify R with
      | (.ok result, de) =>
        match sliceFrom de.pntr.bytes de.index with
        | .ok rest => .ok (result, rest)
        | .err _ => .panic
        | .panic => .panic
      | (.err _, _) => .panic
      | (.panic, _) => .panic

/-- `borrowedbundler.rs:33-53`. -/
def borrowedCreateSignature (R : Ring) (seed key data : Bytes) : PyOutcome Bytes :=
  let p : Packet := ⟨data⟩
  PyOutcome.orRaise (asFixedArray 32 key) (.keyError "Key length was wrong") fun keyFixed =>
  PyOutcome.orRaise (asFixedArray 32 seed) (.keyError "Seed length was wrong") fun seedFixed =>
  PyOutcome.orRaise (KeyPair.fromSeedChecked R seedFixed keyFixed) (.keyError "Invalid key given")
    fun ourkey =>
  PyOutcome.orRaise (p.sign ourkey) (.keyError "Sign error") fun signed =>
  .ok signed.bytes

end Ipv8
