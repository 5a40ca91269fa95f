import Verif.Model.Python
/-!
# Python threads

`rust_ipv8_in_python/src/borrowedbundler.rs` seen from a Python process with several threads.  Python code, and Rust code that
is called from it, runs with the global interpreter lock (GIL), except that `borrowed_verify_signature` gives it back
while it computes (24-27).
-/

namespace Ipv8

/-- A call from Python into the binding. -/
inductive PyRequest
  /-- `borrowed_verify_signature(auth, data)` -/
  | verify (auth data : Bytes)
  /-- `borrowed_create_signature(seed, key, data)` -/
  | sign (seed key data : Bytes)

/-- What Python gets back. -/
inductive PyAnswer
  | verified (result : Bool) (rest : Bytes)
  | signed (data : Bytes)
  | raised (e : PyErr)
  deriving DecidableEq, Repr

/-- Where a thread is. -/
inductive PyPhase
  /-- in Python code, waiting for the GIL -/
  | waiting
  /-- in Python code, with the GIL -/
  | running
  /-- in the closure of `allow_threads` (25), without the GIL -/
  | checking (de : PacketDeserializer)
  /-- at the end of `allow_threads`, waiting for the GIL (27) -/
  | checked (result : Bool) (de : PacketDeserializer)
  /-- in `borrowed_create_signature`, with the GIL (33-53) -/
  | signing

/-- A Python thread. -/
structure PyThread where
  /-- the calls that have not been answered; the first one may be going on -/
  todo : List PyRequest
  phase : PyPhase
  answers : List PyAnswer
  /-- history: all calls of the thread -/
  asked : List PyRequest

/-- A Python process. -/
structure PyProcess where
  threads : List PyThread
  /-- a Rust panic got to the boundary: the process is aborted, or what it does is undefined -/
  lost : Bool

/-- No threads yet. -/
def PyProcess.init : PyProcess := ⟨[], false⟩

/-- Has this thread got the GIL? -/
def PyThread.hasGil (t : PyThread) : Bool :=
  match t.phase with
  | .running => true
  | .signing => true
  | _ => false

/-- Can the GIL be taken? -/
def PyProcess.gilFree (s : PyProcess) : Bool := s.threads.all fun t => !t.hasGil

/-- One atomic step. -/
inductive PyLabel
  /-- a thread is started, which will make these calls -/
  | spawn (calls : List PyRequest)
  /-- thread `t` gets the GIL -/
  | acquire (t : Nat)
  /-- the interpreter lets others have the GIL -/
  | release (t : Nat)
  /-- thread `t` makes its next call -/
  | call (t : Nat)
  /-- `verify` of thread `t` is through -/
  | check (t : Nat)
  /-- thread `t` gets the GIL back and returns from `borrowed_verify_signature` -/
  | back (t : Nat)
  /-- thread `t` returns from `borrowed_create_signature` -/
  | finish (t : Nat)

/-- Thread `t` is now this. -/
def PyProcess.put (s : PyProcess) (t : Nat) (x : PyThread) : PyProcess := { s with threads := s.threads.set t x }

/-- The call that is going on gets this answer. -/
def PyThread.reply (x : PyThread) (a : PyAnswer) : PyThread :=
  { x with todo := x.todo.tail, phase := .running, answers := x.answers ++ [a] }

/-- One step; `none` if the label is not enabled. -/
def PyProcess.step (R : Ring) (s : PyProcess) (l : PyLabel) : Option PyProcess :=
  if s.lost then none else
  match l with
  | .spawn calls => some { s with threads := s.threads ++ [⟨calls, .waiting, [], calls⟩] }
  | .acquire t =>
    match s.threads[t]? with
    | some ⟨todo, .waiting, answers, asked⟩ =>
      if s.gilFree then some (s.put t ⟨todo, .running, answers, asked⟩) else none
    | _ => none
  | .release t =>
    match s.threads[t]? with
    | some ⟨todo, .running, answers, asked⟩ => some (s.put t ⟨todo, .waiting, answers, asked⟩)
    | _ => none
  | .call t =>
    match s.threads[t]? with
    -- borrowedbundler.rs:17-21: `data` is copied, the header is skipped, with the GIL; 24: it is given back
    | some ⟨.verify auth data :: todo, .running, answers, asked⟩ =>
      match (⟨data⟩ : Packet).startDeserialize.skipHeader with
      | .ok de => some (s.put t ⟨.verify auth data :: todo, .checking de, answers, asked⟩)
      | .err _ => some (s.put t ((⟨.verify auth data :: todo, .running, answers, asked⟩ : PyThread).reply
          (.raised (.valueError "Could not ignore the header"))))
      | .panic => some { s with lost := true }
    | some ⟨.sign seed key data :: todo, .running, answers, asked⟩ =>
      some (s.put t ⟨.sign seed key data :: todo, .signing, answers, asked⟩)
    | _ => none
  -- borrowedbundler.rs:25-26
  | .check t =>
    match s.threads[t]? with
    | some ⟨todo, .checking de, answers, asked⟩ =>
      match de.verify R with
      | (.ok result, de) => some (s.put t ⟨todo, .checked result de, answers, asked⟩)
      | _ => some { s with lost := true }
    | _ => none
  -- borrowedbundler.rs:27-29
  | .back t =>
    match s.threads[t]? with
    | some ⟨todo, .checked result de, answers, asked⟩ =>
      if s.gilFree then
        match sliceFrom de.pntr.bytes de.index with
        | .ok rest => some (s.put t ((⟨todo, .checked result de, answers, asked⟩ : PyThread).reply (.verified result rest)))
        | _ => some { s with lost := true }
      else none
    | _ => none
  -- borrowedbundler.rs:39-53 (Simplification: in one step.  Nobody else touches what it uses.)
  | .finish t =>
    match s.threads[t]? with
    | some ⟨.sign seed key data :: todo, .signing, answers, asked⟩ =>
      match borrowedCreateSignature R seed key data with
      | .ok signed => some (s.put t ((⟨.sign seed key data :: todo, .signing, answers, asked⟩ : PyThread).reply (.signed signed)))
      | .raise e => some (s.put t ((⟨.sign seed key data :: todo, .signing, answers, asked⟩ : PyThread).reply (.raised e)))
      | .panic => some { s with lost := true }
    | _ => none

/-- Run a list of labels. -/
def PyProcess.run (R : Ring) (s : PyProcess) : List PyLabel → Option PyProcess
  | [] => some s
  | x :: xs =>
    match s.step R x with
    | some s' => s'.run R xs
    | none => none

end Ipv8
