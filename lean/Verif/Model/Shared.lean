import Verif.Model.Network
/-!
# Receivers that share memory

A `Receiver` is called through `&self` by threads of the pool (`networking/mod.rs:133-140`) and has to be `Sync`
(`networking/mod.rs:61`, 146), so whatever it shares with others, or remembers, is behind a lock or atomic.  Here the memory is
explicit.  A call of `on_receive` is a program that again and again does something atomic with the memory (a section
under a lock, an atomic instruction) and goes on depending on what it saw.
-/

namespace Ipv8

/-- What a call of `on_receive` does with memory of type `σ`.  Simplification: it ends after finitely many
atomic sections, whatever it sees. -/
inductive Act (σ : Type) where
  /-- it returns -/
  | done
  /-- it panics -/
  | panic
  /-- atomically, the memory is changed by `change`; it goes on with what it found there before -/
  | step (next : σ → Act σ) (change : σ → σ)

/-- One program and then another. -/
def Act.andThen {σ : Type} : Act σ → Act σ → Act σ
  | .done, q => q
  | .panic, _ => .panic
  | .step next change, q => .step (fun m => (next m).andThen q) change

/-- One after the other. -/
def allInTurn {σ : Type} : List (Act σ) → Act σ
  | [] => .done
  | p :: ps => p.andThen (allInTurn ps)

/-- The program of a receiver that calls `forward_message` (`community/mod.rs:147-164`) of a registry whose communities use
memory of type `σ`: that of the `on_receive` of the community that is called (`handler`, by the community's `id`), if
one is; all in the thread of the receiver.  Simplification: looking into the registry is not a use of the memory; the
registry does not change while it is used (it is borrowed, `community/mod.rs:147`). -/
def registryProgram {σ : Type} (reg : CommunityRegistry) (handler : Nat → Header → PacketDeserializer → Address → Act σ)
    (p : Packet) (a : Address) : Act σ :=
  allInTurn ((reg.forwardMessage p a).2.map fun c => handler c.community c.header c.deserializer c.address)

/-- What happens, with the memory in view. -/
inductive SEv (σ : Type) where
  /-- something the listening thread or the pool does -/
  | ev (e : Ev)
  /-- the running call of receiver number `r` makes its next atomic section -/
  | touch (r : Nat)
  /-- another part of the application changes the memory -/
  | other (change : σ → σ)

/-- The memory, and what the running calls have still to do. -/
structure Shared (σ : Type) where
  memory : σ
  running : Nat → Option (Act σ)

/-- One event; `none` if it cannot happen.  Here calls return only when their programs have returned; for panics see
`SharedNet.step` below.  `program r p a` is what `on_receive` of receiver number `r` does when called
with `p` and `a` (`networking/mod.rs:137`). -/
def Shared.step {σ : Type} (program : Nat → Packet → Address → Act σ) (s : Shared σ) : SEv σ → Option (Shared σ)
  | .ev (.taken _ _) => some s
  | .ev (.call r p a) =>
    match s.running r with
    | none => some { s with running := fun i => if i = r then some (program r p a) else s.running i }
    | some _ => none
  | .ev (.ret r) =>
    match s.running r with
    | some .done => some { s with running := fun i => if i = r then none else s.running i }
    | _ => none
  | .touch r =>
    match s.running r with
    | some (.step next change) =>
      some ⟨change s.memory, fun i => if i = r then some (next s.memory) else s.running i⟩
    | _ => none
  | .other change => some { s with memory := change s.memory }

/-- A history. -/
def Shared.run {σ : Type} (program : Nat → Packet → Address → Act σ) (s : Shared σ) : List (SEv σ) → Option (Shared σ)
  | [] => some s
  | e :: es =>
    match s.step program e with
    | some s' => s'.run program es
    | none => none

/-! ## With panics -/

/-- A step of the whole: of thread, pool and socket; a section of a running call; a change by another part of the
application. -/
inductive SLabel (σ : Type) where
  | net (x : Label)
  | touch (r : Nat)
  | other (change : σ → σ)

/-- A listening thread together with the memory that its receivers use. -/
structure SharedNet (σ : Type) where
  net : NetState
  shared : Shared σ

/-- What a step of thread and pool means for the programs: calling a receiver (`networking/mod.rs:137`) begins its program, a
call returns when its program does and panics when its program does. -/
def Shared.follow {σ : Type} (program : Nat → Packet → Address → Act σ) (phase : Phase) (s : Shared σ) :
    Label → Option (Shared σ)
  | .start r =>
    match phase with
    | .dispatch _ p a _ _ _ => some { s with running := fun i => if i = r then some (program r p a) else s.running i }
    | _ => none
  | .finish r =>
    match s.running r with
    | some .done => some { s with running := fun i => if i = r then none else s.running i }
    | _ => none
  | .crash r =>
    match s.running r with
    | some .panic => some { s with running := fun i => if i = r then none else s.running i }
    | _ => none
  | _ => some s

/-- One step of the whole; `none` if it is not possible. -/
def SharedNet.step {σ : Type} (program : Nat → Packet → Address → Act σ) (l : Listener) (s : SharedNet σ) :
    SLabel σ → Option (SharedNet σ)
  | .net x =>
    match l.step s.net x, s.shared.follow program s.net.phase x with
    | some n, some m => some ⟨n, m⟩
    | _, _ => none
  | .touch r =>
    match s.shared.running r with
    | some (.step next change) => some { s with
        shared := ⟨change s.shared.memory, fun i => if i = r then some (next s.shared.memory) else s.shared.running i⟩ }
    | _ => none
  | .other change => some { s with shared := { s.shared with memory := change s.shared.memory } }

/-- An execution. -/
def SharedNet.run {σ : Type} (program : Nat → Packet → Address → Act σ) (l : Listener) (s : SharedNet σ) :
    List (SLabel σ) → Option (SharedNet σ)
  | [] => some s
  | x :: xs =>
    match s.step program l x with
    | some s' => s'.run program l xs
    | none => none

end Ipv8
