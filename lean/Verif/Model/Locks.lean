import Verif.Model.Deque
/-!
# Receivers that wait: for locks, and for each other

`networking/mod.rs:133-140` calls the receivers from threads of the pool; a receiver that waits keeps the thread it is
called from (rayon knows nothing of locks).  `Model/Deque.lean` has receivers whose atomic sections are always
possible.  Here a receiver, and any other thread of the application, may take and give back locks (`std::sync::Mutex`), and
may wait for a condition on the memory (a channel, a condition variable, a spin loop).
-/

namespace Ipv8

/-- What a call of `on_receive` (`networking/mod.rs:24-27`), or another thread of the application, does with memory of type
`σ`.  Simplification: it ends after finitely many steps, whatever it sees. -/
inductive Deed (σ : Type) where
  /-- it returns -/
  | done
  /-- it panics -/
  | panic
  /-- atomically, the memory is changed by `change`; it goes on with what it found there before -/
  | step (next : σ → Deed σ) (change : σ → σ)
  /-- take lock number `m`; it is told whether the lock is poisoned -/
  | lock (m : Nat) (next : Bool → Deed σ)
  /-- give back lock number `m` -/
  | unlock (m : Nat) (next : Deed σ)
  /-- wait until the memory satisfies `cond` -/
  | await (cond : σ → Bool) (next : Deed σ)

/-- Who: the call of receiver `r` of listening thread `k` (`networking/mod.rs:137`), or a thread of the application that is
not in the pool. -/
inductive Party
  | call (k r : Nat)
  | outside (n : Nat)
  deriving DecidableEq, Repr

/-- The pool with its listening threads, the memory, what everybody has still to do, and the locks: who has which, and
which ones are poisoned (a panic went through their holder). -/
structure Locked (σ : Type) where
  pool : Deques
  memory : σ
  running : Party → Option (Deed σ)
  owner : Nat → Option Party
  poisoned : Nat → Bool

/-- At first: a pool of `n` threads (`lib.rs:56-63`), nothing running, all locks free. -/
def Locked.init {σ : Type} (n : Nat) (memory : σ) : Locked σ :=
  ⟨Deques.init n, memory, fun _ => none, fun _ => none, fun _ => false⟩

/-- One step. -/
inductive LockLabel (σ : Type) where
  /-- of a pool thread, a listening thread or the network -/
  | pool (x : DLabel)
  /-- `h` does the next thing it has to do -/
  | go (h : Party)
  /-- an application thread begins with something -/
  | begin (n : Nat) (deed : Deed σ)
  /-- it has ended -/
  | leave (n : Nat)

/-- `h` has still this to do, or nothing more. -/
def Locked.set {σ : Type} (s : Locked σ) (h : Party) (d : Option (Deed σ)) : Locked σ :=
  { s with running := fun i => if i = h then d else s.running i }

/-- `h` panicked: unwinding gives its locks back, and poisons them. -/
def Locked.unwind {σ : Type} (s : Locked σ) (h : Party) : Locked σ :=
  { s with
    running := fun i => if i = h then none else s.running i
    owner := fun m => if s.owner m = some h then none else s.owner m
    poisoned := fun m => if s.owner m = some h then true else s.poisoned m }

/-- `h` does the next thing; `none` if it cannot, because it has to wait, or has nothing more to do. -/
def Locked.go {σ : Type} (s : Locked σ) (h : Party) : Option (Locked σ) :=
  match s.running h with
  | some (.step next change) => some { (s.set h (some (next s.memory))) with memory := change s.memory }
  | some (.lock m next) =>
    if s.owner m = none then
      some { (s.set h (some (next (s.poisoned m)))) with owner := fun i => if i = m then some h else s.owner i }
    else none
  | some (.unlock m next) =>
    if s.owner m = some h then
      some { (s.set h (some next)) with owner := fun i => if i = m then none else s.owner i }
    else none
  | some (.await cond next) => if cond s.memory = true then some (s.set h (some next)) else none
  | _ => none

/-- What a step of the pool means for what is running: calling a receiver (`networking/mod.rs:137`) begins what it has to do; a
call returns when this is done, and panics when this panics. -/
def Locked.follow {σ : Type} (program : Nat → Nat → Packet → Address → Deed σ) (s : Locked σ) :
    DLabel → Option (Locked σ)
  | .local (.call _ k r _) =>
    match s.pool.workers.packet k with
    | some (p, a) => some (s.set (.call k r) (some (program k r p a)))
    | none => none
  | .local (.finish _ k r _) =>
    match s.running (.call k r) with
    | some .done => some (s.set (.call k r) none)
    | _ => none
  | .local (.crash _ k r _) =>
    match s.running (.call k r) with
    | some .panic => some (s.unwind (.call k r))
    | _ => none
  | _ => some s

/-- One step; `none` if it is not possible. -/
def Locked.step {σ : Type} (program : Nat → Nat → Packet → Address → Deed σ) (s : Locked σ) :
    LockLabel σ → Option (Locked σ)
  | .pool x =>
    match s.pool.step x, s.follow program x with
    | some t, some s' => some { s' with pool := t }
    | _, _ => none
  | .go h => s.go h
  | .begin n deed =>
    match s.running (.outside n) with
    | none => some (s.set (.outside n) (some deed))
    | some _ => none
  | .leave n =>
    match s.running (.outside n) with
    | some .done => some (s.set (.outside n) none)
    | some .panic => some (s.unwind (.outside n))
    | _ => none

/-- An execution. -/
def Locked.run {σ : Type} (program : Nat → Nat → Packet → Address → Deed σ) (s : Locked σ) :
    List (LockLabel σ) → Option (Locked σ)
  | [] => some s
  | x :: xs =>
    match s.step program x with
    | some s' => s'.run program xs
    | none => none

end Ipv8
