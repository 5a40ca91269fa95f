import Verif.Model.Workers
import Verif.Model.Shared
/-!
# The queues of the pool threads

`Model/Workers.lean` leaves open which job a pool thread takes.  rayon (1.x) is more definite: each pool thread has a
queue of the jobs that it has left for whoever comes first.  The thread itself takes the newest one out of its queue; only if its
queue is empty does it steal the oldest one from another thread's queue, or begin with a closure that came from outside of the pool.
(`spawn_fifo` puts its job into this queue too; that it is first-in-first-out among several jobs of the same
scope makes no difference here, since `networking/mod.rs:133-140` leaves one job per scope.)
-/

namespace Ipv8

/-- A range of receivers of listening thread `inst`, up to but without `hi`. -/
structure Job where
  inst : Nat
  lo : Nat
  hi : Nat
  deriving DecidableEq, Repr

/-- Listening threads and pool threads with their queues, newest job first. -/
structure Deques where
  workers : Workers
  queue : Nat → List Job

/-- One step. -/
inductive DLabel
  /-- as in `Workers`; a job is taken out of the own queue -/
  | local (x : TLabel)
  /-- thread `w` steals from thread `v` -/
  | steal (w v k lo hi : Nat)

/-- What becomes of the queues, if this is possible with these queues. `sizes k` is the number of receivers of listening thread `k`
(`networking/mod.rs:136`: the job of `spawn_fifo` has them all). -/
def queueStep (sizes : Nat → Nat) (queue : Nat → List Job) : TLabel → Option (Nat → List Job)
  | .enter w k =>
    if queue w = [] then some fun i => if i = w then [⟨k, 0, sizes k⟩] else queue i
    else none
  | .take w k lo hi =>
    match queue w with
    | [] => none
    | j :: rest => if j = ⟨k, lo, hi⟩ then some fun i => if i = w then rest else queue i else none
  | .split w k lo hi => some fun i => if i = w then ⟨k, lo + (hi - lo) / 2, hi⟩ :: queue w else queue i
  | _ => some queue

/-- How many receivers listening thread `k` has. -/
def Workers.sizes (s : Workers) (k : Nat) : Nat :=
  match s.members[k]? with
  | some m => m.listener.receivers.length
  | none => 0

/-- One step, `networking/mod.rs:122-142` and rayon as described above; `none` if it is not possible. -/
def Deques.step (s : Deques) : DLabel → Option Deques
  | .local x =>
    match s.workers.step x, queueStep s.workers.sizes s.queue x with
    | some t, some q => some ⟨t, q⟩
    | _, _ => none
  | .steal w v k lo hi =>
    if s.queue w = [] ∧ (s.queue v).getLast? = some ⟨k, lo, hi⟩ then
      match s.workers.step (.take w k lo hi) with
      | some t => some ⟨t, fun i => if i = v then (s.queue v).dropLast else s.queue i⟩
      | none => none
    else none

/-- An execution. -/
def Deques.run (s : Deques) : List DLabel → Option Deques
  | [] => some s
  | x :: xs =>
    match s.step x with
    | some s' => s'.run xs
    | none => none

/-- At first: no instance started, `n` idle pool threads (`lib.rs:56-63`). -/
def Deques.init (n : Nat) : Deques := ⟨⟨n, [], []⟩, fun _ => []⟩

/-! ## With memory that the receivers of all instances use -/

/-- A step of pool and threads; an atomic section of the running call of receiver `r` of listening thread `k`; a change by
another part of the application. -/
inductive MemLabel (σ : Type) where
  | pool (x : DLabel)
  | touch (k r : Nat)
  | other (change : σ → σ)

/-- The pool, and the memory that all receivers use, with what the running calls still have to do (by listening thread and
receiver). -/
structure PoolMemory (σ : Type) where
  pool : Deques
  memory : σ
  running : Nat → Nat → Option (Act σ)

/-- The packet that listening thread `k` is handing over. -/
def Workers.packet (s : Workers) (k : Nat) : Option (Packet × Address) :=
  match s.members[k]? with
  | some m =>
    match m.state.phase with
    | .scope _ p a _ _ => some (p, a)
    | _ => none
  | none => none

/-- What a step of the pool means for the programs: calling a receiver (`networking/mod.rs:137`) begins its program, a call
returns when its program does and panics when its program does. -/
def followPool {σ : Type} (program : Nat → Nat → Packet → Address → Act σ) (s : Workers)
    (running : Nat → Nat → Option (Act σ)) : DLabel → Option (Nat → Nat → Option (Act σ))
  | .local (.call _ k r _) =>
    match s.packet k with
    | some (p, a) => some fun i j => if i = k ∧ j = r then some (program k r p a) else running i j
    | none => none
  | .local (.finish _ k r _) =>
    match running k r with
    | some .done => some fun i j => if i = k ∧ j = r then none else running i j
    | _ => none
  | .local (.crash _ k r _) =>
    match running k r with
    | some .panic => some fun i j => if i = k ∧ j = r then none else running i j
    | _ => none
  | _ => some running

/-- One step of the whole; `none` if it is not possible. -/
def PoolMemory.step {σ : Type} (program : Nat → Nat → Packet → Address → Act σ) (s : PoolMemory σ) :
    MemLabel σ → Option (PoolMemory σ)
  | .pool x =>
    match s.pool.step x, followPool program s.pool.workers s.running x with
    | some t, some running => some ⟨t, s.memory, running⟩
    | _, _ => none
  | .touch k r =>
    match s.running k r with
    | some (.step next change) =>
      some { s with
        memory := change s.memory
        running := fun i j => if i = k ∧ j = r then some (next s.memory) else s.running i j }
    | _ => none
  | .other change => some { s with memory := change s.memory }

/-- An execution. -/
def PoolMemory.run {σ : Type} (program : Nat → Nat → Packet → Address → Act σ) (s : PoolMemory σ) :
    List (MemLabel σ) → Option (PoolMemory σ)
  | [] => some s
  | x :: xs =>
    match s.step program x with
    | some s' => s'.run program xs
    | none => none

end Ipv8
