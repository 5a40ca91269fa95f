import Verif.Model.Locks
/-!
# Receivers that use the pool themselves

`lib.rs:56-63` builds rayon's global pool and `networking/mod.rs:133-140` calls the receivers from its threads.  A receiver, and any
other part of the application, may use the same pool with `rayon::join`, `par_iter` and the like, and wait for the
result; `Model/Deque.lean` and `Model/Locks.lean` have no such receivers.  Here there is no difference between the crate's own use of
the pool and the application's: a hand-over of a packet is a tree of joins with the receivers' calls at its leaves (`HandsOver`), begun by
the listening thread, which is not a thread of the pool, with a scope (`Chore.spawn`).
-/

namespace Ipv8

/-- What a job does with memory of type `σ`.  Simplification: it ends after finitely many steps of its own, whatever it
sees. -/
inductive Chore (σ : Type) where
  /-- it returns -/
  | done
  /-- it panics -/
  | panic
  /-- atomically, the memory is changed by `change`; it goes on with what it found there before -/
  | step (next : σ → Chore σ) (change : σ → σ)
  /-- take lock number `m`; it is told whether the lock is poisoned -/
  | lock (m : Nat) (next : Bool → Chore σ)
  /-- give back lock number `m` -/
  | unlock (m : Nat) (next : Chore σ)
  /-- `rayon::join(a, b)`, then `next` (what `a` and `b` return goes through the memory) -/
  | both (a b next : Chore σ)
  /-- `rayon::scope` with one `spawn(c)` in it (`scope_fifo` and `spawn_fifo` of `networking/mod.rs:133-134`), then `next` -/
  | spawn (c next : Chore σ)

/-- Where a job is in its life. -/
inductive JobState (σ : Type) where
  /-- in a queue -/
  | queued (chore : Chore σ)
  /-- on the stack of a thread; it goes on with `chore` when the jobs in `waits` have ended -/
  | running (chore : Chore σ) (waits : List Nat)
  /-- ended, by returning (`true`) or by a panic -/
  | ended (well : Bool)

/-- Threads `0, …, threads - 1` are those of the pool (`lib.rs:56-63`), all others are outside: listening threads
(`networking/mod.rs:91-96`) and threads of the application. -/
structure Nested (σ : Type) where
  threads : Nat
  /-- all jobs there ever were; a job is its index -/
  jobs : List (JobState σ)
  /-- the jobs on the stack of a thread, innermost first -/
  stack : Nat → List Nat
  /-- the jobs in the queue of a thread of the pool, youngest first -/
  deque : Nat → List Nat
  /-- the jobs put into the pool from outside, oldest first -/
  injector : List Nat
  memory : σ
  /-- the locks: which job has which -/
  owner : Nat → Option Nat
  poisoned : Nat → Bool

/-- At first: a pool of `n` threads, no jobs. -/
def Nested.init {σ : Type} (n : Nat) (memory : σ) : Nested σ :=
  ⟨n, [], fun _ => [], fun _ => [], [], memory, fun _ => none, fun _ => false⟩

/-- One step. -/
inductive NestLabel (σ : Type) where
  /-- outside thread `w` begins with something -/
  | begin (w : Nat) (chore : Chore σ)
  /-- thread `w` goes on with its innermost job -/
  | go (w : Nat)
  /-- thread `w` of the pool takes a job from the queue of thread `v`, or (`none`) one from outside -/
  | take (w : Nat) (source : Option Nat)

/-- Job `j` has ended. -/
def Nested.over {σ : Type} (s : Nested σ) (j : Nat) : Bool :=
  match s.jobs[j]? with
  | some (.ended _) => true
  | _ => false

/-- Job `j` has returned. -/
def Nested.fine {σ : Type} (s : Nested σ) (j : Nat) : Bool :=
  match s.jobs[j]? with
  | some (.ended b) => b
  | _ => false

/-- Thread `w` has now this stack. -/
def Nested.setStack {σ : Type} (s : Nested σ) (w : Nat) (l : List Nat) : Nested σ :=
  { s with stack := fun v => if v = w then l else s.stack v }

/-- Thread `w` has now this queue. -/
def Nested.setDeque {σ : Type} (s : Nested σ) (w : Nat) (l : List Nat) : Nested σ :=
  { s with deque := fun v => if v = w then l else s.deque v }

/-- Job `i` is now in this state. -/
def Nested.setJob {σ : Type} (s : Nested σ) (i : Nat) (x : JobState σ) : Nested σ :=
  { s with jobs := s.jobs.set i x }

/-- What thread `w` does next with its innermost job `i`, which has still `c` to do and waits for nothing; `rest` is the
stack below.  A join (`rayon_core::join`) in a thread of the pool puts the second half into the thread's queue and begins with the
first on top of the stack; a scope puts the job spawned in it into the thread's queue.  Anywhere else both become jobs that are put
into the pool.  Simplification: jobs spawned with `spawn_fifo` are taken like others.  The end of a job by a panic gives its
locks back, and poisons them. -/
def Nested.advance {σ : Type} (s : Nested σ) (w i : Nat) (rest : List Nat) : Chore σ → Option (Nested σ)
  | .step next change => some { (s.setJob i (.running (next s.memory) [])) with memory := change s.memory }
  | .lock m next =>
    if s.owner m = none then
      some { (s.setJob i (.running (next (s.poisoned m)) [])) with
        owner := fun l => if l = m then some i else s.owner l }
    else none
  | .unlock m next =>
    if s.owner m = some i then
      some { (s.setJob i (.running next [])) with owner := fun l => if l = m then none else s.owner l }
    else none
  | .both a b next =>
    let j := s.jobs.length
    if w < s.threads then
      let t := (s.setStack w ((j + 1) :: i :: rest)).setDeque w (j :: s.deque w)
      some { t with jobs := s.jobs.set i (.running next [j, j + 1]) ++ [.queued b, .running a []] }
    else
      some { s with
        jobs := s.jobs.set i (.running next [j]) ++ [.queued (.both a b .done)]
        injector := s.injector ++ [j] }
  | .spawn c next =>
    let j := s.jobs.length
    if w < s.threads then
      some { (s.setDeque w (j :: s.deque w)) with jobs := s.jobs.set i (.running next [j]) ++ [.queued c] }
    else
      some { s with
        jobs := s.jobs.set i (.running next [j]) ++ [.queued (.spawn c .done)]
        injector := s.injector ++ [j] }
  | .done => some ((s.setJob i (.ended true)).setStack w rest)
  | .panic =>
    some { ((s.setJob i (.ended false)).setStack w rest) with
      owner := fun l => if s.owner l = some i then none else s.owner l
      poisoned := fun l => if s.owner l = some i then true else s.poisoned l }

/-- Thread `w` goes on with its innermost job.  A join is over when both halves have ended; if one panicked, so does the
join. -/
def Nested.go {σ : Type} (s : Nested σ) (w : Nat) : Option (Nested σ) :=
  match s.stack w with
  | [] => none
  | i :: rest =>
    match s.jobs[i]? with
    | some (.running c []) => s.advance w i rest c
    | some (.running c (j :: js)) =>
      if (j :: js).all s.over then
        some (s.setJob i (.running (if (j :: js).all s.fine then c else .panic) []))
      else none
    | _ => none

/-- Thread `w` of the pool has time for another job: its stack is empty, or its innermost job waits for others that have not
all ended. -/
def Nested.free {σ : Type} (s : Nested σ) (w : Nat) : Bool :=
  decide (w < s.threads) &&
    match s.stack w with
    | [] => true
    | i :: _ =>
      match s.jobs[i]? with
      | some (.running _ (j :: js)) => !(j :: js).all s.over
      | _ => false

/-- Thread `w` begins with job `j` from a queue. -/
def Nested.start {σ : Type} (s : Nested σ) (w j : Nat) : Option (Nested σ) :=
  match s.jobs[j]? with
  | some (.queued c) => some ((s.setJob j (.running c [])).setStack w (j :: s.stack w))
  | _ => none

/-- Thread `w` of the pool takes another job, on top of its stack: the youngest of its own queue; if that is empty the oldest
of another thread, or the oldest from outside.  Simplification: rayon looks at the jobs from outside last. -/
def Nested.take {σ : Type} (s : Nested σ) (w : Nat) (source : Option Nat) : Option (Nested σ) :=
  if s.free w = true then
    match s.deque w, source with
    | j :: rest, some v => if v = w then (s.setDeque w rest).start w j else none
    | _ :: _, none => none
    | [], some v =>
      match (s.deque v).getLast? with
      | some j => (s.setDeque v (s.deque v).dropLast).start w j
      | none => none
    | [], none =>
      match s.injector with
      | j :: rest => Nested.start { s with injector := rest } w j
      | [] => none
  else none

/-- One step; `none` if it is not possible. -/
def Nested.step {σ : Type} (s : Nested σ) : NestLabel σ → Option (Nested σ)
  | .begin w c =>
    if s.threads ≤ w ∧ s.stack w = [] then
      some { (s.setStack w [s.jobs.length]) with jobs := s.jobs ++ [.running c []] }
    else none
  | .go w => s.go w
  | .take w source => s.take w source

/-- An execution. -/
def Nested.run {σ : Type} (s : Nested σ) : List (NestLabel σ) → Option (Nested σ)
  | [] => some s
  | x :: xs =>
    match s.step x with
    | some s' => s'.run xs
    | none => none

/-- First `c`, then `d`. -/
def Chore.andThen {σ : Type} : Chore σ → Chore σ → Chore σ
  | .done, d => d
  | .panic, _ => .panic
  | .step next change, d => .step (fun v => (next v).andThen d) change
  | .lock m next, d => .lock m (fun b => (next b).andThen d)
  | .unlock m next, d => .unlock m (next.andThen d)
  | .both a b next, d => .both a b (next.andThen d)
  | .spawn c next, d => .spawn c (next.andThen d)

/-- The ways in which a packet is handed over to receivers whose calls do `calls` (`networking/mod.rs:133-140`,
`par_iter().for_each`): one call after the other, or the calls are divided into two halves that are joined. -/
inductive HandsOver {σ : Type} : List (Chore σ) → Chore σ → Prop
  | inOrder (calls : List (Chore σ)) : HandsOver calls (calls.foldr Chore.andThen .done)
  | halves (calls : List (Chore σ)) (a b : Chore σ) :
      HandsOver (calls.take (calls.length / 2)) a → HandsOver (calls.drop (calls.length / 2)) b →
      HandsOver calls (.both a b .done)

end Ipv8
