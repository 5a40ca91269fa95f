import Verif.Model.Rayon
/-!
# The threads of the pool

`Model/Rayon.lean` has the jobs of one listening thread; here is who executes them.  All listening threads of the
process use rayon's global pool (`networking/mod.rs:133-140`, `lib.rs:56-63`).  What rayon (1.x) does:

* `scope_fifo`, called from outside of the pool, hands its closure to a pool thread and lets the listening thread sleep
  until that is done.  The closure leaves the job of `spawn_fifo` for whoever comes first, and then waits for it.
* A thread that works on a range of receivers either goes through it or halves it: it leaves the second half for
  whoever comes first, works on the first half itself, and then waits for the second.
* A thread that waits does not sleep as long as there are jobs: it takes one, of whichever listening thread, and
  executes it *on top of* what it waits for.  It comes back to its wait only when that job is done.

The last point is what makes this different from `Model/Pool.lean`: a finished wait may be buried under something
unrelated.  Which job is taken is arbitrary here (rayon looks into its own queue first, then into those of other
threads, then at newly injected ones).
-/

namespace Ipv8

/-- What is on the stack of a pool thread.  `k` is the number of the listening thread. -/
inductive Frame
  /-- the closure of `scope_fifo`, waiting for its job -/
  | scope (k : Nat)
  /-- halved a range at `mid`, waits for the half up to `hi` -/
  | join (k mid hi : Nat)
  /-- about to work on a range: will halve it or go through it -/
  | hand (k lo hi : Nat)
  /-- goes through a range that ends at `hi`, perhaps inside of a receiver (see `Task`) -/
  | leaf (k hi : Nat)
  deriving DecidableEq, Repr

/-- A started instance: its listening thread, and where that is. -/
structure RMember where
  listener : Listener
  state : RState

/-- All listening threads of the process and all threads of the pool. -/
structure Workers where
  /-- size of the pool -/
  threads : Nat
  members : List RMember
  /-- what the pool threads are doing, with the number of the thread: newest first.  The stack of a thread is
  what is listed with its number. -/
  frames : List (Nat × Frame)

/-- The jobs of the packet that a listening thread is handing over. -/
def RState.jobs (s : RState) : Option (List Task) :=
  match s.phase with
  | .scope _ _ _ tasks _ => some tasks
  | _ => none

/-- Those of listening thread `k`; `none` if it is not handing over a packet. -/
def Workers.jobs (s : Workers) (k : Nat) : Option (List Task) :=
  match s.members[k]? with
  | some m => m.state.jobs
  | none => none

/-- What thread `w` does right now: the top of its stack. -/
def Workers.top (s : Workers) (w : Nat) : Option Frame := (s.frames.find? fun x => x.1 == w).map (·.2)

/-- A wait, during which other jobs may be executed. -/
def Frame.waits : Frame → Bool
  | .scope _ => true
  | .join _ _ _ => true
  | _ => false

/-- May thread `w` take a job?  If it has nothing to do, or waits.  (Also if what it waits for has just been
done: it may have looked for a job before that.) -/
def Workers.free (s : Workers) (w : Nat) : Bool :=
  decide (w < s.threads) &&
    match s.top w with
    | none => true
    | some f => f.waits

/-- Has the closure of `scope_fifo` of listening thread `k` been begun? -/
def Workers.entered (s : Workers) (k : Nat) : Bool := s.frames.any fun x => x.2 == .scope k

/-- Is somebody about to work on this range? -/
def Workers.taken (s : Workers) (k lo hi : Nat) : Bool := s.frames.any fun x => x.2 == .hand k lo hi

/-- The end of the range of a job. -/
def Task.stop : Task → Nat
  | .pending _ hi => hi
  | .between _ hi => hi
  | .inside _ hi => hi

/-- Is what this wait is for done?  For the second half of a range: no job and no other wait is left in it. -/
def Workers.over (s : Workers) : Frame → Bool
  | .scope k =>
    (s.jobs k == some []) &&
      s.frames.all fun x => match x.2 with
        | .join k' _ _ => k' != k
        | _ => true
  | .join k mid hi =>
    (match s.jobs k with
      | some ts => ts.all fun t => !(decide (mid < t.stop) && decide (t.stop ≤ hi))
      | none => true) &&
      s.frames.all fun x => match x.2 with
        | .join k' mid' hi' => !(k' == k && decide (mid < mid') && decide (hi' ≤ hi))
        | _ => true
  | _ => false

/-- One atomic step.  `w` is the pool thread that makes it. -/
inductive TLabel
  /-- `start` of an instance; these datagrams are already queued in its socket -/
  | launch (l : Listener) (queued : List Datagram)
  /-- a step of listening thread `k` outside of the scope, or of its socket -/
  | io (k : Nat) (x : RLabel)
  /-- begin the closure of `scope_fifo` -/
  | enter (w k : Nat)
  /-- take a range of receivers -/
  | take (w k lo hi : Nat)
  | split (w k lo hi : Nat)
  | begin (w k lo hi : Nat)
  | call (w k r hi : Nat)
  | finish (w k r hi : Nat)
  | crash (w k r hi : Nat)
  | done (w k hi : Nat)
  /-- the wait for the second half of a range is over -/
  | resume (w k mid hi : Nat)
  /-- the wait in the closure of `scope_fifo` is over; the listening thread goes on -/
  | exit (w k : Nat)

/-- Steps outside of the scope. -/
def RLabel.outer : RLabel → Bool
  | .arrive _ => true
  | .pollEvent => true
  | .pollTimeout => true
  | .pollSpurious => true
  | .pollError => true
  | .recv => true
  | .recvError => true
  | _ => false

/-- Listening thread `k` makes a step. -/
def Workers.act (s : Workers) (k : Nat) (x : RLabel) : Option Workers :=
  match s.members[k]? with
  | none => none
  | some m =>
    match m.listener.rstep m.state x with
    | none => none
    | some s' => some { s with members := s.members.set k ⟨m.listener, s'⟩ }

/-- The same, if this is what thread `w` is doing; then its top frame is replaced (newest first;
a frame that is replaced by itself counts as new). -/
def Workers.work (s : Workers) (w : Nat) (f : Frame) (k : Nat) (x : RLabel) (new : List Frame) : Option Workers :=
  if s.top w = some f then
    match s.act k x with
    | none => none
    | some s' => some { s' with frames := new.map (fun g => (w, g)) ++ s.frames.erase (w, f) }
  else none

/-- One step, `networking/mod.rs:122-142` and rayon as described above; `none` if it is not enabled. -/
def Workers.step (s : Workers) : TLabel → Option Workers
  | .launch l queued => some { s with members := s.members ++ [⟨l, l.rinit queued⟩] }
  | .io k x => if x.outer = true then s.act k x else none
  | .enter w k =>
    if s.free w = true ∧ (s.jobs k).isSome = true ∧ s.entered k = false then
      some { s with frames := (w, .scope k) :: s.frames }
    else none
  | .take w k lo hi =>
    match s.jobs k with
    | none => none
    | some ts =>
      if s.free w = true ∧ s.entered k = true ∧ .pending lo hi ∈ ts ∧ s.taken k lo hi = false then
        some { s with frames := (w, .hand k lo hi) :: s.frames }
      else none
  | .split w k lo hi =>
    let mid := lo + (hi - lo) / 2
    s.work w (.hand k lo hi) k (.split lo hi) [.hand k lo mid, .join k mid hi]
  | .begin w k lo hi => s.work w (.hand k lo hi) k (.begin lo hi) [.leaf k hi]
  | .call w k r hi => s.work w (.leaf k hi) k (.call r hi) [.leaf k hi]
  | .finish w k r hi => s.work w (.leaf k hi) k (.finish r hi) [.leaf k hi]
  | .crash w k r hi => s.work w (.leaf k hi) k (.crash r hi) []
  | .done w k hi => s.work w (.leaf k hi) k (.done hi) []
  | .resume w k mid hi =>
    if s.top w = some (.join k mid hi) ∧ s.over (.join k mid hi) = true then
      some { s with frames := s.frames.erase (w, .join k mid hi) }
    else none
  | .exit w k => if s.over (.scope k) = true then s.work w (.scope k) k .join [] else none

/-- Run a list of labels; `none` when one of them is not enabled. -/
def Workers.run (s : Workers) : List TLabel → Option Workers
  | [] => some s
  | x :: xs =>
    match s.step x with
    | some s' => s'.run xs
    | none => none

end Ipv8
