import Verif.Model.Deque
import Verif.Props.WorkersPool
import Verif.Props.Crash
/-!
# C105: a pool of one thread

`Config::threadcount` of one makes everything that receivers do sequential.
-/

namespace Ipv8
open Spec

variable {σ : Type}

/-! ## Specification -/

/-- A packet is handed out by listening thread `inst`: these receivers are called with it, in this order, each returning before the
next one is called. -/
structure Round where
  inst : Nat
  packet : Packet
  address : Address
  called : List Nat

/-- What this looks like in the history of the listening thread. -/
def Round.events (r : Round) : List Ev :=
  .taken r.packet r.address :: r.called.flatMap fun i => [.call i r.packet r.address, .ret i]

/-- What it does to memory. -/
def Round.effect (program : Nat → Nat → Packet → Address → Act σ) (r : Round) (m : σ) : σ :=
  r.called.foldl (fun m i => (program r.inst i r.packet r.address).alone m) m

/-- The rounds of one listening thread. -/
def roundsOf (k : Nat) (order : List Round) : List Round := order.filter fun r => r.inst == k

/-- Every receiver has its turn, in the order of registration. -/
def Round.full (n : Nat) (r : Round) : Prop := r.called = List.range n

/-- The history of a listening thread whose packets have been handed out completely. -/
def past (k : Nat) (order : List Round) : List Ev := (roundsOf k order).flatMap Round.events

/-- In all rounds of listening thread `k`, which has `n` receivers, every receiver has its turn. -/
def FullIn (order : List Round) (k n : Nat) : Prop := ∀ r ∈ order, r.inst = k → r.full n

/-- In all but its last one. -/
def AlmostFull (order : List Round) (k n : Nat) : Prop := ∀ r ∈ (roundsOf k order).dropLast, r.full n

/-- What can be seen of the calls, in the order of time and for all instances together: receiver `r` of listening
thread `k` is called, has returned (or panicked). -/
inductive CallMark
  | began (k r : Nat)
  | over (k r : Nat)
  deriving DecidableEq, Repr

/-- What can be seen of a step. -/
def DLabel.mark : DLabel → Option CallMark
  | .local (.call _ k r _) => some (.began k r)
  | .local (.finish _ k r _) => some (.over k r)
  | .local (.crash _ k r _) => some (.over k r)
  | _ => none

/-- What can be seen of a step. -/
def MemLabel.mark : MemLabel σ → Option CallMark
  | .pool x => x.mark
  | _ => none

/-- What can be seen of a round. -/
def Round.marks (r : Round) : List CallMark := r.called.flatMap fun i => [.began r.inst i, .over r.inst i]

/-- A round that is not yet over, with the receiver that is at work, if there is one. -/
structure Current where
  round : Round
  inside : Option Nat

/-- What has been seen of it. -/
def Current.marks (c : Current) : List CallMark := c.round.marks ++ (c.inside.map fun i => .began c.round.inst i).toList

/-- What is in the history of its listening thread. -/
def Current.events (c : Current) : List Ev :=
  c.round.events ++ (c.inside.map fun i => .call i c.round.packet c.round.address).toList

/-- Everything goes by one sequence of rounds: packets are handed out one after the other, whichever instance they belong to,
to one receiver after the other, and each call is over before the next one begins. -/
structure Sequential (s : Workers) (marks : List CallMark) (order : List Round) (now : Option Current) : Prop where
  /-- everything that can be seen of the calls is that, in the order of time -/
  calls : marks = order.flatMap Round.marks ++ (now.map Current.marks).getD []
  /-- receivers have their turns in the order of registration, none twice -/
  turns : ∀ r ∈ order, ∃ m, s.members[r.inst]? = some m ∧ r.called.Sublist (List.range m.listener.receivers.length)
  /-- the history of the instance whose packet is being handed out -/
  working : ∀ c, now = some c → ∃ m, s.members[c.round.inst]? = some m ∧ m.state.jobs.isSome = true ∧
    m.state.trace = past c.round.inst order ++ c.events ∧ FullIn order c.round.inst m.listener.receivers.length ∧
    (c.round.called ++ c.inside.toList).Sublist (List.range m.listener.receivers.length)
  /-- that of another one: its rounds, if need be with a packet with which nothing has happened yet.  No receiver is left
  out, except in the last round of an instance that a panic stops. -/
  resting : ∀ k m, s.members[k]? = some m → (∀ c, now = some c → c.round.inst ≠ k) →
    (m.state.trace = past k order ∨ m.state.jobs.isSome = true ∧ ∃ p a, m.state.trace = past k order ++ [.taken p a]) ∧
    AlmostFull order k m.listener.receivers.length ∧
    (m.state.jobs = none → m.state.phase ≠ .stopped .receiverPanic → FullIn order k m.listener.receivers.length)

/-! ## Executions -/

theorem Deques.run_append (s : Deques) (a b : List DLabel) :
    s.run (a ++ b) = (s.run a).bind fun s' => s'.run b := by
  induction a generalizing s with
  | nil => rfl
  | cons x a ih =>
    simp only [List.cons_append, Deques.run]
    cases s.step x with
    | none => rfl
    | some s' => exact ih s'

theorem Deques.run_induction (s0 : Deques) (P : List DLabel → Deques → Prop) (h0 : P [] s0)
    (hs : ∀ ls s x s', s0.run ls = some s → P ls s → s.step x = some s' → P (ls ++ [x]) s') :
    ∀ ls s, s0.run ls = some s → P ls s := by
  intro ls
  induction hn : ls.length generalizing ls with
  | zero =>
    intro s h
    have : ls = [] := List.length_eq_zero_iff.mp hn
    subst this
    simp only [Deques.run, Option.some.injEq] at h
    subst h
    exact h0
  | succ n ih =>
    intro s h
    obtain ⟨pre, x, rfl⟩ : ∃ pre x, ls = pre ++ [x] :=
      ⟨ls.dropLast, ls.getLast (by intro e; simp [e] at hn), (List.dropLast_concat_getLast _).symm⟩
    rw [Deques.run_append] at h
    cases hp : s0.run pre with
    | none => simp [hp] at h
    | some m =>
      simp only [hp, Option.bind_some, Deques.run] at h
      cases hx : m.step x with
      | none => simp [hx] at h
      | some m' =>
        simp only [hx, Option.some.injEq] at h
        subst h
        exact hs pre m x m' hp (ih pre (by simpa using hn) m hp) hx

/-- The step without the queues. -/
def DLabel.plain : DLabel → TLabel
  | .local x => x
  | .steal w _ k lo hi => .take w k lo hi

theorem Deques.step_plain {s s' : Deques} {x : DLabel} (h : s.step x = some s') :
    s.workers.step x.plain = some s'.workers := by
  cases x with
  | «local» x =>
    simp only [Deques.step] at h
    split at h
    · rename_i h1 _
      cases h
      exact h1
    · cases h
  | steal w v k lo hi =>
    simp only [Deques.step] at h
    split at h
    · split at h
      · rename_i h1
        cases h
        exact h1
      · cases h
    · cases h

/-- C105. Queues only restrict what pool threads may do: without them, every execution is one of the pool of C89, so that everything
that holds there (C89, C90, C96) holds here. -/
theorem C105_refines (n : Nat) (ls : List DLabel) (s : Deques) (h : (Deques.init n).run ls = some s) :
    (Workers.mk n [] []).run (ls.map DLabel.plain) = some s.workers := by
  refine Deques.run_induction (Deques.init n) (fun ls s => (Workers.mk n [] []).run (ls.map DLabel.plain) = some s.workers)
    rfl ?_ ls s h
  intro ls s x s' _ hp hx
  rw [List.map_append, Workers.run_append, hp]
  simp [Workers.run, Deques.step_plain hx]

theorem Deques.good {n : Nat} {ls : List DLabel} {s : Deques} (h : (Deques.init n).run ls = some s) :
    s.workers.threads = n ∧ s.workers.Good := Workers.good n _ _ (C105_refines n ls s h)

/-! ## The invariant for one thread -/

/-- How far the thread is with the packet. -/
inductive Stage
  /-- has taken the receivers from `lo` to `c` -/
  | hand (lo c : Nat)
  /-- goes through those up to `c`, `r` is next -/
  | walk (r c : Nat)
  /-- the same, in the call of `r` -/
  | call (r c : Nat)
  /-- is at `c` -/
  | wait (c : Nat)

/-- Where what is in the queue begins. -/
def Stage.stop : Stage → Nat
  | .hand _ c => c
  | .walk _ c => c
  | .call _ c => c
  | .wait c => c

/-- Receivers before this one have had their turn. -/
def Stage.before : Stage → Nat
  | .hand lo _ => lo
  | .walk r _ => r
  | .call r _ => r
  | .wait c => c

def Stage.tasks : Stage → List Task
  | .hand lo c => [.pending lo c]
  | .walk r c => [.between r c]
  | .call r c => [.inside r c]
  | .wait _ => []

/-- The receiver that is at work. -/
def Stage.inside : Stage → Option Nat
  | .call r _ => some r
  | _ => none

/-- The packet being handed out. -/
structure Busy where
  round : Round
  stage : Stage
  rest : List (Nat × Nat)

/-- The ranges follow each other, from here to there. -/
def Chain : Nat → List (Nat × Nat) → Nat → Prop
  | c, [], n => c = n
  | c, (lo, hi) :: R, n => lo = c ∧ lo ≤ hi ∧ Chain hi R n

theorem Chain.le {c n : Nat} {R : List (Nat × Nat)} (h : Chain c R n) : c ≤ n := by
  induction R generalizing c with
  | nil => exact Nat.le_of_eq h
  | cons x R ih =>
    obtain ⟨h1, h2, h3⟩ := h
    have := ih h3
    omega

/-- All before `x` have been called, in order, but after a panic perhaps not all. -/
def Through (pan : Bool) (x : Nat) (rs : List Nat) : Prop :=
  rs.Sublist (List.range x) ∧ (pan = false → rs = List.range x)

/-- A listening thread of whose packet (if any) nothing or everything has been handed out. -/
def AtRest (entered : Bool) (order : List Round) (k : Nat) (m : RMember) : Prop :=
  match m.state.phase with
  | .scope _ p a ts pan =>
    if entered then ts = [] ∧ m.state.trace = past k order ∧ (pan = false → FullIn order k m.listener.receivers.length) ∧
      AlmostFull order k m.listener.receivers.length
    else ts = [.pending 0 m.listener.receivers.length] ∧ pan = false ∧ m.state.trace = past k order ++ [.taken p a] ∧
      FullIn order k m.listener.receivers.length
  | .stopped .receiverPanic => m.state.trace = past k order ∧ AlmostFull order k m.listener.receivers.length
  | _ => m.state.trace = past k order ∧ FullIn order k m.listener.receivers.length

def pendings (R : List (Nat × Nat)) : List Task := R.map fun x => .pending x.1 x.2

/-- A listening thread whose packet is being handed out. -/
structure Working (order : List Round) (b : Busy) (m : RMember) : Prop where
  phase : ∃ e pan, m.state.phase = .scope e b.round.packet b.round.address (b.stage.tasks ++ pendings b.rest) pan ∧
    Through pan b.stage.before b.round.called
  full : FullIn order b.round.inst m.listener.receivers.length
  chain : Chain b.stage.stop b.rest m.listener.receivers.length
  trace : m.state.trace = past b.round.inst order ++ b.round.events ++
    match b.stage.inside with
    | some r => [.call r b.round.packet b.round.address]
    | none => []
  le : b.stage.before ≤ b.stage.stop
  wait : ∀ c, b.stage = .wait c → b.rest ≠ []

/-- What the pool thread is doing. -/
def TopOk (s : Workers) : Option Busy → Prop
  | none => ∀ g, (0, g) ∈ s.frames → g.waits = true
  | some b =>
    match b.stage with
    | .hand lo c => s.top 0 = some (.hand b.round.inst lo c)
    | .walk _ c => s.top 0 = some (.leaf b.round.inst c)
    | .call _ c => s.top 0 = some (.leaf b.round.inst c)
    | .wait _ => ∀ g, (0, g) ∈ s.frames → g.waits = true

/-- The queue of the pool thread. -/
def queued : Option Busy → List Job
  | none => []
  | some b => b.rest.map fun x => ⟨b.round.inst, x.1, x.2⟩

structure One (order : List Round) (busy : Option Busy) (s : Deques) : Prop where
  threads : s.workers.threads = 1
  good : s.workers.Good
  others : ∀ v, v ≠ 0 → s.queue v = []
  queue : s.queue 0 = queued busy
  top : TopOk s.workers busy
  work : ∀ b, busy = some b → s.workers.entered b.round.inst = true ∧
    ∃ m, s.workers.members[b.round.inst]? = some m ∧ Working order b m
  rest : ∀ k m, s.workers.members[k]? = some m → (∀ b, busy = some b → b.round.inst ≠ k) →
    AtRest (s.workers.entered k) order k m
  bound : ∀ r ∈ order, ∃ m, s.workers.members[r.inst]? = some m ∧ r.called.Sublist (List.range m.listener.receivers.length)

/-! ## What a step does to it -/

/-- A call of a receiver. -/
abbrev CallOf := Nat × Nat × Packet × Address

def Round.calls (r : Round) : List CallOf := r.called.map fun i => (r.inst, i, r.packet, r.address)

/-- The calls that have ended, in their order. -/
def ended (order : List Round) (busy : Option Busy) : List CallOf :=
  order.flatMap Round.calls ++
    match busy with
    | some b => b.round.calls
    | none => []

/-- The call that has not. -/
def ongoing : Option Busy → Option CallOf
  | some b => b.stage.inside.map fun r => (b.round.inst, r, b.round.packet, b.round.address)
  | none => none

/-- What the step means for the calls. -/
def Linked (s : Workers) (x : DLabel) (order : List Round) (busy : Option Busy) (order' : List Round)
    (busy' : Option Busy) : Prop :=
  match x with
  | .local (.call _ k r _) => ended order' busy' = ended order busy ∧ ongoing busy = none ∧
      ∃ p a, s.packet k = some (p, a) ∧ ongoing busy' = some (k, r, p, a)
  | .local (.finish _ k r _) => ongoing busy' = none ∧
      ∃ p a, ongoing busy = some (k, r, p, a) ∧ ended order' busy' = ended order busy ++ [(k, r, p, a)]
  | .local (.crash _ k r _) => ongoing busy' = none ∧
      ∃ p a, ongoing busy = some (k, r, p, a) ∧ ended order' busy' = ended order busy ++ [(k, r, p, a)]
  | _ => ended order' busy' = ended order busy ∧ ongoing busy' = ongoing busy

theorem entered_iff {s : Workers} {k : Nat} : s.entered k = true ↔ ∃ w, (w, .scope k) ∈ s.frames := by
  simp only [Workers.entered, List.any_eq_true, beq_iff_eq]
  constructor
  · rintro ⟨⟨w, f⟩, h1, h2⟩
    simp only at h2
    subst h2
    exact ⟨w, h1⟩
  · rintro ⟨w, h⟩
    exact ⟨_, h, rfl⟩

theorem entered_congr {s s' : Workers} {k : Nat} (h : ∀ w, (w, .scope k) ∈ s'.frames ↔ (w, .scope k) ∈ s.frames) :
    s'.entered k = s.entered k := by
  rw [Bool.eq_iff_iff, entered_iff, entered_iff]
  exact ⟨fun ⟨w, hw⟩ => ⟨w, (h w).mp hw⟩, fun ⟨w, hw⟩ => ⟨w, (h w).mpr hw⟩⟩

theorem entered_work {s s' : Workers} {w k : Nat} {f : Frame} {new : List Frame} (hg : s.Good) (hf : s.top w = some f)
    (hF : s'.frames = new.map (fun g => (w, g)) ++ s.frames.erase (w, f)) (h1 : ∀ k, f ≠ .scope k)
    (h2 : ∀ k, .scope k ∉ new) : s'.entered k = s.entered k := by
  apply entered_congr
  intro v
  rw [hF, List.mem_append, hg.stacks.mem_erase (Workers.top_mem hf)]
  constructor
  · rintro (h | h)
    · obtain ⟨g, h3, h4⟩ := List.mem_map.mp h
      simp only [Prod.mk.injEq] at h4
      rw [h4.2] at h3
      exact absurd h3 (h2 k)
    · exact h.1
  · intro h
    exact .inr ⟨h, fun he => h1 k he.symm⟩

theorem past_append {k : Nat} {order : List Round} {r : Round} :
    past k (order ++ [r]) = if r.inst = k then past k order ++ r.events else past k order := by
  unfold past roundsOf
  by_cases h : r.inst = k <;> simp [List.filter_append, h]

theorem FullIn.append_ne {k n : Nat} {order : List Round} {r : Round} (h : FullIn order k n) (hr : r.inst ≠ k) :
    FullIn (order ++ [r]) k n := by
  intro x hx hk
  rcases List.mem_append.mp hx with hx | hx
  · exact h x hx hk
  · simp only [List.mem_singleton] at hx
    subst hx
    exact absurd hk hr

theorem FullIn.append_full {k n : Nat} {order : List Round} {r : Round} (h : FullIn order k n) (hr : r.full n) :
    FullIn (order ++ [r]) k n := by
  intro x hx hk
  rcases List.mem_append.mp hx with hx | hx
  · exact h x hx hk
  · simp only [List.mem_singleton] at hx
    subst hx
    exact hr

theorem FullIn.almost {k n : Nat} {order : List Round} (h : FullIn order k n) : AlmostFull order k n := by
  intro r hr
  have := List.mem_filter.mp ((List.dropLast_sublist _).subset hr)
  exact h r this.1 (by simpa using this.2)

theorem FullIn.almost_append {k n : Nat} {order : List Round} (h : FullIn order k n) {r : Round} (hr : r.inst = k) :
    AlmostFull (order ++ [r]) k n := by
  intro x hx
  simp only [roundsOf, List.filter_append, hr, List.filter_cons, beq_self_eq_true, if_true, List.filter_nil,
    List.dropLast_concat] at hx
  have := List.mem_filter.mp hx
  exact h x this.1 (by simpa using this.2)

theorem AlmostFull.append_ne {k n : Nat} {order : List Round} {r : Round} (h : AlmostFull order k n) (hr : r.inst ≠ k) :
    AlmostFull (order ++ [r]) k n := by
  intro x hx
  refine h x ?_
  simpa [roundsOf, List.filter_append, hr] using hx

theorem AtRest.append_ne {en : Bool} {order : List Round} {k : Nat} {m : RMember} {r : Round}
    (h : AtRest en order k m) (hr : r.inst ≠ k) : AtRest en (order ++ [r]) k m := by
  unfold AtRest at h ⊢
  rw [past_append, if_neg hr]
  cases hp : m.state.phase with
  | scope e p a ts pan =>
    simp only [hp] at h ⊢
    cases en
    · simp only [Bool.false_eq_true, if_false] at h ⊢
      exact ⟨h.1, h.2.1, h.2.2.1, h.2.2.2.append_ne hr⟩
    · simp only [if_true] at h ⊢
      exact ⟨h.1, h.2.1, fun hpan => (h.2.2.1 hpan).append_ne hr, h.2.2.2.append_ne hr⟩
  | stopped c => cases c <;> simp only [hp] at h ⊢ <;> first | exact h | exact ⟨h.1, h.2.append_ne hr⟩
  | polling => simp only [hp] at h ⊢; exact ⟨h.1, h.2.append_ne hr⟩
  | handling => simp only [hp] at h ⊢; exact ⟨h.1, h.2.append_ne hr⟩

/-- The packet in hand goes on being handed out. -/
theorem One.keep {order : List Round} {b b' : Busy} {s s' : Deques} (h : One order (some b) s) {m : RMember} {t : RState}
    (hm : s.workers.members[b.round.inst]? = some m) (hth : s'.workers.threads = s.workers.threads)
    (hmem : s'.workers.members = s.workers.members.set b.round.inst ⟨m.listener, t⟩) (hg : s'.workers.Good)
    (he : ∀ j, s'.workers.entered j = s.workers.entered j) (hothers : ∀ v, v ≠ 0 → s'.queue v = [])
    (hq : s'.queue 0 = queued (some b')) (hb : b'.round.inst = b.round.inst) (htop : TopOk s'.workers (some b'))
    (hw : Working order b' ⟨m.listener, t⟩) : One order (some b') s' := by
  have hlt : b.round.inst < s.workers.members.length := (List.getElem?_eq_some_iff.mp hm).1
  refine ⟨hth.trans h.threads, hg, hothers, hq, htop, ?_, ?_, ?_⟩
  · rintro b1 hb1
    cases hb1
    rw [hb]
    refine ⟨by rw [he]; exact (h.work b rfl).1, _, ?_, hw⟩
    rw [hmem, List.getElem?_set_self hlt]
  · intro k m' hm' hne
    have hk : b.round.inst ≠ k := by rw [← hb]; exact hne b' rfl
    rw [hmem, List.getElem?_set_ne hk] at hm'
    rw [he]
    exact h.rest k m' hm' (fun b1 hb1 => by cases hb1; exact hk)
  · intro r hr
    obtain ⟨m1, h1, h2⟩ := h.bound r hr
    rw [hmem]
    by_cases hk : b.round.inst = r.inst
    · rw [← hk, List.getElem?_set_self hlt]
      rw [← hk, hm] at h1
      cases h1
      exact ⟨_, rfl, h2⟩
    · rw [List.getElem?_set_ne hk]
      exact ⟨m1, h1, h2⟩

/-- The packet in hand has been handed out. -/
theorem One.close {order : List Round} {b : Busy} {r : Round} {s s' : Deques} (h : One order (some b) s) {m : RMember}
    {t : RState} (hm : s.workers.members[b.round.inst]? = some m) (hth : s'.workers.threads = s.workers.threads)
    (hmem : s'.workers.members = s.workers.members.set b.round.inst ⟨m.listener, t⟩) (hg : s'.workers.Good)
    (he : ∀ j, s'.workers.entered j = s.workers.entered j) (hothers : ∀ v, v ≠ 0 → s'.queue v = [])
    (hq : s'.queue 0 = []) (hr : r.inst = b.round.inst) (htop : ∀ g, (0, g) ∈ s'.workers.frames → g.waits = true)
    (hsub : r.called.Sublist (List.range m.listener.receivers.length))
    (hw : AtRest true (order ++ [r]) b.round.inst ⟨m.listener, t⟩) : One (order ++ [r]) none s' := by
  have hlt : b.round.inst < s.workers.members.length := (List.getElem?_eq_some_iff.mp hm).1
  refine ⟨hth.trans h.threads, hg, hothers, hq, htop, by simp, ?_, ?_⟩
  · intro k m' hm' _
    rw [he]
    by_cases hk : b.round.inst = k
    · subst hk
      rw [hmem, List.getElem?_set_self hlt] at hm'
      cases hm'
      rw [(h.work b rfl).1]
      exact hw
    · rw [hmem, List.getElem?_set_ne hk] at hm'
      exact (h.rest k m' hm' (fun b1 hb1 => by cases hb1; exact hk)).append_ne (by rw [hr]; exact hk)
  · intro x hx
    rw [hmem]
    rcases List.mem_append.mp hx with hx | hx
    · obtain ⟨m1, h1, h2⟩ := h.bound x hx
      by_cases hk : b.round.inst = x.inst
      · rw [← hk, List.getElem?_set_self hlt]
        rw [← hk, hm] at h1
        cases h1
        exact ⟨_, rfl, h2⟩
      · rw [List.getElem?_set_ne hk]
        exact ⟨m1, h1, h2⟩
    · simp only [List.mem_singleton] at hx
      subst hx
      rw [hr, List.getElem?_set_self hlt]
      exact ⟨_, rfl, hsub⟩

theorem One.worker {order : List Round} {busy : Option Busy} {s : Deques} (h : One order busy s) {w : Nat} {f : Frame}
    (hf : s.workers.top w = some f) : w = 0 := by
  have := h.good.stacks.owner _ (Workers.top_mem hf)
  rw [h.threads] at this
  simp only at this
  omega

theorem One.hand {order : List Round} {busy : Option Busy} {s : Deques} (h : One order busy s) {k lo hi : Nat}
    (hf : s.workers.top 0 = some (.hand k lo hi)) : ∃ b, busy = some b ∧ b.round.inst = k ∧ b.stage = .hand lo hi := by
  have ht := h.top
  cases busy with
  | none => exact absurd (ht _ (Workers.top_mem hf)) (by simp [Frame.waits])
  | some b =>
    refine ⟨b, rfl, ?_⟩
    unfold TopOk at ht
    cases hs : b.stage with
    | hand lo' c =>
      simp only [hs, hf, Option.some.injEq, Frame.hand.injEq] at ht
      obtain ⟨rfl, rfl, rfl⟩ := ht
      exact ⟨rfl, rfl⟩
    | walk r c => simp only [hs, hf] at ht; simp at ht
    | call r c => simp only [hs, hf] at ht; simp at ht
    | wait c => simp only [hs] at ht; exact absurd (ht _ (Workers.top_mem hf)) (by simp [Frame.waits])

theorem One.leaf {order : List Round} {busy : Option Busy} {s : Deques} (h : One order busy s) {k hi : Nat}
    (hf : s.workers.top 0 = some (.leaf k hi)) :
    ∃ b, busy = some b ∧ b.round.inst = k ∧ ∃ r, b.stage = .walk r hi ∨ b.stage = .call r hi := by
  have ht := h.top
  cases busy with
  | none => exact absurd (ht _ (Workers.top_mem hf)) (by simp [Frame.waits])
  | some b =>
    refine ⟨b, rfl, ?_⟩
    unfold TopOk at ht
    cases hs : b.stage with
    | hand lo' c => simp only [hs, hf] at ht; simp at ht
    | walk r c =>
      simp only [hs, hf, Option.some.injEq, Frame.leaf.injEq] at ht
      obtain ⟨rfl, rfl⟩ := ht
      exact ⟨rfl, r, .inl rfl⟩
    | call r c =>
      simp only [hs, hf, Option.some.injEq, Frame.leaf.injEq] at ht
      obtain ⟨rfl, rfl⟩ := ht
      exact ⟨rfl, r, .inr rfl⟩
    | wait c => simp only [hs] at ht; exact absurd (ht _ (Workers.top_mem hf)) (by simp [Frame.waits])

theorem waits_after {s : Workers} (hg : s.Good) {f : Frame} (hf : s.top 0 = some f) {g : Frame}
    (h : (0, g) ∈ s.frames.erase (0, f)) : g.waits = true := by
  rw [hg.stacks.mem_erase (Workers.top_mem hf)] at h
  exact hg.stacks.below hf h.1 h.2

theorem top_cons {n : Nat} {ms : List RMember} {f : Frame} {F : List (Nat × Frame)} {w : Nat} :
    (Workers.mk n ms ((w, f) :: F)).top w = some f := by
  simp [Workers.top]

theorem Through.mono {x y : Nat} {rs : List Nat} (h : rs.Sublist (List.range x)) (hxy : x ≤ y) :
    rs.Sublist (List.range y) := by
  refine h.trans ?_
  obtain ⟨d, rfl⟩ : ∃ d, y = x + d := ⟨y - x, by omega⟩
  rw [List.range_add]
  exact List.sublist_append_left _ _

/-- The thread is through with a range. -/
theorem One.settle {order : List Round} {b : Busy} {s s' : Deques} (h : One order (some b) s) {m : RMember} {t : RState}
    {f : Frame} {r : Round} {e : Nat} {pan : Bool}
    (hm : s.workers.members[b.round.inst]? = some m) (hth : s'.workers.threads = s.workers.threads)
    (hmem : s'.workers.members = s.workers.members.set b.round.inst ⟨m.listener, t⟩) (hg : s'.workers.Good)
    (he : ∀ j, s'.workers.entered j = s.workers.entered j) (hf : s.workers.top 0 = some f)
    (hF : s'.workers.frames = s.workers.frames.erase (0, f)) (hq : s'.queue = s.queue)
    (hr : r.inst = b.round.inst) (hp : t.phase = .scope e r.packet r.address (pendings b.rest) pan)
    (ht : t.trace = past b.round.inst order ++ r.events) (hthr : Through pan b.stage.stop r.called)
    (hfull : FullIn order b.round.inst m.listener.receivers.length)
    (hch : Chain b.stage.stop b.rest m.listener.receivers.length) :
    ∃ order' busy', One order' busy' s' ∧ ended order' busy' = order.flatMap Round.calls ++ r.calls ∧
      ongoing busy' = none := by
  have hwaits : ∀ g, (0, g) ∈ s'.workers.frames → g.waits = true := by
    intro g hgm
    rw [hF] at hgm
    exact waits_after h.good hf hgm
  have hothers : ∀ v, v ≠ 0 → s'.queue v = [] := by
    rw [hq]
    exact h.others
  have hq0 : s'.queue 0 = queued (some b) := by
    rw [hq]
    exact h.queue
  cases hrest : b.rest with
  | nil =>
    rw [hrest] at hch hp
    simp only [Chain] at hch
    refine ⟨order ++ [r], none, ?_, by simp [ended], rfl⟩
    refine h.close hm hth hmem hg he hothers (by simpa [queued, hrest] using hq0) hr hwaits ?_ ?_
    · rw [← hch]
      exact hthr.1
    · unfold AtRest
      simp only [hp, if_true]
      refine ⟨rfl, ?_, ?_, hfull.almost_append hr⟩
      · rw [past_append, if_pos hr]
        exact ht
      · intro hpan
        refine hfull.append_full ?_
        unfold Round.full
        rw [hthr.2 hpan, hch]
  | cons x R =>
    refine ⟨order, some ⟨r, .wait b.stage.stop, b.rest⟩, ?_, by simp [ended], rfl⟩
    refine h.keep hm hth hmem hg he hothers ?_ hr ?_ ?_
    · rw [hq0]
      simp [queued, hr]
    · exact hwaits
    · refine ⟨⟨e, pan, ?_, hthr⟩, ?_, hch, ?_, Nat.le_refl _, ?_⟩
      · simpa [Stage.tasks] using hp
      · rw [hr]
        exact hfull
      · simp [Stage.inside, hr, ht]
      · intro c _
        rw [hrest]
        simp

theorem One.work_step {order : List Round} {busy : Option Busy} {s s' : Deques} (h : One order busy s) {x : TLabel}
    (hx : s.step (.local x) = some s')
    (hk : (∃ w k lo hi, x = .split w k lo hi ∨ x = .begin w k lo hi ∨ x = .call w k lo hi ∨ x = .finish w k lo hi ∨
      x = .crash w k lo hi) ∨ ∃ w k hi, x = .done w k hi) :
    ∃ order' busy', One order' busy' s' ∧ Linked s.workers (.local x) order busy order' busy' := by
  have hplain := Deques.step_plain hx
  simp only [DLabel.plain] at hplain
  have hg' := h.good.step hplain
  simp only [Deques.step] at hx
  rw [hplain] at hx
  rcases hk with ⟨w, k, lo, hi, rfl | rfl | rfl | rfl | rfl⟩ | ⟨w, k, hi, rfl⟩
  · -- split
    simp only [queueStep, Option.some.injEq] at hx
    simp only [Workers.step] at hplain
    obtain ⟨m, t, htop, hm, hr, hw⟩ := Workers.work_eq hplain
    obtain rfl := h.worker htop
    obtain ⟨b, rfl, rfl, hst⟩ := h.hand htop
    obtain ⟨hen, m', hm', W⟩ := h.work b rfl
    rw [hm] at hm'
    cases hm'
    obtain ⟨e, pan, hp, hthr⟩ := W.phase
    rw [hst] at hp hthr
    simp only [Stage.tasks, List.cons_append, List.nil_append] at hp
    simp only [Listener.rstep, hp] at hr
    split at hr
    case isFalse => cases hr
    rename_i hc
    simp only [List.erase_cons_head, Option.some.injEq] at hr
    have hch := W.chain
    rw [hst] at hch
    simp only [Stage.stop] at hch
    refine ⟨order, some ⟨b.round, .hand lo (lo + (hi - lo) / 2), (lo + (hi - lo) / 2, hi) :: b.rest⟩, ?_, ?_⟩
    · have hmem : s'.workers.members = s.workers.members.set b.round.inst ⟨m.listener, t⟩ := by rw [hw]
      rw [← hx] at hmem ⊢
      refine h.keep hm (by rw [hw]) hmem hg' ?_ ?_ ?_ rfl ?_ ?_
      · intro j
        exact entered_work (new := [.hand b.round.inst lo (lo + (hi - lo) / 2), .join b.round.inst (lo + (hi - lo) / 2) hi])
          h.good htop (by rw [hw]) (by simp) (by simp)
      · intro v hv
        simp only [hv, if_false]
        exact h.others v hv
      · simp [h.queue, queued]
      · rw [hw]
        exact top_cons
      · subst hr
        refine ⟨⟨e, pan, ?_, hthr⟩, W.full, ?_, ?_, ?_, by simp⟩
        · simp [Stage.tasks, pendings]
        · exact ⟨rfl, by omega, hch⟩
        · have := W.trace
          rw [hst] at this
          simpa [Stage.inside] using this
        · simp only [Stage.before, Stage.stop]
          omega
    · simp [Linked, ended, ongoing, hst, Stage.inside]
  · -- begin
    simp only [queueStep, Option.some.injEq] at hx
    simp only [Workers.step] at hplain
    obtain ⟨m, t, htop, hm, hr, hw⟩ := Workers.work_eq hplain
    obtain rfl := h.worker htop
    obtain ⟨b, rfl, rfl, hst⟩ := h.hand htop
    obtain ⟨hen, m', hm', W⟩ := h.work b rfl
    rw [hm] at hm'
    cases hm'
    obtain ⟨e, pan, hp, hthr⟩ := W.phase
    rw [hst] at hp hthr
    simp only [Stage.tasks, List.cons_append, List.nil_append] at hp
    simp only [Listener.rstep, hp] at hr
    split at hr
    case isFalse => cases hr
    rename_i hc
    simp only [List.erase_cons_head, Option.some.injEq] at hr
    refine ⟨order, some ⟨b.round, .walk lo hi, b.rest⟩, ?_, ?_⟩
    · have hmem : s'.workers.members = s.workers.members.set b.round.inst ⟨m.listener, t⟩ := by rw [hw]
      rw [← hx] at hmem ⊢
      refine h.keep hm (by rw [hw]) hmem hg' ?_ h.others h.queue rfl ?_ ?_
      · intro j
        exact entered_work (new := [.leaf b.round.inst hi]) h.good htop (by rw [hw]) (by simp) (by simp)
      · rw [hw]
        exact top_cons
      · subst hr
        refine ⟨⟨e, pan, ?_, hthr⟩, W.full, ?_, ?_, ?_, by simp⟩
        · simp [Stage.tasks]
        · have := W.chain
          rw [hst] at this
          exact this
        · have := W.trace
          rw [hst] at this
          simpa [Stage.inside] using this
        · have := W.le
          rw [hst] at this
          exact this
    · simp [Linked, ended, ongoing, hst, Stage.inside]
  · -- call
    simp only [queueStep, Option.some.injEq] at hx
    simp only [Workers.step] at hplain
    obtain ⟨m, t, htop, hm, hr, hw⟩ := Workers.work_eq hplain
    obtain rfl := h.worker htop
    obtain ⟨b, rfl, rfl, r, hst | hst⟩ := h.leaf htop
    case inr =>
      obtain ⟨hen, m', hm', W⟩ := h.work b rfl
      rw [hm] at hm'
      cases hm'
      obtain ⟨e, pan, hp, hthr⟩ := W.phase
      rw [hst] at hp
      simp only [Stage.tasks, List.cons_append, List.nil_append] at hp
      simp only [Listener.rstep, hp] at hr
      split at hr
      case isFalse => cases hr
      rename_i hc
      simp [pendings] at hc
    obtain ⟨hen, m', hm', W⟩ := h.work b rfl
    rw [hm] at hm'
    cases hm'
    obtain ⟨e, pan, hp, hthr⟩ := W.phase
    rw [hst] at hp hthr
    simp only [Stage.tasks, List.cons_append, List.nil_append] at hp
    simp only [Listener.rstep, hp] at hr
    split at hr
    case isFalse => cases hr
    rename_i hc
    obtain rfl : lo = r := by
      have := hc.1
      simp [pendings] at this
      exact this
    simp only [List.erase_cons_head, Option.some.injEq] at hr
    refine ⟨order, some ⟨b.round, .call lo hi, b.rest⟩, ?_, ?_⟩
    · have hmem : s'.workers.members = s.workers.members.set b.round.inst ⟨m.listener, t⟩ := by rw [hw]
      rw [← hx] at hmem ⊢
      refine h.keep hm (by rw [hw]) hmem hg' ?_ h.others h.queue rfl ?_ ?_
      · intro j
        exact entered_work (new := [.leaf b.round.inst hi]) h.good htop (by rw [hw]) (by simp) (by simp)
      · rw [hw]
        exact top_cons
      · subst hr
        refine ⟨⟨e, pan, ?_, hthr⟩, W.full, ?_, ?_, ?_, by simp⟩
        · simp [Stage.tasks]
        · have := W.chain
          rw [hst] at this
          exact this
        · have := W.trace
          rw [hst] at this
          simp only [Stage.inside, List.append_nil] at this
          simp [Stage.inside, this]
        · have := W.le
          rw [hst] at this
          exact this
    · simp [Linked, ended, ongoing, hst, Stage.inside, Workers.packet, hm, hp]
  · -- finish
    simp only [queueStep, Option.some.injEq] at hx
    simp only [Workers.step] at hplain
    obtain ⟨m, t, htop, hm, hr, hw⟩ := Workers.work_eq hplain
    obtain rfl := h.worker htop
    obtain ⟨b, rfl, rfl, r, hst | hst⟩ := h.leaf htop
    case inl =>
      obtain ⟨hen, m', hm', W⟩ := h.work b rfl
      rw [hm] at hm'
      cases hm'
      obtain ⟨e, pan, hp, hthr⟩ := W.phase
      rw [hst] at hp
      simp only [Stage.tasks, List.cons_append, List.nil_append] at hp
      simp only [Listener.rstep, hp] at hr
      split at hr
      case isFalse => cases hr
      rename_i hc
      simp [pendings] at hc
    obtain ⟨hen, m', hm', W⟩ := h.work b rfl
    rw [hm] at hm'
    cases hm'
    obtain ⟨e, pan, hp, hthr⟩ := W.phase
    rw [hst] at hp hthr
    simp only [Stage.tasks, List.cons_append, List.nil_append] at hp
    simp only [Listener.rstep, hp] at hr
    split at hr
    case isFalse => cases hr
    rename_i hc
    obtain rfl : lo = r := by
      simp [pendings] at hc
      exact hc
    simp only [List.erase_cons_head, Option.some.injEq] at hr
    have hlt : lo < hi := by
      have h1 : m.state.jobs = some (.inside lo hi :: pendings b.rest) := by simp [RState.jobs, hp]
      have h2 := (h.good.tasks _ _ ((Workers.jobs_of hm).trans h1)).wf (.inside lo hi) (by simp)
      exact h2
    refine ⟨order, some ⟨{ b.round with called := b.round.called ++ [lo] }, .walk (lo + 1) hi, b.rest⟩, ?_, ?_⟩
    · have hmem : s'.workers.members = s.workers.members.set b.round.inst ⟨m.listener, t⟩ := by rw [hw]
      rw [← hx] at hmem ⊢
      refine h.keep hm (by rw [hw]) hmem hg' ?_ h.others h.queue rfl ?_ ?_
      · intro j
        exact entered_work (new := [.leaf b.round.inst hi]) h.good htop (by rw [hw]) (by simp) (by simp)
      · rw [hw]
        exact top_cons
      · subst hr
        refine ⟨⟨e, pan, ?_, ?_⟩, W.full, ?_, ?_, hlt, by simp⟩
        · simp [Stage.tasks]
        · simp only [Stage.before] at hthr ⊢
          unfold Through
          rw [List.range_succ]
          exact ⟨hthr.1.append (List.Sublist.refl _), fun hpan => by rw [hthr.2 hpan]⟩
        · have := W.chain
          rw [hst] at this
          exact this
        · have := W.trace
          rw [hst] at this
          simp only [Stage.inside] at this
          simp [Stage.inside, this, Round.events]
    · simp [Linked, ended, ongoing, hst, Stage.inside, Round.calls]
  · -- crash
    simp only [queueStep, Option.some.injEq] at hx
    simp only [Workers.step] at hplain
    obtain ⟨m, t, htop, hm, hr, hw⟩ := Workers.work_eq hplain
    obtain rfl := h.worker htop
    obtain ⟨b, rfl, rfl, r, hst | hst⟩ := h.leaf htop
    case inl =>
      obtain ⟨hen, m', hm', W⟩ := h.work b rfl
      rw [hm] at hm'
      cases hm'
      obtain ⟨e, pan, hp, hthr⟩ := W.phase
      rw [hst] at hp
      simp only [Stage.tasks, List.cons_append, List.nil_append] at hp
      simp only [Listener.rstep, hp] at hr
      split at hr
      case isFalse => cases hr
      rename_i hc
      simp [pendings] at hc
    obtain ⟨hen, m', hm', W⟩ := h.work b rfl
    rw [hm] at hm'
    cases hm'
    obtain ⟨e, pan, hp, hthr⟩ := W.phase
    rw [hst] at hp hthr
    simp only [Stage.tasks, List.cons_append, List.nil_append] at hp
    simp only [Listener.rstep, hp] at hr
    split at hr
    case isFalse => cases hr
    rename_i hc
    obtain rfl : lo = r := by
      have := hc.1
      simp [pendings] at this
      exact this
    simp only [List.erase_cons_head, Option.some.injEq] at hr
    have hlt : lo < hi := by
      have h1 : m.state.jobs = some (.inside lo hi :: pendings b.rest) := by simp [RState.jobs, hp]
      have h2 := (h.good.tasks _ _ ((Workers.jobs_of hm).trans h1)).wf (.inside lo hi) (by simp)
      exact h2
    have hmem : s'.workers.members = s.workers.members.set b.round.inst ⟨m.listener, t⟩ := by rw [hw]
    obtain ⟨order', busy', g1, g2, g3⟩ := h.settle (s' := s') (t := t) (r := { b.round with called := b.round.called ++ [lo] })
      (e := e) (pan := true) hm (by rw [hw]) hmem hg'
      (fun j => entered_work (new := []) h.good htop (by rw [hw]) (by simp) (by simp)) htop (by rw [hw]; rfl)
      (by rw [← hx]) rfl (by rw [← hr]) (by
        have := W.trace
        rw [hst] at this
        simp only [Stage.inside] at this
        rw [← hr]
        simp [this, Round.events])
      (by
        refine ⟨?_, by simp⟩
        simp only [Stage.before] at hthr
        rw [hst]
        refine Through.mono (x := lo + 1) ?_ hlt
        rw [List.range_succ]
        exact hthr.1.append (List.Sublist.refl _)) W.full W.chain
    exact ⟨order', busy', g1, g3, b.round.packet, b.round.address, by simp [ongoing, hst, Stage.inside],
      by rw [g2]; simp [ended, Round.calls]⟩
  · -- done
    simp only [queueStep, Option.some.injEq] at hx
    simp only [Workers.step] at hplain
    obtain ⟨m, t, htop, hm, hr, hw⟩ := Workers.work_eq hplain
    obtain rfl := h.worker htop
    obtain ⟨b, rfl, rfl, r, hst | hst⟩ := h.leaf htop
    case inr =>
      obtain ⟨hen, m', hm', W⟩ := h.work b rfl
      rw [hm] at hm'
      cases hm'
      obtain ⟨e, pan, hp, hthr⟩ := W.phase
      rw [hst] at hp
      simp only [Stage.tasks, List.cons_append, List.nil_append] at hp
      simp only [Listener.rstep, hp] at hr
      split at hr
      case isFalse => cases hr
      rename_i hc
      simp [pendings] at hc
    obtain ⟨hen, m', hm', W⟩ := h.work b rfl
    rw [hm] at hm'
    cases hm'
    obtain ⟨e, pan, hp, hthr⟩ := W.phase
    rw [hst] at hp hthr
    simp only [Stage.tasks, List.cons_append, List.nil_append] at hp
    simp only [Listener.rstep, hp] at hr
    split at hr
    case isFalse => cases hr
    rename_i hc
    obtain rfl : hi = r := by
      simp [pendings] at hc
      exact hc
    simp only [List.erase_cons_head, Option.some.injEq] at hr
    have hmem : s'.workers.members = s.workers.members.set b.round.inst ⟨m.listener, t⟩ := by rw [hw]
    obtain ⟨order', busy', g1, g2, g3⟩ := h.settle (s' := s') (t := t) (r := b.round)
      (e := e) (pan := pan) hm (by rw [hw]) hmem hg'
      (fun j => entered_work (new := []) h.good htop (by rw [hw]) (by simp) (by simp)) htop (by rw [hw]; rfl)
      (by rw [← hx]) rfl (by rw [← hr]) (by
        have := W.trace
        rw [hst] at this
        simp only [Stage.inside, List.append_nil] at this
        rw [← hr]
        exact this)
      (by rw [hst]; exact hthr) W.full W.chain
    refine ⟨order', busy', g1, ?_, ?_⟩
    · rw [g2]
      simp [ended]
    · rw [g3]
      simp [ongoing, hst, Stage.inside]

/-- A pool thread that may take a job, when there is only one. -/
theorem One.idle {order : List Round} {busy : Option Busy} {s : Deques} (h : One order busy s) {w : Nat}
    (hf : s.workers.free w = true) : w = 0 ∧ (busy = none ∨ ∃ b c, busy = some b ∧ b.stage = .wait c) := by
  have hw := Workers.free_lt hf
  rw [h.threads] at hw
  obtain rfl : w = 0 := by omega
  refine ⟨rfl, ?_⟩
  have hwait : ∀ g, s.workers.top 0 = some g → g.waits = true := by
    intro g hg
    exact h.good.stacks.free hf (Workers.top_mem hg)
  have ht := h.top
  cases busy with
  | none => exact .inl rfl
  | some b =>
    right
    refine ⟨b, ?_⟩
    unfold TopOk at ht
    cases hs : b.stage with
    | hand lo c => simp only [hs] at ht; exact absurd (hwait _ ht) (by simp [Frame.waits])
    | walk lo c => simp only [hs] at ht; exact absurd (hwait _ ht) (by simp [Frame.waits])
    | call lo c => simp only [hs] at ht; exact absurd (hwait _ ht) (by simp [Frame.waits])
    | wait c => exact ⟨c, rfl, rfl⟩

/-- When a wait is on top. -/
theorem One.waiting {order : List Round} {busy : Option Busy} {s : Deques} (h : One order busy s) {f : Frame}
    (hf : s.workers.top 0 = some f) (hw : f.waits = true) : busy = none ∨ ∃ b c, busy = some b ∧ b.stage = .wait c := by
  have ht := h.top
  cases busy with
  | none => exact .inl rfl
  | some b =>
    right
    refine ⟨b, ?_⟩
    unfold TopOk at ht
    cases hs : b.stage with
    | hand lo c => simp only [hs, hf, Option.some.injEq] at ht; subst ht; simp [Frame.waits] at hw
    | walk lo c => simp only [hs, hf, Option.some.injEq] at ht; subst ht; simp [Frame.waits] at hw
    | call lo c => simp only [hs, hf, Option.some.injEq] at ht; subst ht; simp [Frame.waits] at hw
    | wait c => exact ⟨c, rfl, rfl⟩

theorem TopOk.waits {s : Workers} {busy : Option Busy} (h : TopOk s busy)
    (hb : busy = none ∨ ∃ b c, busy = some b ∧ b.stage = .wait c) : ∀ g, (0, g) ∈ s.frames → g.waits = true := by
  rcases hb with rfl | ⟨b, c, rfl, hs⟩
  · exact h
  · unfold TopOk at h
    simp only [hs] at h
    exact h

theorem TopOk.of_waits {s : Workers} {busy : Option Busy} (h : ∀ g, (0, g) ∈ s.frames → g.waits = true)
    (hb : busy = none ∨ ∃ b c, busy = some b ∧ b.stage = .wait c) : TopOk s busy := by
  rcases hb with rfl | ⟨b, c, rfl, hs⟩
  · exact h
  · unfold TopOk
    simp only [hs]
    exact h

theorem TopOk.congr {s s' : Workers} {busy : Option Busy} (h : TopOk s busy) (hF : s'.frames = s.frames) :
    TopOk s' busy := by
  unfold TopOk at h ⊢
  unfold Workers.top at h ⊢
  rw [hF]
  exact h

theorem One.io_step {order : List Round} {busy : Option Busy} {s s' : Deques} (h : One order busy s) {k : Nat} {y : RLabel}
    (hx : s.step (.local (.io k y)) = some s') : One order busy s' := by
  have hplain := Deques.step_plain hx
  simp only [DLabel.plain] at hplain
  have hg' := h.good.step hplain
  simp only [Deques.step] at hx
  rw [hplain] at hx
  simp only [queueStep, Option.some.injEq] at hx
  simp only [Workers.step] at hplain
  split at hplain
  case isFalse => cases hplain
  rename_i hy
  obtain ⟨m, t, hm, hr, hw⟩ := Workers.act_eq hplain
  have hlt : k < s.workers.members.length := (List.getElem?_eq_some_iff.mp hm).1
  have hF : s'.workers.frames = s.workers.frames := by rw [hw]
  have hmem : s'.workers.members = s.workers.members.set k ⟨m.listener, t⟩ := by rw [hw]
  have he : ∀ j, s'.workers.entered j = s.workers.entered j := fun j => entered_congr (by rw [hF]; simp)
  have hq : s'.queue = s.queue := by rw [← hx]
  have hinScope : ∀ e p a ts pan, m.state.phase = .scope e p a ts pan → t.phase = m.state.phase ∧ t.trace = m.state.trace := by
    intro e p a ts pan hp
    cases y <;> simp only [RLabel.outer, Bool.false_eq_true] at hy <;> simp only [Listener.rstep, hp] at hr <;>
      first | (simp only [Option.some.injEq] at hr; subst hr; first | exact ⟨hp.symm, rfl⟩ | exact ⟨rfl, rfl⟩) | cases hr
  refine ⟨by rw [hw]; exact h.threads, hg', by rw [hq]; exact h.others, by rw [hq]; exact h.queue, h.top.congr hF, ?_, ?_, ?_⟩
  · intro b hb
    obtain ⟨h1, m', h2, W⟩ := h.work b hb
    refine ⟨by rw [he]; exact h1, ?_⟩
    rw [hmem]
    by_cases hk : k = b.round.inst
    · subst hk
      rw [hm] at h2
      cases h2
      obtain ⟨e, pan, hp, hthr⟩ := W.phase
      obtain ⟨g1, g2⟩ := hinScope _ _ _ _ _ hp
      rw [List.getElem?_set_self hlt]
      exact ⟨_, rfl, ⟨e, pan, by rw [g1]; exact hp, hthr⟩, W.full, W.chain, by rw [g2]; exact W.trace, W.le, W.wait⟩
    · rw [List.getElem?_set_ne hk]
      exact ⟨m', h2, W⟩
  · intro j m' hm' hne
    rw [he]
    rw [hmem] at hm'
    by_cases hk : k = j
    · subst hk
      rw [List.getElem?_set_self hlt] at hm'
      cases hm'
      have hR := h.rest k m hm hne
      unfold AtRest at hR ⊢
      cases hp : m.state.phase with
      | scope e p a ts pan =>
        obtain ⟨g1, g2⟩ := hinScope _ _ _ _ _ hp
        simp only [hp] at hR
        simp only [g1, hp, g2]
        exact hR
      | stopped c =>
        have hsame : t.phase = .stopped c ∧ t.trace = m.state.trace := by
          cases y <;> simp only [RLabel.outer, Bool.false_eq_true] at hy <;> simp only [Listener.rstep, hp] at hr <;>
            first | (simp only [Option.some.injEq] at hr; subst hr; first | exact ⟨hp.symm, rfl⟩ | exact ⟨rfl, rfl⟩) | cases hr
        simp only [hp] at hR
        simp only [hsame.1, hsame.2]
        exact hR
      | polling =>
        simp only [hp] at hR
        have hsame : t.trace = m.state.trace ∧ ((∃ e, t.phase = .handling e) ∨ t.phase = .stopped .pollError ∨
            t.phase = .polling) := by
          cases y <;> simp only [RLabel.outer, Bool.false_eq_true] at hy <;> simp only [Listener.rstep, hp] at hr
          case arrive d =>
            simp only [Option.some.injEq] at hr
            subst hr
            exact ⟨rfl, .inr (.inr rfl)⟩
          case pollEvent =>
            split at hr
            · cases hr
              exact ⟨rfl, .inl ⟨_, rfl⟩⟩
            · cases hr
          case pollTimeout =>
            cases hr
            exact ⟨rfl, .inr (.inr hp)⟩
          case pollSpurious =>
            cases hr
            exact ⟨rfl, .inl ⟨_, rfl⟩⟩
          case pollError =>
            cases hr
            exact ⟨rfl, .inr (.inl rfl)⟩
          all_goals cases hr
        obtain ⟨g1, ⟨e, g2⟩ | g2 | g2⟩ := hsame <;> simp only [g2, g1] <;> exact hR
      | handling e =>
        simp only [hp] at hR
        have hsame : (t.trace = m.state.trace ∧ (t.phase = .handling e ∨ t.phase = .stopped .recvError)) ∨
            ∃ e' p a, t.phase = .scope e' p a [.pending 0 m.listener.receivers.length] false ∧
              t.trace = m.state.trace ++ [.taken p a] := by
          cases y <;> simp only [RLabel.outer, Bool.false_eq_true] at hy <;> simp only [Listener.rstep, hp] at hr
          case arrive d =>
            simp only [Option.some.injEq] at hr
            subst hr
            exact .inl ⟨rfl, .inl rfl⟩
          case recv =>
            split at hr
            · split at hr
              · cases hr
                exact .inl ⟨rfl, .inr rfl⟩
              · cases hr
                exact .inr ⟨_, _, _, rfl, rfl⟩
            · cases hr
          case recvError =>
            split at hr
            · cases hr
              exact .inl ⟨rfl, .inr rfl⟩
            · cases hr
          all_goals cases hr
        rcases hsame with ⟨g1, g2 | g2⟩ | ⟨e', p, a, g1, g2⟩
        · simp only [g2, g1]
          exact hR
        · simp only [g2, g1]
          exact hR
        · have hen : s.workers.entered k = false := by
            cases hen : s.workers.entered k with
            | false => rfl
            | true =>
              obtain ⟨w, hw1⟩ := entered_iff.mp hen
              have := (h.good.scope _ hw1).1
              simp only [Frame.inst, Workers.jobs_of hm, RState.jobs, hp] at this
              cases this
          simp only [g1, g2, hen, Bool.false_eq_true, if_false]
          exact ⟨trivial, trivial, by rw [hR.1], hR.2⟩
    · rw [List.getElem?_set_ne hk] at hm'
      exact h.rest j m' hm' hne
  · intro r hr'
    obtain ⟨m1, h1, h2⟩ := h.bound r hr'
    rw [hmem]
    by_cases hk : k = r.inst
    · rw [← hk, List.getElem?_set_self hlt]
      rw [← hk, hm] at h1
      cases h1
      exact ⟨_, rfl, h2⟩
    · rw [List.getElem?_set_ne hk]
      exact ⟨m1, h1, h2⟩

theorem One.launch_step {order : List Round} {busy : Option Busy} {s s' : Deques} (h : One order busy s) {l : Listener}
    {q : List Datagram} (hx : s.step (.local (.launch l q)) = some s') : One order busy s' := by
  have hplain := Deques.step_plain hx
  simp only [DLabel.plain] at hplain
  have hg' := h.good.step hplain
  simp only [Deques.step] at hx
  rw [hplain] at hx
  simp only [queueStep, Option.some.injEq] at hx
  simp only [Workers.step, Option.some.injEq] at hplain
  have hF : s'.workers.frames = s.workers.frames := by rw [← hplain]
  have hmem : s'.workers.members = s.workers.members ++ [⟨l, l.rinit q⟩] := by rw [← hplain]
  have he : ∀ j, s'.workers.entered j = s.workers.entered j := fun j => entered_congr (by rw [hF]; simp)
  have hq : s'.queue = s.queue := by rw [← hx]
  have old : ∀ (k : Nat) (m : RMember), s.workers.members[k]? = some m → s'.workers.members[k]? = some m := by
    intro k m hm
    rw [hmem, List.getElem?_append_left (List.getElem?_eq_some_iff.mp hm).1]
    exact hm
  refine ⟨by rw [← hplain]; exact h.threads, hg', by rw [hq]; exact h.others, by rw [hq]; exact h.queue, h.top.congr hF, ?_, ?_, ?_⟩
  · intro b hb
    obtain ⟨h1, m', h2, W⟩ := h.work b hb
    exact ⟨by rw [he]; exact h1, m', old _ _ h2, W⟩
  · intro j m' hm' hne
    rw [he]
    by_cases hlt : j < s.workers.members.length
    · rw [hmem, List.getElem?_append_left hlt] at hm'
      exact h.rest j m' hm' hne
    · have hj : j = s.workers.members.length := by
        have := (List.getElem?_eq_some_iff.mp hm').1
        rw [hmem] at this
        simp at this
        omega
      subst hj
      rw [hmem] at hm'
      simp at hm'
      subst hm'
      have hno : ∀ r ∈ order, r.inst ≠ s.workers.members.length := by
        intro r hr he
        obtain ⟨m1, h1, _⟩ := h.bound r hr
        have := (List.getElem?_eq_some_iff.mp h1).1
        omega
      simp only [AtRest, Listener.rinit]
      refine ⟨?_, ?_⟩
      · have : roundsOf s.workers.members.length order = [] := by
          simp only [roundsOf, List.filter_eq_nil_iff]
          intro r hr
          simpa using hno r hr
        simp [past, this]
      · intro r hr hk
        exact absurd hk (hno r hr)
  · intro r hr
    obtain ⟨m1, h1, h2⟩ := h.bound r hr
    exact ⟨m1, old _ _ h1, h2⟩

theorem One.enter_step {order : List Round} {busy : Option Busy} {s s' : Deques} (h : One order busy s) {w k : Nat}
    (hx : s.step (.local (.enter w k)) = some s') :
    ∃ order' busy', One order' busy' s' ∧ Linked s.workers (.local (.enter w k)) order busy order' busy' := by
  have hplain := Deques.step_plain hx
  simp only [DLabel.plain] at hplain
  have hg' := h.good.step hplain
  simp only [Deques.step] at hx
  rw [hplain] at hx
  simp only [Workers.step] at hplain
  split at hplain
  case isFalse => cases hplain
  rename_i hc
  obtain ⟨hfree, hjobs, hen⟩ := hc
  obtain ⟨rfl, hb⟩ := h.idle hfree
  simp only [queueStep] at hx
  split at hx
  case h_2 => cases hx
  rename_i t q ht hqq
  cases hx
  simp only [Option.some.injEq] at ht
  split at hqq
  case isFalse => cases hqq
  rename_i hempty
  simp only [Option.some.injEq] at hqq
  have hnone : busy = none := by
    rcases hb with rfl | ⟨b, c, rfl, hs⟩
    · rfl
    · exfalso
      obtain ⟨_, m, _, W⟩ := h.work b rfl
      have h1 := W.wait c hs
      rw [h.queue] at hempty
      simp only [queued, List.map_eq_nil_iff] at hempty
      exact h1 hempty
  subst hnone
  simp only [Option.some.injEq] at hplain
  obtain ⟨ts, hts⟩ := Option.isSome_iff_exists.mp hjobs
  obtain ⟨m, e, p, a, pan, hm, hp⟩ := Workers.jobs_some hts
  have hR := h.rest k m hm (by simp)
  unfold AtRest at hR
  simp only [hp, hen, Bool.false_eq_true, if_false] at hR
  obtain ⟨rfl, rfl, htr, hfull⟩ := hR
  refine ⟨order, some ⟨⟨k, p, a, []⟩, .wait 0, [(0, m.listener.receivers.length)]⟩, ?_, ?_⟩
  · refine ⟨by rw [← hplain]; exact h.threads, hg', ?_, ?_, ?_, ?_, ?_, ?_⟩
    · intro v hv
      rw [← hqq]
      simp only [hv, if_false]
      exact h.others v hv
    · rw [← hqq]
      simp [queued, Workers.sizes, hm]
    · refine TopOk.of_waits ?_ (.inr ⟨_, _, rfl, rfl⟩)
      intro g hgm
      rw [← hplain] at hgm
      rcases List.mem_cons.mp hgm with hgm | hgm
      · cases hgm
        rfl
      · exact h.good.stacks.free hfree hgm
    · intro b hb
      cases hb
      refine ⟨?_, m, ?_, ?_⟩
      · rw [entered_iff, ← hplain]
        exact ⟨0, by simp⟩
      · rw [← hplain]
        exact hm
      · refine ⟨⟨e, false, hp, ?_⟩, hfull, ?_, ?_, Nat.le_refl _, by simp⟩
        · simp [Through, Stage.before]
        · simp [Chain, Stage.stop]
        · simp [htr, Stage.inside, Round.events]
    · intro j m' hm' hne
      have hjk : k ≠ j := hne _ rfl
      rw [← hplain] at hm'
      have : t.entered j = s.workers.entered j := by
        apply entered_congr
        intro v
        rw [← hplain]
        simp [Ne.symm hjk]
      rw [show (Deques.mk t q).workers.entered j = t.entered j from rfl, this]
      exact h.rest j m' hm' (by simp)
    · intro r hr
      rw [← hplain]
      exact h.bound r hr
  · simp [Linked, ended, ongoing, Stage.inside, Round.calls]

theorem One.take_step {order : List Round} {busy : Option Busy} {s s' : Deques} (h : One order busy s) {w k lo hi : Nat}
    (hx : s.step (.local (.take w k lo hi)) = some s') :
    ∃ order' busy', One order' busy' s' ∧ Linked s.workers (.local (.take w k lo hi)) order busy order' busy' := by
  have hplain := Deques.step_plain hx
  simp only [DLabel.plain] at hplain
  have hg' := h.good.step hplain
  simp only [Deques.step] at hx
  rw [hplain] at hx
  simp only [Workers.step] at hplain
  split at hplain
  case h_1 => cases hplain
  rename_i ts hts
  split at hplain
  case isFalse => cases hplain
  rename_i hc
  obtain ⟨hfree, hen, hpend, htaken⟩ := hc
  obtain ⟨rfl, hb⟩ := h.idle hfree
  simp only [queueStep] at hx
  split at hx
  case h_2 => cases hx
  rename_i t q ht hqq
  cases hx
  simp only [Option.some.injEq] at ht
  split at hqq
  case h_1 => cases hqq
  rename_i j rest hqueue
  split at hqq
  case isFalse => cases hqq
  rename_i hj
  subst hj
  simp only [Option.some.injEq] at hqq
  rw [h.queue] at hqueue
  rcases hb with rfl | ⟨b, c, rfl, hs⟩
  · simp [queued] at hqueue
  simp only [queued] at hqueue
  simp only [Option.some.injEq] at hplain
  obtain ⟨hen', m, hm, W⟩ := h.work b rfl
  cases hR : b.rest with
  | nil => rw [hR] at hqueue; simp at hqueue
  | cons x R =>
    rw [hR] at hqueue
    simp only [List.map_cons, List.cons.injEq, Job.mk.injEq] at hqueue
    obtain ⟨⟨rfl, rfl, rfl⟩, hrest⟩ := hqueue
    have hch := W.chain
    rw [hR, hs] at hch
    obtain ⟨e1, e2, e3⟩ := hch
    simp only [Stage.stop] at e1
    obtain ⟨e, pan, hp, hthr⟩ := W.phase
    rw [hs, hR] at hp
    rw [hs] at hthr
    refine ⟨order, some ⟨b.round, .hand x.1 x.2, R⟩, ?_, ?_⟩
    · refine ⟨by rw [← hplain]; exact h.threads, hg', ?_, ?_, ?_, ?_, ?_, ?_⟩
      · intro v hv
        rw [← hqq]
        simp only [hv, if_false]
        exact h.others v hv
      · rw [← hqq]
        simp [queued, hrest]
      · rw [← hplain]
        exact top_cons
      · intro b' hb'
        cases hb'
        refine ⟨?_, m, ?_, ?_⟩
        · obtain ⟨v, hv⟩ := entered_iff.mp hen'
          rw [entered_iff, ← hplain]
          exact ⟨v, List.mem_cons_of_mem _ hv⟩
        · rw [← hplain]
          exact hm
        · refine ⟨⟨e, pan, ?_, ?_⟩, W.full, e3, ?_, e2, by simp⟩
          · simpa [Stage.tasks, pendings] using hp
          · simp only [Stage.before] at hthr ⊢
            rw [e1]
            exact hthr
          · have := W.trace
            rw [hs] at this
            simpa [Stage.inside] using this
      · intro j m' hm' hne
        have hjk : b.round.inst ≠ j := hne ⟨b.round, .hand x.1 x.2, R⟩ rfl
        rw [← hplain] at hm'
        have : t.entered j = s.workers.entered j := by
          apply entered_congr
          intro v
          rw [← hplain]
          simp
        rw [show (Deques.mk t q).workers.entered j = t.entered j from rfl, this]
        exact h.rest j m' hm' (fun b' hb' => by cases hb'; exact hjk)
      · intro r hr
        rw [← hplain]
        exact h.bound r hr
    · simp [Linked, ended, ongoing, hs, Stage.inside]

theorem One.resume_step {order : List Round} {busy : Option Busy} {s s' : Deques} (h : One order busy s) {w k mid hi : Nat}
    (hx : s.step (.local (.resume w k mid hi)) = some s') : One order busy s' := by
  have hplain := Deques.step_plain hx
  simp only [DLabel.plain] at hplain
  have hg' := h.good.step hplain
  simp only [Deques.step] at hx
  rw [hplain] at hx
  simp only [queueStep, Option.some.injEq] at hx
  simp only [Workers.step] at hplain
  split at hplain
  case isFalse => cases hplain
  rename_i hc
  simp only [Option.some.injEq] at hplain
  obtain rfl := h.worker hc.1
  have hb := h.waiting hc.1 rfl
  have hF : ∀ x, x ∈ s'.workers.frames ↔ x ∈ s.workers.frames ∧ x.2 ≠ .join k mid hi := by
    intro x
    rw [← hplain]
    exact h.good.stacks.mem_erase (Workers.top_mem hc.1) x
  have hmem : s'.workers.members = s.workers.members := by rw [← hplain]
  have he : ∀ j, s'.workers.entered j = s.workers.entered j := fun j => entered_congr (by intro v; rw [hF]; simp)
  have hq : s'.queue = s.queue := by rw [← hx]
  refine ⟨by rw [← hplain]; exact h.threads, hg', by rw [hq]; exact h.others, by rw [hq]; exact h.queue, ?_, ?_, ?_, ?_⟩
  · refine TopOk.of_waits ?_ hb
    intro g hgm
    exact h.top.waits hb g ((hF _).mp hgm).1
  · intro b hb
    rw [he, hmem]
    exact h.work b hb
  · intro j m' hm' hne
    rw [he]
    rw [hmem] at hm'
    exact h.rest j m' hm' hne
  · rw [hmem]
    exact h.bound

theorem One.exit_step {order : List Round} {busy : Option Busy} {s s' : Deques} (h : One order busy s) {w k : Nat}
    (hx : s.step (.local (.exit w k)) = some s') : One order busy s' := by
  have hplain := Deques.step_plain hx
  simp only [DLabel.plain] at hplain
  have hg' := h.good.step hplain
  simp only [Deques.step] at hx
  rw [hplain] at hx
  simp only [queueStep, Option.some.injEq] at hx
  simp only [Workers.step] at hplain
  split at hplain
  case isFalse => cases hplain
  obtain ⟨m, t, htop, hm, hr, hw⟩ := Workers.work_eq hplain
  obtain rfl := h.worker htop
  have hb := h.waiting htop rfl
  have hlt : k < s.workers.members.length := (List.getElem?_eq_some_iff.mp hm).1
  have hF : ∀ x, x ∈ s'.workers.frames ↔ x ∈ s.workers.frames ∧ x.2 ≠ .scope k := by
    intro x
    rw [hw]
    exact h.good.stacks.mem_erase (Workers.top_mem htop) x
  have hmem : s'.workers.members = s.workers.members.set k ⟨m.listener, t⟩ := by rw [hw]
  have hq : s'.queue = s.queue := by rw [← hx]
  have hen : s.workers.entered k = true := entered_iff.mpr ⟨0, Workers.top_mem htop⟩
  obtain ⟨hj, -⟩ := RState.jobs_join hr
  have he : ∀ j, j ≠ k → s'.workers.entered j = s.workers.entered j := fun j hjk => entered_congr (by
    intro v
    rw [hF]
    simp [hjk])
  have hnb : ∀ b, busy = some b → b.round.inst ≠ k := by
    rintro b rfl hbk
    obtain ⟨_, m', h2, W⟩ := h.work b rfl
    rw [hbk, hm] at h2
    cases h2
    rcases hb with hb | ⟨b', c, hb, hs⟩
    · cases hb
    · cases hb
      obtain ⟨e, pan, hp, _⟩ := W.phase
      simp only [RState.jobs, hp, Option.some.injEq, List.append_eq_nil_iff] at hj
      have := hj.2
      simp only [pendings, List.map_eq_nil_iff] at this
      exact W.wait c hs this
  refine ⟨by rw [hw]; exact h.threads, hg', by rw [hq]; exact h.others, by rw [hq]; exact h.queue, ?_, ?_, ?_, ?_⟩
  · refine TopOk.of_waits ?_ hb
    intro g hgm
    exact h.top.waits hb g ((hF _).mp hgm).1
  · intro b hb'
    have hne := hnb b hb'
    rw [he _ hne, hmem, List.getElem?_set_ne (Ne.symm hne)]
    exact h.work b hb'
  · intro j m' hm' hne
    rw [hmem] at hm'
    by_cases hjk : k = j
    · subst hjk
      rw [List.getElem?_set_self hlt] at hm'
      cases hm'
      have hR := h.rest k m hm hne
      unfold AtRest at hR
      simp only [Listener.rstep] at hr
      split at hr
      case h_2 => cases hr
      rename_i e p a pan hp
      simp only [hp, hen, if_true] at hR
      cases hr
      unfold AtRest
      cases pan with
      | true => exact ⟨hR.2.1, hR.2.2.2⟩
      | false =>
        have h1 := hR.2.1
        have h2 := hR.2.2.1 rfl
        simp only [rafterEvent]
        by_cases h0 : e = 0
        · simpa [h0] using ⟨h1, h2⟩
        · simpa [h0] using ⟨h1, h2⟩
    · rw [List.getElem?_set_ne hjk] at hm'
      rw [he _ (Ne.symm hjk)]
      exact h.rest j m' hm' hne
  · intro r hr'
    obtain ⟨m1, h1, h2⟩ := h.bound r hr'
    rw [hmem]
    by_cases hk : k = r.inst
    · rw [← hk, List.getElem?_set_self hlt]
      rw [← hk, hm] at h1
      cases h1
      exact ⟨_, rfl, h2⟩
    · rw [List.getElem?_set_ne hk]
      exact ⟨m1, h1, h2⟩

theorem One.step {order : List Round} {busy : Option Busy} {s s' : Deques} (h : One order busy s) {x : DLabel}
    (hx : s.step x = some s') :
    ∃ order' busy', One order' busy' s' ∧ Linked s.workers x order busy order' busy' := by
  cases x with
  | steal w v k lo hi =>
    exfalso
    simp only [Deques.step] at hx
    split at hx
    case isFalse => cases hx
    rename_i hc
    by_cases hv : v = 0
    · subst hv
      split at hx
      case h_2 => cases hx
      rename_i t ht
      have hw : s.workers.free w = true := by
        simp only [Workers.step] at ht
        split at ht
        · cases ht
        · split at ht
          · rename_i hc
            exact hc.1
          · cases ht
      obtain ⟨rfl, _⟩ := h.idle hw
      rw [hc.1] at hc
      simp at hc
    · rw [h.others v hv] at hc
      simp at hc
  | «local» x =>
    cases x with
    | launch l q => exact ⟨order, busy, h.launch_step hx, by simp [Linked]⟩
    | io k y => exact ⟨order, busy, h.io_step hx, by simp [Linked]⟩
    | enter w k => exact h.enter_step hx
    | take w k lo hi => exact h.take_step hx
    | resume w k mid hi => exact ⟨order, busy, h.resume_step hx, by simp [Linked]⟩
    | exit w k => exact ⟨order, busy, h.exit_step hx, by simp [Linked]⟩
    | split w k lo hi => exact h.work_step hx (.inl ⟨_, _, _, _, .inl rfl⟩)
    | begin w k lo hi => exact h.work_step hx (.inl ⟨_, _, _, _, .inr (.inl rfl)⟩)
    | call w k r hi => exact h.work_step hx (.inl ⟨_, _, _, _, .inr (.inr (.inl rfl))⟩)
    | finish w k r hi => exact h.work_step hx (.inl ⟨_, _, _, _, .inr (.inr (.inr (.inl rfl)))⟩)
    | crash w k r hi => exact h.work_step hx (.inl ⟨_, _, _, _, .inr (.inr (.inr (.inr rfl)))⟩)
    | done w k hi => exact h.work_step hx (.inr ⟨_, _, _, rfl⟩)

theorem One.init : One [] none (Deques.init 1) where
  threads := rfl
  good := (Workers.good 1 [] _ rfl).2
  others _ _ := rfl
  queue := rfl
  top := by simp [TopOk, Deques.init]
  work := by simp
  rest k m h := by simp [Deques.init] at h
  bound := by simp

/-! ## Everything is sequential -/

/-- What the invariant has under way. -/
def current : Option Busy → Option Current
  | some b => some ⟨b.round, b.stage.inside⟩
  | none => none

def CallOf.marks (c : CallOf) : List CallMark := [.began c.1 c.2.1, .over c.1 c.2.1]

theorem Round.calls_marks (r : Round) : r.calls.flatMap CallOf.marks = r.marks := by
  simp [Round.calls, Round.marks, List.flatMap_map, CallOf.marks]

/-- What has been seen of all the calls. -/
def seen (order : List Round) (busy : Option Busy) : List CallMark :=
  (ended order busy).flatMap CallOf.marks ++ ((ongoing busy).map fun c => .began c.1 c.2.1).toList

theorem seen_eq (order : List Round) (busy : Option Busy) :
    seen order busy = order.flatMap Round.marks ++ ((current busy).map Current.marks).getD [] := by
  have h : (order.flatMap Round.calls).flatMap CallOf.marks = order.flatMap Round.marks := by
    rw [List.flatMap_assoc]
    congr 1
    funext r
    exact r.calls_marks
  cases busy with
  | none => simp [seen, ended, ongoing, current, h]
  | some b =>
    simp only [seen, ended, ongoing, current, List.flatMap_append, h, Round.calls_marks, Option.map_some, Option.getD_some,
      Current.marks, List.append_assoc]
    cases b.stage.inside <;> simp

theorem Linked.seen {s : Workers} {x : DLabel} {order order' : List Round} {busy busy' : Option Busy}
    (h : Linked s x order busy order' busy') : seen order' busy' = seen order busy ++ x.mark.toList := by
  unfold Linked at h
  unfold Ipv8.seen
  split at h
  · obtain ⟨h1, h2, p, a, -, h3⟩ := h
    simp [h1, h2, h3, DLabel.mark]
  · obtain ⟨h1, p, a, h2, h3⟩ := h
    simp [h1, h2, h3, DLabel.mark, CallOf.marks]
  · obtain ⟨h1, p, a, h2, h3⟩ := h
    simp [h1, h2, h3, DLabel.mark, CallOf.marks]
  · rename_i h1 h2 h3
    have : x.mark = none := by
      cases x with
      | steal => rfl
      | «local» y =>
        cases y <;> first | rfl | (exfalso; first | exact h1 _ _ _ _ rfl | exact h2 _ _ _ _ rfl | exact h3 _ _ _ _ rfl)
    simp [h.1, h.2, this]

theorem One.reach {ls : List DLabel} {s : Deques} (h : (Deques.init 1).run ls = some s) :
    ∃ order busy, One order busy s ∧ seen order busy = ls.filterMap DLabel.mark := by
  refine Deques.run_induction (Deques.init 1)
    (fun ls s => ∃ order busy, One order busy s ∧ seen order busy = ls.filterMap DLabel.mark) ⟨[], none, One.init, rfl⟩ ?_ ls s h
  rintro ls s x s' - ⟨order, busy, h1, h2⟩ hx
  obtain ⟨order', busy', h3, h4⟩ := h1.step hx
  refine ⟨order', busy', h3, ?_⟩
  rw [h4.seen, h2, List.filterMap_append]
  cases hm : x.mark <;> simp [hm]

theorem One.sequential {order : List Round} {busy : Option Busy} {s : Deques} (h1 : One order busy s) :
    Sequential s.workers (seen order busy) order (current busy) := by
  refine ⟨seen_eq _ _, h1.bound, ?_, ?_⟩
  · intro c hc
    cases busy with
    | none => cases hc
    | some b =>
      simp only [current, Option.some.injEq] at hc
      subst hc
      obtain ⟨-, m, hm, W⟩ := h1.work b rfl
      obtain ⟨e, pan, hp, ht⟩ := W.phase
      refine ⟨m, hm, by simp [RState.jobs, hp], ?_, W.full, ?_⟩
      · rw [W.trace]
        cases hi : b.stage.inside <;> simp [Current.events]
      · have hl := W.chain.le
        have hle := W.le
        cases hs : b.stage with
        | call r c =>
          rw [hs] at hp ht hl
          have hlt : r < c := by
            have hg := h1.good
            unfold Workers.Good at hg
            have hj : s.workers.jobs b.round.inst = some (Stage.tasks (.call r c) ++ pendings b.rest) := by
              rw [Workers.jobs_of hm]
              simp [RState.jobs, hp]
            exact (hg.tasks _ _ hj).wf (.inside r c) (by simp [Stage.tasks])
          have h3 : (b.round.called ++ [r]).Sublist (List.range (r + 1)) := by
            rw [List.range_succ]
            exact List.Sublist.append ht.1 (List.Sublist.refl _)
          exact Through.mono h3 (Nat.le_trans hlt hl)
        | _ =>
          simp only [Stage.inside, Option.toList_none, List.append_nil]
          exact Through.mono ht.1 (by omega)
  · intro k m hm hne
    have hR := h1.rest k m hm (by
      rintro b rfl
      exact hne _ rfl)
    unfold AtRest at hR
    cases hp : m.state.phase with
    | scope e p a ts pan =>
      simp only [hp] at hR
      split at hR
      · exact ⟨.inl hR.2.1, hR.2.2.2, by simp [RState.jobs, hp]⟩
      · exact ⟨.inr ⟨by simp [RState.jobs, hp], p, a, hR.2.2.1⟩, hR.2.2.2.almost, by simp [RState.jobs, hp]⟩
    | stopped c =>
      cases c <;> simp only [hp] at hR <;>
        first | exact ⟨.inl hR.1, hR.2, fun _ h => absurd rfl h⟩ | exact ⟨.inl hR.1, hR.2.almost, fun _ _ => hR.2⟩
    | _ =>
      simp only [hp] at hR
      exact ⟨.inl hR.1, hR.2.almost, fun _ _ => hR.2⟩

/-- C105. With a pool of one thread, there is one sequence of rounds for the whole process, and everything goes by it: packets are
handed out one after the other, whichever instance they belong to. -/
theorem C105 (ls : List DLabel) (s : Deques) (h : (Deques.init 1).run ls = some s) :
    ∃ order now, Sequential s.workers (ls.filterMap DLabel.mark) order now := by
  obtain ⟨order, busy, h1, h2⟩ := One.reach h
  exact ⟨order, current busy, h2 ▸ h1.sequential⟩

/-! ## What this means for memory -/

theorem PoolMemory.run_append (program : Nat → Nat → Packet → Address → Act σ) (s : PoolMemory σ) (a b : List (MemLabel σ)) :
    s.run program (a ++ b) = (s.run program a).bind fun s' => s'.run program b := by
  induction a generalizing s with
  | nil => rfl
  | cons x a ih =>
    simp only [List.cons_append, PoolMemory.run]
    cases s.step program x with
    | none => rfl
    | some s' => exact ih s'

/-- What a call does to memory if left alone. -/
def CallOf.effect (program : Nat → Nat → Packet → Address → Act σ) (m : σ) (c : CallOf) : σ :=
  (program c.1 c.2.1 c.2.2.1 c.2.2.2).alone m

theorem Round.calls_effect (program : Nat → Nat → Packet → Address → Act σ) (r : Round) (m : σ) :
    r.calls.foldl (CallOf.effect program) m = r.effect program m := by
  simp [Round.calls, Round.effect, List.foldl_map, CallOf.effect]

theorem calls_effect (program : Nat → Nat → Packet → Address → Act σ) (order : List Round) (m : σ) :
    (order.flatMap Round.calls).foldl (CallOf.effect program) m = order.foldl (fun m r => r.effect program m) m := by
  induction order generalizing m with
  | nil => rfl
  | cons r order ih => simp [List.foldl_append, Round.calls_effect, ih]

/-- Memory is what the calls have made of it. -/
def OneByOne (program : Nat → Nat → Packet → Address → Act σ) (m0 : σ) (calls : List CallOf) (now : Option CallOf)
    (s : PoolMemory σ) : Prop :=
  match now with
  | none => (∀ k r, s.running k r = none) ∧ s.memory = calls.foldl (CallOf.effect program) m0
  | some c => ∃ q, (∀ k r, s.running k r = if k = c.1 ∧ r = c.2.1 then some q else none) ∧
      q.alone s.memory = CallOf.effect program (calls.foldl (CallOf.effect program) m0) c

theorem OneByOne.step {program : Nat → Nat → Packet → Address → Act σ} {m0 : σ} {s s' : PoolMemory σ} {x : MemLabel σ}
    {order : List Round} {busy : Option Busy} (h1 : One order busy s.pool)
    (h : OneByOne program m0 (ended order busy) (ongoing busy) s) (hx : s.step program x = some s')
    (ho : ∀ f, x ≠ .other f) :
    ∃ order' busy', One order' busy' s'.pool ∧ OneByOne program m0 (ended order' busy') (ongoing busy') s' ∧
      seen order' busy' = seen order busy ++ x.mark.toList := by
  cases x with
  | other f => exact absurd rfl (ho f)
  | touch k r =>
    simp only [PoolMemory.step] at hx
    split at hx
    case h_2 => cases hx
    rename_i next change hr
    cases hx
    refine ⟨order, busy, h1, ?_, by simp [MemLabel.mark]⟩
    unfold OneByOne at h ⊢
    cases hc : ongoing busy with
    | none =>
      simp only [hc] at h
      rw [h.1] at hr
      cases hr
    | some c =>
      simp only [hc] at h ⊢
      obtain ⟨q, h2, h3⟩ := h
      rw [h2] at hr
      split at hr
      case isFalse => cases hr
      rename_i hkr
      obtain ⟨rfl, rfl⟩ := hkr
      cases hr
      refine ⟨next s.memory, ?_, h3⟩
      intro i j
      rw [h2]
      by_cases hij : i = c.1 ∧ j = c.2.1 <;> simp [hij]
  | pool x =>
    simp only [PoolMemory.step] at hx
    split at hx
    case h_2 => cases hx
    rename_i t running ht hrun
    cases hx
    obtain ⟨order', busy', h3, h4⟩ := h1.step ht
    refine ⟨order', busy', h3, ?_, h4.seen⟩
    unfold Linked at h4
    unfold OneByOne at h ⊢
    split at h4
    · rename_i w k r hi
      obtain ⟨e1, e2, p, a, e3, e4⟩ := h4
      simp only [e2] at h
      simp only [followPool, e3, Option.some.injEq] at hrun
      subst hrun
      simp only [e4]
      refine ⟨program k r p a, ?_, ?_⟩
      · intro i j
        rw [h.1]
      · simp only [CallOf.effect]
        rw [h.2, e1]
    · obtain ⟨e1, p, a, e2, e3⟩ := h4
      simp only [e2] at h
      obtain ⟨q, g1, g2⟩ := h
      simp only [followPool] at hrun
      split at hrun
      case h_2 => cases hrun
      rename_i hd
      cases hrun
      rw [g1] at hd
      simp only [and_self, if_true, Option.some.injEq] at hd
      subst hd
      simp only [e1, e3]
      refine ⟨?_, ?_⟩
      · intro i j
        rw [g1]
        split <;> simp [*]
      · rw [List.foldl_append]
        exact g2
    · obtain ⟨e1, p, a, e2, e3⟩ := h4
      simp only [e2] at h
      obtain ⟨q, g1, g2⟩ := h
      simp only [followPool] at hrun
      split at hrun
      case h_2 => cases hrun
      rename_i hd
      cases hrun
      rw [g1] at hd
      simp only [and_self, if_true, Option.some.injEq] at hd
      subst hd
      simp only [e1, e3]
      refine ⟨?_, ?_⟩
      · intro i j
        rw [g1]
        split <;> simp [*]
      · rw [List.foldl_append]
        exact g2
    · rename_i n1 n2 n3
      have : running = s.running := by
        unfold followPool at hrun
        split at hrun
        · exact absurd rfl (n1 _ _ _ _)
        · exact absurd rfl (n2 _ _ _ _)
        · exact absurd rfl (n3 _ _ _ _)
        · cases hrun
          rfl
      subst this
      rw [h4.1, h4.2]
      exact h

/-- C105. Therefore receivers need no locks against each other (if nobody else changes what they use): with a pool of one
thread, memory is what the rounds make of it, one receiver after the other, each with its whole program at once.  So
it is at every moment at which no receiver is at work; and if one is, then it is what it will be when this one, left alone, ends. -/
theorem C105_memory (program : Nat → Nat → Packet → Address → Act σ) (m0 : σ) (ls : List (MemLabel σ)) (s : PoolMemory σ)
    (h : (PoolMemory.mk (Deques.init 1) m0 fun _ _ => none).run program ls = some s) (ho : ∀ f, .other f ∉ ls) :
    ∃ order now, Sequential s.pool.workers (ls.filterMap MemLabel.mark) order now ∧
      match now with
      | none => s.memory = order.foldl (fun m r => r.effect program m) m0
      | some ⟨r, none⟩ => s.memory = r.effect program (order.foldl (fun m r => r.effect program m) m0)
      | some ⟨r, some i⟩ => ∃ q, s.running r.inst i = some q ∧ q.alone s.memory =
          (program r.inst i r.packet r.address).alone (r.effect program (order.foldl (fun m r => r.effect program m) m0)) := by
  have key : ∀ (ls : List (MemLabel σ)), (∀ f, .other f ∉ ls) → ∀ (s0 s : PoolMemory σ) (order : List Round) (busy : Option Busy),
      One order busy s0.pool → OneByOne program m0 (ended order busy) (ongoing busy) s0 → s0.run program ls = some s →
      ∃ order' busy', One order' busy' s.pool ∧ OneByOne program m0 (ended order' busy') (ongoing busy') s ∧
        seen order' busy' = seen order busy ++ ls.filterMap MemLabel.mark := by
    intro ls
    induction ls with
    | nil =>
      intro _ s0 s order busy h1 h2 hr
      cases hr
      exact ⟨order, busy, h1, h2, by simp⟩
    | cons x ls ih =>
      intro hx s0 s order busy h1 h2 hr
      simp only [PoolMemory.run] at hr
      split at hr
      case h_2 => cases hr
      rename_i s1 hs
      obtain ⟨o1, b1, h3, h4, h5⟩ := h2.step h1 hs (fun f hf => hx f (by simp [hf]))
      obtain ⟨o2, b2, h6, h7, h8⟩ := ih (fun f hf => hx f (by simp [hf])) s1 s o1 b1 h3 h4 hr
      refine ⟨o2, b2, h6, h7, ?_⟩
      rw [h8, h5]
      cases hm : x.mark <;> simp [hm]
  obtain ⟨order, busy, h1, h2, h3⟩ := key ls ho _ _ [] none One.init ⟨fun _ _ => rfl, rfl⟩ h
  rw [show seen [] none = [] from rfl, List.nil_append] at h3
  refine ⟨order, current busy, h3 ▸ h1.sequential, ?_⟩
  unfold OneByOne at h2
  cases busy with
  | none =>
    simp only [ongoing, ended, List.append_nil] at h2
    rw [calls_effect] at h2
    exact h2.2
  | some b =>
    simp only [ongoing, ended] at h2
    rw [List.foldl_append, calls_effect, Round.calls_effect] at h2
    simp only [current]
    cases hi : b.stage.inside with
    | none =>
      simp only [hi, Option.map_none] at h2
      exact h2.2
    | some i =>
      simp only [hi, Option.map_some] at h2
      obtain ⟨q, g1, g2⟩ := h2
      exact ⟨q, by rw [g1]; simp, g2⟩

end Ipv8
