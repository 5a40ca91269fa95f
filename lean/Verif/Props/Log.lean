import Verif.Model.Log
import Verif.Props.Network
import Verif.Props.Join
import Verif.Props.Community
/-!
# Property C106: what the log says about a listening thread
-/

namespace Ipv8
open Spec

namespace Spec

/-- The lines that tell of legacy messages, in order. -/
def warningsIn : List LogLine → List Warning
  | [] => []
  | .deprecated w :: log => w :: warningsIn log
  | _ :: log => warningsIn log

/-- The other lines, in order: those of the listening thread itself. -/
def threadLines : List LogLine → List LogLine
  | [] => []
  | .deprecated _ :: log => threadLines log
  | x :: log => x :: threadLines log

/-- The texts of the lines of level "error", in order. -/
def errorsIn : List LogLine → List String
  | [] => []
  | .error t :: log => t :: errorsIn log
  | _ :: log => errorsIn log

/-- The steps of thread, pool and network in an execution, without the writing. -/
def threadSteps : List LogLabel → List Label
  | [] => []
  | .net x :: ls => x :: threadSteps ls
  | .write _ :: ls => threadSteps ls

/-- How many times `poll` returned without an error. -/
def pollsIn : List Label → Nat
  | [] => 0
  | .pollEvent :: ls => 1 + pollsIn ls
  | .pollTimeout :: ls => 1 + pollsIn ls
  | .pollSpurious :: ls => 1 + pollsIn ls
  | _ :: ls => pollsIn ls

/-- The lines of one round of the loop: a poll that found nothing to read, or one that did. -/
def roundLines : Bool → List LogLine
  | true => [.checking, .handling]
  | false => [.checking]

/-- The last line of a thread that ended because polling or reading failed; nobody else writes one. -/
def ending : Phase → List LogLine
  | .stopped .pollError => [.error "the listening thread crashed"]
  | .stopped .recvError => [.error "the listening thread crashed"]
  | _ => []

/-- The warning due for what a registry with these communities is handed: the first 23 bytes are a header, its
identifier is that of a registered community, and its type is one of the legacy messages. -/
def legacyWarning (cs : List Community) (x : Packet × Address) : Option Warning :=
  let b := x.1.bytes
  if 23 ≤ b.length ∧ b.take 2 = [0, 2] ∧ (lastWith ((b.drop 2).take 20) cs).isSome then
    match b[22]? with
    | some t => (legacyName t).map fun name => ⟨name, x.2⟩
    | none => none
  else none

/-- A step with the contents and the source of the datagram blotted out. -/
def blot : Label → Label
  | .arrive _ => .arrive ⟨[], .v4 0 0 0 0 0⟩
  | x => x

/-- The warnings due for one datagram: those of every receiver. -/
def due (l : Scribe) (x : Packet × Address) : List Warning :=
  (List.range l.net.receivers.length).flatMap fun r => l.says r x.1 x.2

/-- The warnings `ws` are those due for `xs`: for one after the other, in any order within one. -/
inductive OnePerOne (due : Packet × Address → List Warning) : List Warning → List (Packet × Address) → Prop
  | nil : OnePerOne due [] []
  | snoc {ws xs} (g : List Warning) (x : Packet × Address) :
    OnePerOne due ws xs → g.Perm (due x) → OnePerOne due (ws ++ g) (xs ++ [x])

end Spec

/-! ## Plumbing -/

@[simp] theorem warningsIn_append (a b : List LogLine) : warningsIn (a ++ b) = warningsIn a ++ warningsIn b := by
  induction a with
  | nil => rfl
  | cons x a ih => cases x <;> simp [warningsIn, ih]

@[simp] theorem threadLines_append (a b : List LogLine) :
    threadLines (a ++ b) = threadLines a ++ threadLines b := by
  induction a with
  | nil => rfl
  | cons x a ih => cases x <;> simp [threadLines, ih]

@[simp] theorem errorsIn_append (a b : List LogLine) : errorsIn (a ++ b) = errorsIn a ++ errorsIn b := by
  induction a with
  | nil => rfl
  | cons x a ih => cases x <;> simp [errorsIn, ih]

@[simp] theorem threadSteps_append (a b : List LogLabel) :
    threadSteps (a ++ b) = threadSteps a ++ threadSteps b := by
  induction a with
  | nil => rfl
  | cons x a ih => cases x <;> simp [threadSteps, ih]

@[simp] theorem pollsIn_append (a b : List Label) : pollsIn (a ++ b) = pollsIn a + pollsIn b := by
  induction a with
  | nil => simp [pollsIn]
  | cons x a ih => cases x <;> simp [pollsIn, ih, Nat.add_assoc]

theorem errorsIn_threadLines (a : List LogLine) : errorsIn (threadLines a) = errorsIn a := by
  induction a with
  | nil => rfl
  | cons x a ih => cases x <;> simp [threadLines, errorsIn, ih]

theorem scribe_run_append (l : Scribe) (s : LogState) (a b : List LogLabel) :
    l.run s (a ++ b) = (l.run s a).bind (fun s' => l.run s' b) := by
  induction a generalizing s with
  | nil => rfl
  | cons x a ih =>
    simp only [List.cons_append, Scribe.run]
    cases l.step s x with
    | none => rfl
    | some s' => exact ih s'

theorem scribe_run_snoc (l : Scribe) (s s' : LogState) (a : List LogLabel) (x : LogLabel) :
    l.run s (a ++ [x]) = some s' ↔ ∃ m, l.run s a = some m ∧ l.step m x = some s' := by
  rw [scribe_run_append]
  cases l.run s a with
  | none => simp
  | some m =>
    simp only [Option.bind_some, Scribe.run, Option.some.injEq, exists_eq_left']
    cases l.step m x <;> simp

theorem scribe_induction (l : Scribe) (s0 : LogState) (P : List LogLabel → LogState → Prop) (h0 : P [] s0)
    (hs : ∀ ls s x s', l.run s0 ls = some s → P ls s → l.step s x = some s' → P (ls ++ [x]) s') :
    ∀ ls s, l.run s0 ls = some s → P ls s := by
  intro ls
  induction hn : ls.length generalizing ls with
  | zero =>
    intro s h
    have : ls = [] := List.length_eq_zero_iff.mp hn
    subst this
    simp only [Scribe.run, Option.some.injEq] at h
    exact h ▸ h0
  | succ n ih =>
    intro s h
    have hne : ls ≠ [] := by rintro rfl; simp at hn
    have hsplit := (List.dropLast_concat_getLast hne).symm
    rw [hsplit, scribe_run_snoc] at h
    obtain ⟨m, hm, hx⟩ := h
    rw [hsplit]
    exact hs _ m _ s hm (ih ls.dropLast (by simp [hn]) m hm) hx

theorem threadLines_errors (ls : List String) : threadLines (ls.map .error) = ls.map .error := by
  induction ls with
  | nil => rfl
  | cons x a ih => simp [threadLines, ih]

theorem warningsIn_errors (ls : List String) : warningsIn (ls.map .error) = [] := by
  induction ls with
  | nil => rfl
  | cons x a ih => simp [warningsIn, ih]

theorem threadLines_own (x : Label) (s : NetState) : threadLines (ownLines x s) = ownLines x s := by
  have h : threadLines (closing s) = closing s := by
    unfold closing
    split
    · exact threadLines_errors _
    · rfl
  cases x <;> simp [ownLines, threadLines, h]

theorem warningsIn_own (x : Label) (s : NetState) : warningsIn (ownLines x s) = [] := by
  have h : warningsIn (closing s) = [] := by
    unfold closing
    split
    · exact warningsIn_errors _
    · rfl
  cases x <;> simp [ownLines, warningsIn, h]

/-- What a step that is not a write does. -/
theorem step_net (l : Scribe) (s s' : LogState) (x : Label) (h : l.step s (.net x) = some s') :
    l.net.step s.net x = some s'.net ∧ s'.log = s.log ++ ownLines x s'.net := by
  simp only [Scribe.step] at h
  cases hx : l.net.step s.net x with
  | none => simp [hx] at h
  | some n =>
    simp only [hx] at h
    cases x <;> simp only [Option.some.injEq] at h <;> try (subst h; simp [ownLines]; done)
    split at h
    · simp at h
    · simp only [Option.some.injEq] at h
      subst h
      simp [ownLines]

/-- What a write does. -/
theorem step_write (l : Scribe) (s s' : LogState) (r : Nat) (h : l.step s (.write r) = some s') :
    ∃ w rest, firstOf r s.pending = some (w, rest) ∧
      s' = { s with pending := rest, log := s.log ++ [.deprecated w] } := by
  simp only [Scribe.step] at h
  split at h
  · rename_i w rest hf
    simp only [Option.some.injEq] at h
    exact ⟨w, rest, hf, h.symm⟩
  · simp at h

/-! ## The log describes the same executions -/

/-- C106. Logging changes nothing: whatever happens with the log being written happens without it. -/
theorem C106_refines (l : Scribe) (address : Address) (queued : List Datagram) (ls : List LogLabel) (s : LogState)
    (h : l.run (l.init address queued) ls = some s) :
    l.net.run (l.net.init queued) (threadSteps ls) = some s.net := by
  refine scribe_induction l _ (fun ls s => l.net.run (l.net.init queued) (threadSteps ls) = some s.net) rfl ?_ ls s h
  intro ls s x s' _ ih hx
  cases x with
  | net x =>
    rw [threadSteps_append]
    exact (run_snoc _ _ _ _ _).mpr ⟨s.net, ih, (step_net l s s' x hx).1⟩
  | write r =>
    obtain ⟨w, rest, _, rfl⟩ := step_write l s s' r hx
    simpa [threadSteps] using ih

/-- The receiver's own lines can all be written at once. -/
theorem write_all (l : Scribe) (s : LogState) (r : Nat) (ws : List Warning)
    (hp : s.pending = ws.map fun w => (r, w)) :
    l.run s (List.replicate ws.length (.write r)) =
      some { s with pending := [], log := s.log ++ ws.map .deprecated } := by
  induction ws generalizing s with
  | nil => simp at hp; simp [Scribe.run, ← hp]
  | cons w ws ih =>
    simp only [List.length_cons, List.replicate_succ, Scribe.run, Scribe.step, hp, List.map_cons, firstOf, if_true]
    rw [ih _ rfl]
    simp

/-- C106. And nothing is prevented: every execution of the thread is one with the log being written, with the same
steps and the same outcome. -/
theorem C106_lifts (l : Scribe) (address : Address) (queued : List Datagram) (ls : List Label) (n : NetState)
    (h : l.net.run (l.net.init queued) ls = some n) :
    ∃ ls' s, l.run (l.init address queued) ls' = some s ∧ threadSteps ls' = ls ∧ s.net = n := by
  suffices H : ∃ ls' s, l.run (l.init address queued) ls' = some s ∧ threadSteps ls' = ls ∧ s.net = n ∧
      s.pending = [] by
    obtain ⟨a, b, c, d, e, _⟩ := H
    exact ⟨a, b, c, d, e⟩
  refine run_induction l.net _ (fun ls n => ∃ ls' s, l.run (l.init address queued) ls' = some s ∧
    threadSteps ls' = ls ∧ s.net = n ∧ s.pending = []) ⟨[], _, rfl, rfl, rfl, rfl⟩ ?_ ls n h
  rintro ls n x n' _ ⟨ls', s, h1, h2, h3, h4⟩ hx
  have hw : ∀ r k, threadSteps (List.replicate k (LogLabel.write r)) = [] := by
    intro r k
    induction k with
    | zero => rfl
    | succ k ih => simpa [List.replicate_succ, threadSteps] using ih
  have plain : ∀ m, l.step s (.net x) = some m → m.net = n' → m.pending = [] →
      ∃ ls' s, l.run (l.init address queued) ls' = some s ∧ threadSteps ls' = ls ++ [x] ∧ s.net = n' ∧
        s.pending = [] := by
    intro m hm h5 h6
    refine ⟨ls' ++ [.net x], m, (scribe_run_snoc _ _ _ _ _).mpr ⟨s, h1, hm⟩, by simp [h2, threadSteps], h5, h6⟩
  subst h3
  cases x
  case start r =>
    have hb : ∃ ws : List Warning, l.begun s.net r = ws.map fun w => (r, w) := by
      unfold Scribe.begun
      split
      · exact ⟨_, rfl⟩
      · exact ⟨[], rfl⟩
    obtain ⟨ws, hb⟩ := hb
    refine ⟨ls' ++ .net (.start r) :: List.replicate ws.length (.write r),
      { net := n', pending := [], log := s.log ++ ws.map .deprecated }, ?_, by simp [h2, threadSteps, hw], rfl, rfl⟩
    rw [scribe_run_append, h1]
    simp only [Option.bind_some, Scribe.run, Scribe.step, hx, h4, List.nil_append, hb]
    rw [write_all l _ r ws rfl]
  all_goals exact plain _ (by simp only [Scribe.step, hx, h4]; rfl) rfl (by simp [h4])

/-! ## The thread's own lines -/

theorem closing_eq (s : NetState) : closing s = ending s.phase := by
  unfold closing NetState.joined
  cases s.phase <;> try rfl
  rename_i c
  cases c <;> rfl

/-- Where the thread's own lines stand. -/
private structure Told (address : Address) (ls : List LogLabel) (s : LogState) (rounds : List Bool) : Prop where
  lines : threadLines s.log =
    [.receiving address, .listener] ++ rounds.flatMap roundLines ++ ending s.net.phase
  polls : rounds.length = pollsIn (threadSteps ls)
  reads : rounds.count true =
    (takenIn s.net.trace).length + if s.net.phase = .stopped .recvError then 1 else 0
  handling : ∀ k, s.net.phase = .handling k → k = 1 ∧ ∃ before, rounds = before ++ [false]
  dispatch : ∀ k p a t r b, s.net.phase = .dispatch k p a t r b → k = 0

private theorem told_step (l : Scribe) (address : Address) (ls : List LogLabel) (s s' : LogState) (x : LogLabel)
    (rounds : List Bool) (h : Told address ls s rounds) (hx : l.step s x = some s') :
    ∃ rounds', Told address (ls ++ [x]) s' rounds' := by
  obtain ⟨h1, h2, h3, h4, h5⟩ := h
  cases x with
  | write r =>
    obtain ⟨w, rest, _, rfl⟩ := step_write l s s' r hx
    exact ⟨rounds, by simpa [threadLines] using h1, by simpa [threadSteps] using h2, h3, h4, h5⟩
  | net x =>
    obtain ⟨hn, hl⟩ := step_net l s s' x hx
    have hl' : threadLines s'.log = threadLines s.log ++ ownLines x s'.net := by
      rw [hl, threadLines_append, threadLines_own]
    rw [h1] at hl'
    have hp : pollsIn (threadSteps (ls ++ [.net x])) = pollsIn (threadSteps ls) + pollsIn [x] := by
      simp [threadSteps]
    cases x
    case arrive d =>
      simp only [Listener.step, Option.some.injEq] at hn
      refine ⟨rounds, ?_, by rw [h2, hp]; rfl, ?_, ?_, ?_⟩ <;> rw [← hn]
      · rw [hl', ← hn]; simp [ownLines]
      · exact h3
      · exact h4
      · exact h5
    case pollEvent =>
      simp only [Listener.step] at hn
      split at hn <;> simp only [Option.some.injEq, reduceCtorEq] at hn
      rename_i hph _
      refine ⟨rounds ++ [false], ?_, by rw [hp]; simp [h2, pollsIn], ?_, ?_, ?_⟩
      · rw [hl', ← hn, hph]; simp [ownLines, ending, roundLines]
      · rw [← hn]; simp [List.count_append, h3, hph]
      · rw [← hn]; intro k hk; cases hk; exact ⟨rfl, rounds, rfl⟩
      · rw [← hn]; intro _ _ _ _ _ _ hk; cases hk
    case pollTimeout =>
      simp only [Listener.step] at hn
      split at hn <;> simp only [Option.some.injEq, reduceCtorEq] at hn
      rename_i hph
      refine ⟨rounds ++ [false], ?_, by rw [hp]; simp [h2, pollsIn], ?_, ?_, ?_⟩
      · rw [hl', ← hn, hph]; simp [ownLines, ending, roundLines]
      · rw [← hn]; simp [List.count_append, h3, hph]
      · rw [← hn, hph]; intro k hk; cases hk
      · rw [← hn, hph]; intro _ _ _ _ _ _ hk; cases hk
    case pollSpurious =>
      simp only [Listener.step] at hn
      split at hn <;> simp only [Option.some.injEq, reduceCtorEq] at hn
      rename_i hph
      refine ⟨rounds ++ [false], ?_, by rw [hp]; simp [h2, pollsIn], ?_, ?_, ?_⟩
      · rw [hl', ← hn, hph]; simp [ownLines, ending, roundLines]
      · rw [← hn]; simp [List.count_append, h3, hph]
      · rw [← hn]; intro k hk; cases hk; exact ⟨rfl, rounds, rfl⟩
      · rw [← hn]; intro _ _ _ _ _ _ hk; cases hk
    case pollError =>
      simp only [Listener.step] at hn
      split at hn <;> simp only [Option.some.injEq, reduceCtorEq] at hn
      rename_i hph
      refine ⟨rounds, ?_, by rw [hp]; simp [h2, pollsIn], ?_, ?_, ?_⟩
      · rw [hl', ← hn, hph]; simp [ownLines, closing_eq, ending]
      · rw [← hn]; simp [h3, hph]
      · rw [← hn]; intro k hk; cases hk
      · rw [← hn]; intro _ _ _ _ _ _ hk; cases hk
    case recv =>
      simp only [Listener.step] at hn
      split at hn
      · rename_i k hph
        obtain ⟨hk, before, hb⟩ := h4 _ hph
        obtain rfl : k = 0 := by omega
        subst hb
        split at hn <;> simp only [Option.some.injEq] at hn
        · refine ⟨before ++ [true], ?_, by rw [hp]; simpa [pollsIn] using h2, ?_, ?_, ?_⟩
          · rw [hl', ← hn, hph]; simp [ownLines, closing_eq, ending, roundLines]
          · rw [← hn]; simpa [List.count_append, hph] using h3
          · rw [← hn]; intro k hk; cases hk
          · rw [← hn]; intro _ _ _ _ _ _ hk; cases hk
        · refine ⟨before ++ [true], ?_, by rw [hp]; simpa [pollsIn] using h2, ?_, ?_, ?_⟩
          · rw [hl', ← hn, hph]; simp [ownLines, closing_eq, ending, roundLines]
          · rw [← hn]; simpa [List.count_append, hph, takenIn] using h3
          · rw [← hn]; intro k hk; cases hk
          · rw [← hn]; intro _ _ _ _ _ _ hk; cases hk; rfl
      · simp at hn
    case recvError =>
      simp only [Listener.step] at hn
      split at hn <;> simp only [Option.some.injEq, reduceCtorEq] at hn
      rename_i k hph
      obtain ⟨hk, before, hb⟩ := h4 _ hph
      subst hb
      refine ⟨before ++ [true], ?_, by rw [hp]; simpa [pollsIn] using h2, ?_, ?_, ?_⟩
      · rw [hl', ← hn, hph]; simp [ownLines, closing_eq, ending, roundLines]
      · rw [← hn]; simpa [List.count_append, hph] using h3
      · rw [← hn]; intro k hk; cases hk
      · rw [← hn]; intro _ _ _ _ _ _ hk; cases hk
    case join =>
      simp only [Listener.step] at hn
      split at hn
      · rename_i k p a todo running panicked hph
        have hk := h5 _ _ _ _ _ _ hph
        subst hk
        split at hn
        · simp only [Option.some.injEq] at hn
          refine ⟨rounds, ?_, by rw [hp]; simp [h2, pollsIn], ?_, ?_, ?_⟩
          · rw [hl', ← hn, hph]; cases panicked <;> simp [ownLines, closing_eq, ending, afterEvent]
          · rw [← hn]; cases panicked <;> simp [h3, hph, afterEvent]
          · rw [← hn]; intro k hk; cases panicked <;> simp [afterEvent] at hk
          · rw [← hn]; intro _ _ _ _ _ _ hk; cases panicked <;> simp [afterEvent] at hk
        · simp at hn
      · simp at hn
    all_goals
      simp only [Listener.step] at hn
      split at hn
      · rename_i k p a todo running panicked hph
        have hk := h5 _ _ _ _ _ _ hph
        subst hk
        split at hn
        · simp only [Option.some.injEq] at hn
          refine ⟨rounds, ?_, by rw [hp]; simp [h2, pollsIn], ?_, ?_, ?_⟩
          · rw [hl', ← hn, hph]; simp [ownLines, ending]
          · rw [← hn]; simp [h3, hph, takenIn]
          · rw [← hn]; intro k hk; cases hk
          · rw [← hn]; intro _ _ _ _ _ _ hk; cases hk; rfl
        · simp at hn
      · simp at hn

/-- C106. The lines the listening thread itself writes, in every execution: two when it starts; then one line per
poll, followed by a second one when there was something to read; and last a line of level "error" if polling or
reading failed.  The second lines count the datagrams taken (and the read that failed). -/
theorem C106 (l : Scribe) (address : Address) (queued : List Datagram) (ls : List LogLabel) (s : LogState)
    (h : l.run (l.init address queued) ls = some s) :
    ∃ rounds : List Bool,
      threadLines s.log =
        [.receiving address, .listener] ++ rounds.flatMap roundLines ++ ending s.net.phase ∧
      rounds.length = pollsIn (threadSteps ls) ∧
      rounds.count true =
        (takenIn s.net.trace).length + if s.net.phase = .stopped .recvError then 1 else 0 := by
  have := scribe_induction l _ (fun ls s => ∃ rounds, Told address ls s rounds)
    ⟨[], rfl, rfl, rfl, fun _ hk => (by cases hk), fun _ _ _ _ _ _ hk => (by cases hk)⟩
    (fun ls s x s' _ ⟨rounds, ih⟩ hx => told_step l address ls s s' x rounds ih hx) ls s h
  obtain ⟨rounds, h1, h2, h3, _, _⟩ := this
  exact ⟨rounds, h1, h2, h3⟩

theorem errors_rounds (rounds : List Bool) : errorsIn (rounds.flatMap roundLines) = [] := by
  induction rounds with
  | nil => rfl
  | cons b rounds ih => cases b <;> simpa [roundLines, errorsIn] using ih

/-- C106. The lines of level "error" are exactly what `join` on the handle stands for: none while the thread lives,
one when polling or reading failed — and none when a receiver panicked, so that a thread can be gone without a
single line of this crate saying so. -/
theorem C106_errors (l : Scribe) (address : Address) (queued : List Datagram) (ls : List LogLabel) (s : LogState)
    (h : l.run (l.init address queued) ls = some s) :
    (dead s.net.phase = false → errorsIn s.log = []) ∧
    (s.net.phase = .stopped .receiverPanic → errorsIn s.log = []) ∧
    (s.net.phase = .stopped .pollError ∨ s.net.phase = .stopped .recvError →
      errorsIn s.log = ["the listening thread crashed"]) ∧
    (∀ r lines, s.net.joined = some (r, lines) → errorsIn s.log = lines) := by
  obtain ⟨rounds, h1, _, _⟩ := C106 l address queued ls s h
  have h2 : errorsIn s.log = errorsIn (ending s.net.phase) := by
    rw [← errorsIn_threadLines, h1, errorsIn_append, errorsIn_append, errors_rounds]
    rfl
  rw [h2]
  refine ⟨?_, ?_, ?_, ?_⟩
  · cases hp : s.net.phase <;> simp [dead, ending, errorsIn]
  · intro hp; rw [hp]; rfl
  · rintro (hp | hp) <;> rw [hp] <;> rfl
  · intro r lines hj
    unfold NetState.joined at hj
    split at hj
    · rename_i c hp
      rw [hp]
      cases c <;> simp [Stop.listen, threadMain] at hj <;> simp [ending, errorsIn, hj.2]
    · simp at hj

/-! ## The warnings -/

theorem firstOf_perm (r : Nat) (ps : List (Nat × Warning)) (w : Warning) (rest : List (Nat × Warning))
    (h : firstOf r ps = some (w, rest)) : ps.Perm ((r, w) :: rest) := by
  induction ps generalizing rest with
  | nil => simp [firstOf] at h
  | cons e ps ih =>
    obtain ⟨k, v⟩ := e
    simp only [firstOf] at h
    split at h
    · rename_i hk
      subst hk
      simp only [Option.some.injEq, Prod.mk.injEq] at h
      obtain ⟨rfl, rfl⟩ := h
      exact List.Perm.refl _
    · split at h
      · rename_i v' rest' hf
        simp only [Option.some.injEq, Prod.mk.injEq] at h
        obtain ⟨rfl, rfl⟩ := h
        exact (List.Perm.cons _ (ih _ hf)).trans (List.Perm.swap _ _ _)
      · simp at h

/-- Where the warnings stand. -/
private def Warned (l : Scribe) (s : LogState) : Prop :=
  match s.net.phase with
  | .dispatch _ p a todo running panicked =>
    ∃ prev ws g lost, takenIn s.net.trace = prev ++ [(p, a)] ∧ warningsIn s.log = ws ++ g ∧
      OnePerOne (due l) ws prev ∧ (panicked = false → lost = []) ∧
      (g ++ (s.pending.map Prod.snd ++ ((todo.flatMap fun r => l.says r p a) ++ lost))).Perm (due l (p, a)) ∧
      ∀ e ∈ s.pending, e.1 ∈ running
  | .stopped .receiverPanic =>
    ∃ prev p a ws g lost, takenIn s.net.trace = prev ++ [(p, a)] ∧ warningsIn s.log = ws ++ g ∧
      OnePerOne (due l) ws prev ∧ (g ++ lost).Perm (due l (p, a)) ∧ s.pending = []
  | _ => OnePerOne (due l) (warningsIn s.log) (takenIn s.net.trace) ∧ s.pending = []

private theorem warned_step (l : Scribe) (s s' : LogState) (x : LogLabel) (h : Warned l s)
    (hx : l.step s x = some s') : Warned l s' := by
  cases x with
  | write r =>
    obtain ⟨w, rest, hf, rfl⟩ := step_write l s s' r hx
    unfold Warned at h ⊢
    dsimp only
    have hperm := firstOf_perm r _ w rest hf
    have hne : s.pending ≠ [] := by intro he; rw [he] at hf; simp [firstOf] at hf
    split at h
    · rename_i k p a todo running panicked hph
      obtain ⟨prev, ws, g, lost, h1, h2, h3, h4, h5, h6⟩ := h
      refine ⟨prev, ws, g ++ [w], lost, h1, ?_, h3, h4, ?_, ?_⟩
      · simp [h2, warningsIn]
      · refine List.Perm.trans ?_ h5
        rw [List.append_assoc]
        refine List.Perm.append_left _ ?_
        rw [← List.append_assoc]
        refine List.Perm.append_right _ ?_
        simpa using (hperm.map (fun e : Nat × Warning => e.2)).symm
      · intro e he
        exact h6 e (hperm.mem_iff.mpr (List.mem_cons_of_mem _ he))
    · obtain ⟨_, _, _, _, _, _, _, _, _, _, h6⟩ := h
      exact absurd h6 hne
    · exact absurd h.2 hne
  | net x =>
    obtain ⟨hn, hl⟩ := step_net l s s' x hx
    have hw : warningsIn s'.log = warningsIn s.log := by
      rw [hl, warningsIn_append, warningsIn_own, List.append_nil]
    simp only [Scribe.step, hn] at hx
    cases x
    case arrive d =>
      simp only [Option.some.injEq] at hx
      have hpe : s'.pending = s.pending := by rw [← hx]
      simp only [Listener.step, Option.some.injEq] at hn
      unfold Warned at h ⊢
      rw [← hn, hw, hpe]
      exact h
    case start r =>
      simp only [Option.some.injEq] at hx
      have hpe : s'.pending = s.pending ++ l.begun s.net r := by rw [← hx]
      simp only [Listener.step] at hn
      split at hn
      · rename_i k p a todo running panicked hph
        split at hn
        · rename_i hr
          simp only [Option.some.injEq] at hn
          unfold Warned at h ⊢
          simp only [hph] at h
          rw [← hn, hw, hpe]
          obtain ⟨prev, ws, g, lost, h1, h2, h3, h4, h5, h6⟩ := h
          refine ⟨prev, ws, g, lost, by simpa [takenIn] using h1, h2, h3, h4, ?_, ?_⟩
          · refine List.Perm.trans ?_ h5
            refine List.Perm.append_left _ ?_
            have hb : (l.begun s.net r).map (·.2) = l.says r p a := by
              simp [Scribe.begun, hph, Function.comp_def]
            rw [List.map_append, hb, List.append_assoc]
            refine List.Perm.append_left _ ?_
            rw [← List.append_assoc]
            refine List.Perm.append_right _ ?_
            have := (List.perm_cons_erase hr).flatMap_right (fun r => l.says r p a)
            simpa using this.symm
          · intro e he
            rcases List.mem_append.mp he with he | he
            · exact List.mem_cons_of_mem _ (h6 e he)
            · simp only [Scribe.begun, hph, List.mem_map] at he
              obtain ⟨w, _, rfl⟩ := he
              exact List.mem_cons_self
        · simp at hn
      · simp at hn
    case finish r =>
      simp only at hx
      split at hx
      · simp at hx
      · rename_i hnot
        simp only [Option.some.injEq] at hx
        have hpe : s'.pending = s.pending := by rw [← hx]
        simp only [Listener.step] at hn
        split at hn
        · rename_i k p a todo running panicked hph
          split at hn
          · simp only [Option.some.injEq] at hn
            unfold Warned at h ⊢
            simp only [hph] at h
            rw [← hn, hw, hpe]
            obtain ⟨prev, ws, g, lost, h1, h2, h3, h4, h5, h6⟩ := h
            refine ⟨prev, ws, g, lost, by simpa [takenIn] using h1, h2, h3, h4, h5, ?_⟩
            intro e he
            refine (List.mem_erase_of_ne ?_).mpr (h6 e he)
            rintro rfl
            exact hnot (List.mem_map_of_mem he)
          · simp at hn
        · simp at hn
    case crash r =>
      simp only [Option.some.injEq] at hx
      have hpe : s'.pending = s.pending.filter (fun e => e.1 != r) := by rw [← hx]
      simp only [Listener.step] at hn
      split at hn
      · rename_i k p a todo running panicked hph
        split at hn
        · simp only [Option.some.injEq] at hn
          unfold Warned at h ⊢
          simp only [hph] at h
          rw [← hn, hw, hpe]
          obtain ⟨prev, ws, g, lost, h1, h2, h3, h4, h5, h6⟩ := h
          refine ⟨prev, ws, g, (s.pending.filter (fun e => !(e.1 != r))).map (·.2) ++ lost,
            by simpa [takenIn] using h1, h2, h3, by simp, ?_, ?_⟩
          · refine List.Perm.trans ?_ h5
            refine List.Perm.append_left _ ?_
            have hsplit := ((List.filter_append_perm (fun e : Nat × Warning => e.1 != r) s.pending).map (·.2))
            rw [List.map_append] at hsplit
            refine List.Perm.trans ?_ (hsplit.append_right _)
            rw [List.append_assoc]
            refine List.Perm.append_left _ ?_
            rw [← List.append_assoc, ← List.append_assoc]
            exact List.Perm.append_right _ List.perm_append_comm
          · intro e he
            simp only [List.mem_filter, bne_iff_ne] at he
            exact (List.mem_erase_of_ne he.2).mpr (h6 e he.1)
        · simp at hn
      · simp at hn
    case recv =>
      simp only [Option.some.injEq] at hx
      have hpe : s'.pending = s.pending := by rw [← hx]
      simp only [Listener.step] at hn
      split at hn
      · rename_i k hph
        unfold Warned at h ⊢
        simp only [hph] at h
        split at hn <;> simp only [Option.some.injEq] at hn <;> rw [← hn, hw, hpe]
        · exact h
        · refine ⟨takenIn s.net.trace, warningsIn s.log, [], [], by simp [takenIn], by simp, h.1, fun _ => rfl, ?_, ?_⟩
          · simp [h.2, due]
          · simp [h.2]
      · simp at hn
    case join =>
      simp only [Option.some.injEq] at hx
      have hpe : s'.pending = s.pending := by rw [← hx]
      simp only [Listener.step] at hn
      split at hn
      · rename_i k p a todo running panicked hph
        split at hn
        · rename_i hdone
          simp only [Option.some.injEq] at hn
          unfold Warned at h ⊢
          simp only [hph] at h
          rw [← hn, hw, hpe]
          obtain ⟨prev, ws, g, lost, h1, h2, h3, h4, h5, h6⟩ := h
          have hnil : s.pending = [] := by
            cases hs : s.pending with
            | nil => rfl
            | cons e t =>
              have := h6 e (hs ▸ List.mem_cons_self)
              rw [hdone.1] at this
              simp at this
          rw [hnil] at h5 ⊢
          simp only [List.map_nil, List.nil_append] at h5
          cases panicked with
          | true => exact ⟨prev, p, a, ws, g, _, h1, h2, h3, h5, rfl⟩
          | false =>
            have ht : todo = [] := by simpa using hdone.2
            rw [ht, h4 rfl] at h5
            simp only [List.flatMap_nil, List.append_nil] at h5
            have hgoal : OnePerOne (due l) (warningsIn s.log) (takenIn s.net.trace) := by
              rw [h1, h2]
              exact .snoc g (p, a) h3 h5
            by_cases hk : k = 0
            · simpa only [Bool.false_eq_true, if_false, afterEvent, hk, if_true, and_true] using hgoal
            · simpa only [Bool.false_eq_true, if_false, afterEvent, hk, and_true] using hgoal
        · simp at hn
      · simp at hn
    all_goals
      simp only [Option.some.injEq] at hx
      have hpe : s'.pending = s.pending := by rw [← hx]
      simp only [Listener.step] at hn
      split at hn <;> simp only [Option.some.injEq, reduceCtorEq] at hn
      have hph := ‹s.net.phase = _›
      unfold Warned at h ⊢
      simp only [hph] at h
      rw [← hn, hw, hpe]
      first
      | exact h
      | (simp only [hph]; exact h)

private theorem warned_run (l : Scribe) (address : Address) (queued : List Datagram) (ls : List LogLabel)
    (s : LogState) (h : l.run (l.init address queued) ls = some s) : Warned l s :=
  scribe_induction l (l.init address queued) (fun _ s => Warned l s)
    (show OnePerOne (due l) [] [] ∧ [] = [] from ⟨.nil, rfl⟩)
    (fun _ s x s' _ ih hx => warned_step l s s' x ih hx) ls s h

/-- C106. The warnings: between two datagrams (and after the thread ended for want of input) the log holds, for each
datagram taken, exactly the warnings due for it, one datagram's before the next's. -/
theorem C106_warnings (l : Scribe) (address : Address) (queued : List Datagram) (ls : List LogLabel) (s : LogState)
    (h : l.run (l.init address queued) ls = some s)
    (hq : idle s.net.phase = true ∨ s.net.phase = .stopped .pollError ∨ s.net.phase = .stopped .recvError) :
    OnePerOne (due l) (warningsIn s.log) (takenIn s.net.trace) := by
  have hw := warned_run l address queued ls s h
  unfold Warned at hw
  split at hw
  · rename_i hph; simp [hph, idle] at hq
  · rename_i hph; simp [hph, idle] at hq
  · exact hw.1

/-- C106. And at every other moment, also after a panic: those of all datagrams before the current one, and some of
those of the current one. -/
theorem C106_always (l : Scribe) (address : Address) (queued : List Datagram) (ls : List LogLabel) (s : LogState)
    (h : l.run (l.init address queued) ls = some s) :
    ∃ done now ws g rest, takenIn s.net.trace = done ++ now ∧ now.length ≤ 1 ∧ warningsIn s.log = ws ++ g ∧
      OnePerOne (due l) ws done ∧ (g ++ rest).Perm (now.flatMap (due l)) := by
  have hw := warned_run l address queued ls s h
  unfold Warned at hw
  split at hw
  · obtain ⟨prev, ws, g, lost, h1, h2, h3, _, h5, _⟩ := hw
    exact ⟨prev, [_], ws, g, _, h1, by simp, h2, h3, by simpa using h5⟩
  · obtain ⟨prev, p, a, ws, g, lost, h1, h2, h3, h5, _⟩ := hw
    exact ⟨prev, [_], ws, g, _, h1, by simp, h2, h3, by simpa using h5⟩
  · exact ⟨takenIn s.net.trace, [], _, [], [], by simp, by simp, (List.append_nil _).symm, hw.1, by simp⟩

/-! ## Registries -/

theorem hasHeader_iff (p : Packet) (mid : Bytes) (t : UInt8) :
    HasHeader p mid t ↔ 23 ≤ p.bytes.length ∧ p.bytes.take 2 = [0, 2] ∧ (p.bytes.drop 2).take 20 = mid ∧
      p.bytes[22]? = some t := by
  constructor
  · rintro ⟨hl, rest, hb⟩
    rw [hb]
    refine ⟨by simp [Spec.header, hl]; omega, by simp [Spec.header], ?_, ?_⟩
    · simp [Spec.header, ← hl]
    · simp [Spec.header, List.getElem?_append, hl]
  · rintro ⟨h1, h2, h3, h4⟩
    have e1 : p.bytes = p.bytes.take 2 ++ p.bytes.drop 2 := (List.take_append_drop _ _).symm
    have e2 : p.bytes.drop 2 = (p.bytes.drop 2).take 20 ++ p.bytes.drop 22 := by
      have := (List.take_append_drop 20 (p.bytes.drop 2)).symm
      rwa [List.drop_drop] at this
    have e3 : p.bytes.drop 22 = t :: p.bytes.drop 23 := by
      obtain ⟨hlt, hget⟩ := List.getElem?_eq_some_iff.mp h4
      rw [← hget]
      exact List.drop_eq_getElem_cons hlt
    refine ⟨by rw [← h3]; simp; omega, p.bytes.drop 23, ?_⟩
    rw [h2] at e1
    rw [e1, Spec.header, ← h3]
    conv => lhs; rw [e2, e3]
    simp

theorem says_registered (cs : List Community) (x : Packet × Address) :
    ((registered cs).forwardLogged x.1 x.2).2.2 = (legacyWarning cs x).toList := by
  rcases hasHeader_or x.1 with ⟨mid, t, h⟩ | ⟨e, he⟩
  · obtain ⟨h1, h2, h3, h4⟩ := (hasHeader_iff _ _ _).mp h
    rw [forwardLogged_eq cs x.1 x.2 mid t h]
    simp only [legacyWarning, h1, h2, h3, h4, true_and, ← legacyName_eq]
    cases lastWith mid cs with
    | none => simp
    | some c => cases deprecatedMessages.lookup t.toUInt64 <;> simp [warnDeprecated]
  · have hn : ∀ mid t, ¬HasHeader x.1 mid t := by
      intro mid t h
      rw [peek_of_hasHeader h] at he
      cases he
    have hl : legacyWarning cs x = none := by
      simp only [legacyWarning]
      split
      · rename_i hc
        split
        · rename_i t ht
          exact absurd ((hasHeader_iff _ _ _).mpr ⟨hc.1, hc.2.1, rfl, ht⟩) (hn _ _)
        · rfl
      · rfl
    rw [hl]
    unfold CommunityRegistry.forwardLogged
    simp [he]

theorem due_registries (css : List (List Community)) (b : Nat) (x : Packet × Address) :
    due (Scribe.registries (css.map registered) b) x = css.filterMap fun cs => legacyWarning cs x := by
  simp only [due, Scribe.registries, List.length_map]
  induction css with
  | nil => rfl
  | cons cs css ih =>
    rw [List.length_cons, List.range_succ_eq_map, List.flatMap_cons, List.flatMap_map]
    simp only [List.map_cons, List.getElem?_cons_zero, List.getElem?_cons_succ, says_registered, ih]
    rw [List.filterMap_cons]
    cases legacyWarning cs x <;> rfl

/-- C106. For receivers that hand their packets to registries the warnings due are: one per registry in which the
addressed community is registered, if the type is a legacy one, with its name and the datagram's source. -/
theorem C106_due (css : List (List Community)) (b : Nat) (address : Address) (queued : List Datagram)
    (ls : List LogLabel) (s : LogState)
    (h : (Scribe.registries (css.map registered) b).run
      ((Scribe.registries (css.map registered) b).init address queued) ls = some s)
    (hq : idle s.net.phase = true) :
    OnePerOne (fun x => css.filterMap fun cs => legacyWarning cs x) (warningsIn s.log) (takenIn s.net.trace) := by
  have := C106_warnings _ address queued ls s h (.inl hq)
  rwa [show due (Scribe.registries (css.map registered) b) = _ from funext (due_registries css b)] at this

theorem onePerOne_one (f : Packet × Address → Option Warning) (ws : List Warning) (xs : List (Packet × Address))
    (h : OnePerOne (fun x => (f x).toList) ws xs) : ws = xs.filterMap f := by
  induction h with
  | nil => rfl
  | snoc g x _ hp ih =>
    rw [ih, List.filterMap_append]
    cases hf : f x with
    | none => rw [hf] at hp; simp [hf, List.perm_nil.mp hp]
    | some w => rw [hf] at hp; simp [hf, List.perm_singleton.mp hp]

/-- C106. With one registry the warnings can be read off the datagrams: they are, in order, those due for the
datagrams handled, which are the ones that arrived up to what is still queued. -/
theorem C106_one (cs : List Community) (b : Nat) (address : Address) (queued : List Datagram)
    (ls : List LogLabel) (s : LogState)
    (h : (Scribe.registries [registered cs] b).run
      ((Scribe.registries [registered cs] b).init address queued) ls = some s)
    (hq : idle s.net.phase = true) :
    ∃ handled, queued ++ arrivals (threadSteps ls) = handled ++ s.net.queue ∧
      warningsIn s.log = (handled.map (received b)).filterMap (legacyWarning cs) := by
  obtain ⟨handled, h1, h2, _⟩ := C43 _ queued _ _ (C106_refines _ address queued ls s h)
  refine ⟨handled, h1, ?_⟩
  have h3 := C106_due [cs] b address queued ls s h hq
  have h4 : (fun x => [cs].filterMap fun cs => legacyWarning cs x) = fun x => (legacyWarning cs x).toList := by
    funext x
    simp only [List.filterMap_cons, List.filterMap_nil]
    cases legacyWarning cs x <;> rfl
  rw [h4] at h3
  rw [onePerOne_one _ _ _ h3, h2]
  rfl

theorem onePerOne_length (due : Packet × Address → List Warning) (n : Nat) (hd : ∀ x, (due x).length ≤ n)
    (ws : List Warning) (xs : List (Packet × Address)) (h : OnePerOne due ws xs) :
    ws.length ≤ xs.length * n := by
  induction h with
  | nil => simp
  | snoc g x _ hp ih =>
    have := hp.length_eq
    have := hd x
    simp only [List.length_append, List.length_singleton, Nat.add_mul, Nat.one_mul]
    omega

/-- C106. A stranger cannot make the log grow faster than that: at every moment, also in the middle of a datagram and
after a panic, there are at most as many warnings as datagrams taken times registries. -/
theorem C106_bound (css : List (List Community)) (b : Nat) (address : Address) (queued : List Datagram)
    (ls : List LogLabel) (s : LogState)
    (h : (Scribe.registries (css.map registered) b).run
      ((Scribe.registries (css.map registered) b).init address queued) ls = some s) :
    (warningsIn s.log).length ≤ (takenIn s.net.trace).length * css.length := by
  have hd : ∀ x, (due (Scribe.registries (css.map registered) b) x).length ≤ css.length := by
    intro x
    rw [due_registries]
    exact List.length_filterMap_le _ _
  obtain ⟨done, now, ws, g, rest, h1, h2, h3, h4, h5⟩ := C106_always _ address queued ls s h
  have h6 := onePerOne_length _ _ hd _ _ h4
  have h7 := h5.length_eq
  rw [h1, h3]
  simp only [List.length_append, Nat.add_mul] at h7 ⊢
  match now, h2 with
  | [], _ =>
    simp at h7
    simpa [h7.1] using h6
  | [x], _ =>
    have := hd x
    simp at h7 ⊢
    omega

/-- C106. Of a datagram's contents nothing but the first 23 bytes decides about its warning, and the line shows
nothing but a fixed name and the source: the payload cannot get into the log. -/
theorem C106_payload (cs : List Community) (p q : Packet) (a : Address) (h : p.bytes.take 23 = q.bytes.take 23) :
    legacyWarning cs (p, a) = legacyWarning cs (q, a) ∧
    ∀ w, legacyWarning cs (p, a) = some w → w.address = a ∧ ∃ t, legacyName t = some w.message := by
  constructor
  · have hlen : 23 ≤ p.bytes.length ↔ 23 ≤ q.bytes.length := by
      have := congrArg List.length h
      simp only [List.length_take] at this
      omega
    have h2 : p.bytes.take 2 = q.bytes.take 2 := by
      have := congrArg (List.take 2) h
      simpa [List.take_take] using this
    have h3 : (p.bytes.drop 2).take 20 = (q.bytes.drop 2).take 20 := by
      have := congrArg (fun l => (List.drop 2 l).take 20) h
      simpa [List.drop_take, List.take_take] using this
    have h4 : p.bytes[22]? = q.bytes[22]? := by
      have := congrArg (fun l => l[22]?) h
      simpa [List.getElem?_take] using this
    simp only [legacyWarning, hlen, h2, h3, h4]
  · intro w hw
    simp only [legacyWarning] at hw
    split at hw
    · split at hw
      · rename_i t _
        cases hn : legacyName t with
        | none => simp [hn] at hw
        | some name =>
          simp only [hn, Option.map_some, Option.some.injEq] at hw
          subst hw
          exact ⟨rfl, t, hn⟩
      · simp at hw
    · simp at hw

/-! ## The thread's own lines know nothing of the datagrams -/

/-- The lines the thread itself writes in an execution. -/
private def linesOf (l : Listener) (n : NetState) : List Label → List LogLine
  | [] => []
  | x :: ls =>
    match l.step n x with
    | some n' => ownLines x n' ++ linesOf l n' ls
    | none => []

private theorem linesOf_run (l : Scribe) (s s' : LogState) (ls : List LogLabel) (h : l.run s ls = some s') :
    threadLines s'.log = threadLines s.log ++ linesOf l.net s.net (threadSteps ls) := by
  induction ls generalizing s with
  | nil =>
    simp only [Scribe.run, Option.some.injEq] at h
    simp [h, threadSteps, linesOf]
  | cons x ls ih =>
    rw [Scribe.run] at h
    cases hx : l.step s x with
    | none => simp [hx] at h
    | some m =>
      simp only [hx] at h
      rw [ih m h]
      cases x with
      | net x =>
        obtain ⟨hn, hl⟩ := step_net l s m x hx
        rw [hl, threadLines_append, threadLines_own]
        simp [threadSteps, linesOf, hn]
      | write r =>
        obtain ⟨w, rest, _, rfl⟩ := step_write l s m r hx
        simp [threadSteps, threadLines]

/-- A phase with packet and source blotted out. -/
private def blank : Phase → Phase
  | .dispatch k _ _ todo running panicked => .dispatch k ⟨[]⟩ ⟨.v4 0 0 0 0 0⟩ todo running panicked
  | x => x

private structure Alike (n m : NetState) : Prop where
  queue : n.queue.length = m.queue.length
  ready : n.ready = m.ready
  phase : blank n.phase = blank m.phase

private theorem alike_step (l k : Listener) (hlk : l.receivers.length = k.receivers.length) (n m n' m' : NetState)
    (x y : Label) (hxy : blot x = blot y) (h : Alike n m) (hx : l.step n x = some n') (hy : k.step m y = some m') :
    Alike n' m' ∧ ownLines x n' = ownLines y m' := by
  obtain ⟨h1, h2, h3⟩ := h
  cases x <;> cases y <;> simp only [blot, reduceCtorEq, Label.start.injEq, Label.finish.injEq,
    Label.crash.injEq] at hxy
  all_goals simp only [Listener.step] at hx hy
  case arrive.arrive =>
    simp only [Option.some.injEq] at hx hy
    subst hx hy
    exact ⟨⟨by simp [h1], rfl, h3⟩, rfl⟩
  all_goals
    cases hn : n.phase <;> cases hm : m.phase <;> simp only [hn, hm, blank, reduceCtorEq] at h3 hx hy
  case pollEvent.pollEvent =>
    rw [h2] at hx
    cases hr : m.ready <;> simp only [hr, reduceCtorEq, Option.some.injEq] at hx hy
    subst hx hy
    exact ⟨⟨h1, rfl, rfl⟩, rfl⟩
  case pollTimeout.pollTimeout =>
    simp only [Option.some.injEq] at hx hy
    subst hx hy
    exact ⟨⟨h1, h2, by rw [hn, hm]⟩, rfl⟩
  case pollSpurious.pollSpurious =>
    simp only [Option.some.injEq] at hx hy
    subst hx hy
    exact ⟨⟨h1, h2, rfl⟩, rfl⟩
  case pollError.pollError =>
    simp only [Option.some.injEq] at hx hy
    subst hx hy
    exact ⟨⟨h1, h2, rfl⟩, rfl⟩
  case recv.recv e f =>
    cases h3
    cases e with
    | zero => simp at hx
    | succ e =>
      cases hnq : n.queue <;> cases hmq : m.queue <;> simp only [hnq, hmq, List.length_nil, List.length_cons,
        Nat.add_right_cancel_iff, reduceCtorEq, Nat.add_eq_zero_iff, and_false] at h1 hx hy <;>
        simp only [Option.some.injEq] at hx hy
      all_goals subst hx hy
      · exact ⟨⟨by simp [hnq, hmq], h2, rfl⟩, rfl⟩
      · exact ⟨⟨h1, h2, by simp [blank, hlk]⟩, rfl⟩
  case recvError.recvError e f =>
    cases h3
    cases e with
    | zero => simp at hx
    | succ e =>
      simp only [Option.some.injEq] at hx hy
      subst hx hy
      exact ⟨⟨h1, h2, rfl⟩, rfl⟩
  case join.join =>
    cases h3
    split at hx
    · rename_i hc
      rw [if_pos hc] at hy
      simp only [Option.some.injEq] at hx hy
      subst hx hy
      exact ⟨⟨h1, h2, rfl⟩, by simp [ownLines, closing_eq]⟩
    · simp at hx
  all_goals
    cases h3
    subst hxy
    split at hx <;> split at hy <;> first
      | contradiction
      | (simp only [Option.some.injEq] at hx hy
         subst hx hy
         exact ⟨⟨h1, h2, rfl⟩, rfl⟩)

/-- C106. The thread's own lines are the same whatever the datagrams contain and wherever they come from: two
executions that differ only in that write the same lines. -/
theorem C106_blind (l k : Scribe) (hlk : l.net.receivers.length = k.net.receivers.length) (address : Address)
    (queued queued' : List Datagram) (hq : queued.length = queued'.length) (ls ls' : List LogLabel)
    (s s' : LogState) (h : l.run (l.init address queued) ls = some s)
    (h' : k.run (k.init address queued') ls' = some s')
    (hsame : (threadSteps ls).map blot = (threadSteps ls').map blot) :
    threadLines s.log = threadLines s'.log := by
  rw [linesOf_run l _ s ls h, linesOf_run k _ s' ls' h']
  have hr := C106_refines l address queued ls s h
  have hr' := C106_refines k address queued' ls' s' h'
  congr 1
  have hal : Alike (l.net.init queued) (k.net.init queued') :=
    ⟨hq, by simp only [Listener.init]; cases queued <;> cases queued' <;> simp_all, rfl⟩
  show linesOf l.net (l.net.init queued) _ = linesOf k.net (k.net.init queued') _
  revert hr hr' hsame hal
  generalize l.net.init queued = n, k.net.init queued' = m, threadSteps ls = xs, threadSteps ls' = ys
  intro hsame hr hr' hal
  induction xs generalizing n m ys with
  | nil =>
    cases ys with
    | nil => rfl
    | cons y ys => simp at hsame
  | cons x xs ih =>
    cases ys with
    | nil => simp at hsame
    | cons y ys =>
      simp only [List.map_cons, List.cons.injEq] at hsame
      rw [Listener.run] at hr hr'
      cases hx : l.net.step n x with
      | none => simp [hx] at hr
      | some n' =>
        cases hy : k.net.step m y with
        | none => simp [hy] at hr'
        | some m' =>
          simp only [hx] at hr
          simp only [hy] at hr'
          obtain ⟨ha, hl⟩ := alike_step l.net k.net hlk n m n' m' x y hsame.1 hal hx hy
          simp only [linesOf, hx, hy, hl]
          congr 1
          exact ih n' m' ys hsame.2 hr hr' ha

/-! ## Examples -/

/-- A legacy message (type 248) to a registered community: the whole log. -/
example :
    let l := Scribe.registries [registered [exampleCommunity 1 7]] 64
    (l.run (l.init ⟨.v4 127 0 0 1 80⟩ [])
      [.net .pollTimeout, .net (.arrive ⟨[0, 2] ++ List.replicate 20 7 ++ [248, 9, 9], .v4 1 2 3 4 5⟩),
       .net .pollEvent, .net .recv, .net (.start 0), .write 0, .net (.finish 0), .net .join]).map
        (fun s => (s.log, idle s.net.phase)) =
      some ([.receiving ⟨.v4 127 0 0 1 80⟩, .listener, .checking, .checking, .handling,
        .deprecated ⟨"on-identity", ⟨.v4 1 2 3 4 5⟩⟩], true) := by
  decide +kernel

/-- A call does not return before its line is written. -/
example :
    let l := Scribe.registries [registered [exampleCommunity 1 7]] 64
    l.run (l.init ⟨.v4 127 0 0 1 80⟩ [])
      [.net (.arrive ⟨[0, 2] ++ List.replicate 20 7 ++ [248, 9, 9], .v4 1 2 3 4 5⟩),
       .net .pollEvent, .net .recv, .net (.start 0), .net (.finish 0)] = none := by
  decide +kernel

/-- Two receivers: their lines come in either order, but before those of the next datagram. -/
example :
    let l : Scribe := ⟨⟨[⟨fun _ _ => false, fun _ _ => []⟩, ⟨fun _ _ => false, fun _ _ => []⟩], 64⟩,
      fun r _ a => [⟨if r = 0 then "a" else "b", a⟩]⟩
    let d : Datagram := ⟨[1], .v4 1 2 3 4 5⟩
    (l.run (l.init ⟨.v4 127 0 0 1 80⟩ [])
      [.net (.arrive d), .net .pollEvent, .net .recv, .net (.start 0), .net (.start 1), .write 1, .write 0,
       .net (.finish 0), .net (.finish 1), .net .join]).map (fun s => (warningsIn s.log).map (·.message)) =
      some ["b", "a"] := by
  decide +kernel

/-- A receiver panics: the thread is gone, and no line says so. -/
example :
    let l : Scribe := ⟨⟨[⟨fun _ _ => true, fun _ _ => []⟩], 64⟩, fun _ _ _ => []⟩
    (l.run (l.init ⟨.v4 127 0 0 1 80⟩ [⟨[1], .v4 1 2 3 4 5⟩])
      [.net .pollEvent, .net .recv, .net (.start 0), .net (.crash 0), .net .join]).map
        (fun s => (s.log, s.net.phase)) =
      some ([.receiving ⟨.v4 127 0 0 1 80⟩, .listener, .checking, .handling], .stopped .receiverPanic) := by
  decide +kernel

/-- The hypotheses of `C106_blind` are met by executions with different datagrams, one of which leads to a warning. -/
example :
    let l := Scribe.registries [registered [exampleCommunity 1 7]] 64
    let steps (d : Datagram) (w : List LogLabel) : List LogLabel :=
      [.net (.arrive d), .net .pollEvent, .net .recv, .net (.start 0)] ++ w ++ [.net (.finish 0), .net .join]
    let d1 : Datagram := ⟨[0, 2] ++ List.replicate 20 7 ++ [248, 9, 9], .v4 1 2 3 4 5⟩
    let d2 : Datagram := ⟨[1, 2, 3], .v4 9 9 9 9 9⟩
    (l.run (l.init ⟨.v4 127 0 0 1 80⟩ []) (steps d1 [.write 0])).isSome = true ∧
    (l.run (l.init ⟨.v4 127 0 0 1 80⟩ []) (steps d2 [])).isSome = true ∧
    (threadSteps (steps d1 [.write 0])).map blot = (threadSteps (steps d2 [])).map blot ∧
    steps d1 [.write 0] ≠ steps d2 [] := by
  decide +kernel

/-! ## Cases for the theorems above -/

/-- `C106_bound`, `C106_errors` and `C106_one`: the execution of the first example. -/
example (s : LogState) (h : (Scribe.registries ([[exampleCommunity 1 7]].map registered) 64).run
    ((Scribe.registries ([[exampleCommunity 1 7]].map registered) 64).init ⟨.v4 127 0 0 1 80⟩ [])
    [.net .pollTimeout, .net (.arrive ⟨[0, 2] ++ List.replicate 20 7 ++ [248, 9, 9], .v4 1 2 3 4 5⟩),
     .net .pollEvent, .net .recv, .net (.start 0), .write 0, .net (.finish 0), .net .join] = some s) :
    (warningsIn s.log).length ≤ (takenIn s.net.trace).length ∧ errorsIn s.log = [] ∧
    ∃ handled, [⟨[0, 2] ++ List.replicate 20 7 ++ [248, 9, 9], .v4 1 2 3 4 5⟩] = handled ++ s.net.queue ∧
      warningsIn s.log = (handled.map (received 64)).filterMap (legacyWarning [exampleCommunity 1 7]) := by
  have hp : s.net.phase = .polling := by
    cases h
    decide +kernel
  have h1 := C106_bound [[exampleCommunity 1 7]] 64 _ _ _ s h
  exact ⟨by simpa using h1, (C106_errors _ _ _ _ s h).1 (by rw [hp]; rfl),
    C106_one [exampleCommunity 1 7] 64 _ [] _ s h (by rw [hp]; rfl)⟩

/-- `C106_lifts`: the execution of `exampleRun` with receivers that write a line each. -/
example (n : NetState) (h : exampleListener.run (exampleListener.init []) exampleRun = some n) :
    ∃ ls' s, (Scribe.mk exampleListener fun _ _ a => [⟨"a", a⟩]).run
      ((Scribe.mk exampleListener fun _ _ a => [⟨"a", a⟩]).init ⟨.v4 127 0 0 1 80⟩ []) ls' = some s ∧
      threadSteps ls' = exampleRun ∧ s.net = n :=
  C106_lifts (Scribe.mk exampleListener fun _ _ a => [⟨"a", a⟩]) _ [] exampleRun n h

/-- `C106_payload`: two messages that differ behind the header. -/
example : legacyWarning [exampleCommunity 1 7] (⟨[0, 2] ++ List.replicate 20 7 ++ [248, 9, 9]⟩, ⟨.v4 1 2 3 4 5⟩) =
    legacyWarning [exampleCommunity 1 7] (⟨[0, 2] ++ List.replicate 20 7 ++ [248]⟩, ⟨.v4 1 2 3 4 5⟩) :=
  (C106_payload _ _ _ _ (by decide)).1

/-- `C106_due` and `C106_warnings`: the execution of the first example again. -/
example (s : LogState) (h : (Scribe.registries ([[exampleCommunity 1 7]].map registered) 64).run
    ((Scribe.registries ([[exampleCommunity 1 7]].map registered) 64).init ⟨.v4 127 0 0 1 80⟩ [])
    [.net .pollTimeout, .net (.arrive ⟨[0, 2] ++ List.replicate 20 7 ++ [248, 9, 9], .v4 1 2 3 4 5⟩),
     .net .pollEvent, .net .recv, .net (.start 0), .write 0, .net (.finish 0), .net .join] = some s) :
    OnePerOne (fun x => [[exampleCommunity 1 7]].filterMap fun cs => legacyWarning cs x) (warningsIn s.log) (takenIn s.net.trace) ∧
    OnePerOne (due (Scribe.registries ([[exampleCommunity 1 7]].map registered) 64)) (warningsIn s.log) (takenIn s.net.trace) := by
  have hp : s.net.phase = .polling := by
    cases h
    decide +kernel
  exact ⟨C106_due [[exampleCommunity 1 7]] 64 _ _ _ s h (by rw [hp]; rfl), C106_warnings _ _ _ _ s h (.inl (by rw [hp]; rfl))⟩

/-- `C106`, `C106_always` and `C106_refines`: the execution of the first example again. -/
example (s : LogState) (h : (Scribe.registries ([[exampleCommunity 1 7]].map registered) 64).run
    ((Scribe.registries ([[exampleCommunity 1 7]].map registered) 64).init ⟨.v4 127 0 0 1 80⟩ [])
    [.net .pollTimeout, .net (.arrive ⟨[0, 2] ++ List.replicate 20 7 ++ [248, 9, 9], .v4 1 2 3 4 5⟩),
     .net .pollEvent, .net .recv, .net (.start 0), .write 0, .net (.finish 0), .net .join] = some s) :=
  And.intro (C106 _ _ _ _ s h) (And.intro (C106_always _ _ _ _ s h) (C106_refines _ _ _ _ s h))

end Ipv8
