import Verif.Props.Network
/-!
# C74: waiting for a listener
-/

namespace Ipv8

open Spec

/-- C74. `join` on what `start` returned blocks exactly as long as the thread runs, and never answers
`Ok`: whenever it answers, the thread has panicked. -/
theorem C74 (s : NetState) :
    (s.joined = none ↔ dead s.phase = false) ∧
    ∀ r log, s.joined = some (r, log) → r = .panic := by
  cases hp : s.phase <;> simp [NetState.joined, hp, dead]
  rename_i c
  cases c <;> simp [Stop.listen, threadMain]

/-- A receiver has panicked on the current datagram. -/
private def crashed : Phase → Bool
  | .dispatch _ _ _ _ _ panicked => panicked
  | .stopped .receiverPanic => true
  | _ => false

private theorem crashed_step (l : Listener) (s s' : NetState) (x : Label) (hx : l.step s x = some s') :
    crashed s'.phase = true ↔ crashed s.phase = true ∨ ∃ r, x = .crash r := by
  cases x <;> simp only [Listener.step] at hx
  case arrive => cases hx; simp
  all_goals
    cases hp : s.phase <;> simp only [hp] at hx
  all_goals
    (repeat' split at hx)
  all_goals
    first
    | (cases hx; done)
    | (simp only [Option.some.injEq] at hx; subst hx
       try simp_all [crashed, afterEvent])
  all_goals
    (rename_i k _ _ _ _ _ _ _
     cases k <;> simp)

private theorem crashed_run (l : Listener) (ls : List Label) (s s' : NetState) (h : l.run s ls = some s') :
    crashed s'.phase = true ↔ crashed s.phase = true ∨ ∃ r, .crash r ∈ ls := by
  induction ls generalizing s with
  | nil => simp only [Listener.run, Option.some.injEq] at h; subst h; simp
  | cons a ls ih =>
    rw [Listener.run] at h
    cases ha : l.step s a with
    | none => rw [ha] at h; simp at h
    | some m =>
      rw [ha] at h
      rw [ih m h, crashed_step l s m a ha]
      simp only [List.mem_cons]
      constructor
      · rintro ((h | ⟨r, rfl⟩) | ⟨r, h⟩)
        · exact .inl h
        · exact .inr ⟨r, .inl rfl⟩
        · exact .inr ⟨r, .inr h⟩
      · rintro (h | ⟨r, h | h⟩)
        · exact .inl (.inl h)
        · exact .inl (.inr ⟨r, h.symm⟩)
        · exact .inr ⟨r, h⟩

/-- C74. What has been logged when it answers: one line if polling or reading failed, nothing if a
receiver panicked.  So a listener that a receiver brought down leaves no line in the log. -/
theorem C74_log (l : Listener) (queued : List Datagram) (ls : List Label) (s : NetState)
    (h : l.run (l.init queued) ls = some s) (r : Outcome Unit) (log : List String)
    (hj : s.joined = some (r, log)) :
    ((∃ k, .crash k ∈ ls) → log = []) ∧
    ((∀ k, .crash k ∉ ls) → log = ["the listening thread crashed"]) := by
  have hc := crashed_run l ls _ _ h
  simp only [Listener.init, crashed, Bool.false_eq_true, false_or] at hc
  cases hp : s.phase <;> simp [NetState.joined, hp] at hj
  rename_i c
  rw [hp] at hc
  cases c <;> simp [Stop.listen, threadMain] at hj hc
  · exact ⟨fun ⟨k, hk⟩ => absurd hk (hc k), fun _ => hj.2.symm⟩
  · exact ⟨fun ⟨k, hk⟩ => absurd hk (hc k), fun _ => hj.2.symm⟩
  · exact ⟨fun _ => hj.2, fun h => absurd hc.choose_spec (h _)⟩

/-- C74. A thread for which nothing fails is waited for forever. -/
theorem C74_forever (l : Listener) (queued : List Datagram) (ls : List Label) (s : NetState)
    (h : l.run (l.init queued) ls = some s) (h1 : .pollError ∉ ls) (h2 : .recvError ∉ ls)
    (h3 : .pollSpurious ∉ ls) (h4 : NoPanics l) : s.joined = none :=
  (C74 s).1.mpr (C46 l queued ls s h h1 h2 h3 h4)

/-- C74. The answer is final: once `join` can answer, no later step changes the answer. -/
theorem C74_final (l : Listener) (s s' : NetState) (ls : List Label) (x : Outcome Unit × List String)
    (hj : s.joined = some x) (h : l.run s ls = some s') : s'.joined = some x := by
  induction ls generalizing s with
  | nil => simp only [Listener.run, Option.some.injEq] at h; exact h ▸ hj
  | cons a ls ih =>
    rw [Listener.run] at h
    cases ha : l.step s a with
    | none => rw [ha] at h; simp at h
    | some m =>
      rw [ha] at h
      refine ih m ?_ h
      have hd : dead s.phase = true := by
        cases hp : s.phase <;> simp [NetState.joined, hp] at hj ⊢ <;> rfl
      have := (C46_final l s m a hd ha).1
      simpa [NetState.joined, this] using hj

/-- All three answers occur. -/
example :
    (∃ s, (Listener.mk [] 16).run (Listener.init ⟨[], 16⟩ []) [.pollError] = some s ∧
      s.joined = some (.panic, ["the listening thread crashed"])) ∧
    (∃ s, (Listener.mk [⟨fun _ _ => true, fun _ _ => []⟩] 16).run
        (Listener.init ⟨[⟨fun _ _ => true, fun _ _ => []⟩], 16⟩ [])
        [.arrive ⟨[1], .v4 1 2 3 4 5⟩, .pollEvent, .recv, .start 0, .crash 0, .join] = some s ∧
      s.joined = some (.panic, [])) ∧
    (Listener.init ⟨[], 16⟩ []).joined = none := by
  refine ⟨⟨_, rfl, rfl⟩, ⟨_, rfl, rfl⟩, rfl⟩

/-! ## Cases for the theorems above -/

/-- `C74_forever`: nothing goes wrong in `exampleRun`. -/
example (s : NetState) (h : exampleListener.run (exampleListener.init []) exampleRun = some s) : s.joined = none :=
  C74_forever exampleListener [] exampleRun s h (by simp [exampleRun]) (by simp [exampleRun]) (by simp [exampleRun])
    (by simp [NoPanics, exampleListener])

/-- `C74_log`: `poll` fails. -/
example (s : NetState) (h : exampleListener.run (exampleListener.init []) (exampleRun ++ [.pollError]) = some s)
    (r : Outcome Unit) (log : List String) (hj : s.joined = some (r, log)) : log = ["the listening thread crashed"] :=
  (C74_log exampleListener [] _ s h r log hj).2 (by simp [exampleRun])

/-- `C74_final`: a datagram after that. -/
example (s s' : NetState) (h : exampleListener.run (exampleListener.init []) (exampleRun ++ [.pollError]) = some s)
    (h' : exampleListener.run s [.arrive exampleDatagram] = some s') :=
  C74_final exampleListener s s' [.arrive exampleDatagram] (.panic, ["the listening thread crashed"]) (by cases h; rfl) h'

end Ipv8
