import Verif.Props.Backlog
/-!
# C79: liveness of the listening thread

What must happen sooner or later, in executions that never end.
-/

namespace Ipv8
open Spec

/-! ## Specification -/

/-- An execution without end of a listening thread, its pool and its socket.  At each moment one of them
makes a step, or (`none`) something else on the machine does. -/
structure Execution (l : Listener) where
  /-- what was in the socket at the start -/
  queued : List Datagram
  state : Nat → NetState
  label : Nat → Option Label
  start : state 0 = l.init queued
  step : ∀ n, match label n with
    | some x => l.step (state n) x = some (state (n + 1))
    | none => state (n + 1) = state n

/-- The steps up to a moment. -/
def Execution.upTo {l : Listener} (E : Execution l) (n : Nat) : List Label :=
  (List.range n).filterMap E.label

/-- The machine is fair: if from some moment on there is always something that the thread or the pool could
do, then one of them does something.  This includes that running receivers return.  (With a `queuesize` of 0
this is not so: see C73.) -/
def Execution.Fair {l : Listener} (E : Execution l) : Prop :=
  ∀ n, (∀ m, n ≤ m → ∃ x, internal x = true ∧ (l.step (E.state m) x).isSome = true) →
    ∃ m x, n ≤ m ∧ internal x = true ∧ E.label m = some x

/-- Nothing fails and no notification comes without a datagram. -/
def Execution.Smooth {l : Listener} (E : Execution l) : Prop :=
  ∀ n x, E.label n = some x → internal x = true ∨ x = .pollTimeout ∨ ∃ d, x = .arrive d

/-- Datagrams never stop coming. -/
def Execution.Endless {l : Listener} (E : Execution l) : Prop :=
  ∀ n, ∃ m d, n ≤ m ∧ E.label m = some (.arrive d)

/-! ## Proofs -/

theorem least {P : Nat → Prop} (n : Nat) (h : P n) : ∃ m, P m ∧ ∀ k, k < m → ¬ P k := by
  induction n using Nat.strongRecOn with
  | ind n ih =>
    by_cases hk : ∃ k, k < n ∧ P k
    · obtain ⟨k, hk, hp⟩ := hk
      exact ih k hk hp
    · exact ⟨n, h, fun k hlt hp => hk ⟨k, hlt, hp⟩⟩

theorem Execution.run {l : Listener} (E : Execution l) (n : Nat) :
    l.run (l.init E.queued) (E.upTo n) = some (E.state n) := by
  induction n with
  | zero => simp [Execution.upTo, Listener.run, E.start]
  | succ n ih =>
    have hs := E.step n
    unfold Execution.upTo at ih ⊢
    rw [List.range_succ, List.filterMap_append, run_append, ih]
    cases hx : E.label n with
    | none =>
      rw [hx] at hs
      simp only [List.filterMap_cons, hx, List.filterMap_nil]
      simp only [Option.bind_some, Listener.run]
      exact congrArg some hs.symm
    | some x =>
      rw [hx] at hs
      simp only [List.filterMap_cons, hx, List.filterMap_nil, Option.bind_some, Listener.run, hs]

theorem Execution.upTo_succ {l : Listener} (E : Execution l) (n : Nat) :
    E.upTo (n + 1) = E.upTo n ++ (E.label n).toList := by
  unfold Execution.upTo
  rw [List.range_succ, List.filterMap_append]
  cases h : E.label n <;> simp [h]

theorem Execution.upTo_le {l : Listener} (E : Execution l) {n m : Nat} (h : n ≤ m) :
    E.upTo n <+: E.upTo m := by
  induction h with
  | refl => exact List.prefix_refl _
  | step _ ih => rw [E.upTo_succ]; exact ih.trans (List.prefix_append _ _)

theorem Execution.healthy {l : Listener} (hl : NoPanics l) (E : Execution l) (hs : E.Smooth) (n : Nat) :
    Healthy (E.state n) := by
  refine healthy_run l hl _ _ _ (healthy_init l E.queued) (E.run n) ?_
  intro x hx
  unfold Execution.upTo at hx
  obtain ⟨k, -, hk⟩ := List.mem_filterMap.mp hx
  exact hs k x hk

/-- Steps that are not work leave the thread where it is. -/
theorem Execution.same {l : Listener} (E : Execution l) (hs : E.Smooth) (n : Nat)
    (h : ∀ x, E.label n = some x → internal x = false) :
    (E.state (n + 1)).phase = (E.state n).phase ∧ (E.state (n + 1)).trace = (E.state n).trace ∧
      ((E.state n).ready = true → (E.state (n + 1)).ready = true) := by
  have hst := E.step n
  cases hx : E.label n with
  | none => rw [hx] at hst; simp only at hst; rw [hst]; exact ⟨rfl, rfl, id⟩
  | some x =>
    rw [hx] at hst
    rcases hs n x hx with hi | rfl | ⟨d, rfl⟩
    · rw [h x hx] at hi; cases hi
    · simp only [Listener.step] at hst
      split at hst
      · simp only [Option.some.injEq] at hst; rw [hst]; exact ⟨rfl, rfl, id⟩
      · cases hst
    · simp only [Listener.step, Option.some.injEq] at hst
      rw [← hst]
      exact ⟨rfl, rfl, fun _ => rfl⟩

theorem Execution.same_until {l : Listener} (E : Execution l) (hs : E.Smooth) (n m : Nat) (hnm : n ≤ m)
    (h : ∀ k, n ≤ k → k < m → ∀ x, E.label k = some x → internal x = false) :
    (E.state m).phase = (E.state n).phase ∧ (E.state m).trace = (E.state n).trace ∧
      ((E.state n).ready = true → (E.state m).ready = true) := by
  induction hnm with
  | refl => exact ⟨rfl, rfl, id⟩
  | @step m hnm ih =>
    have h1 := ih (fun k hk hkm => h k hk (Nat.lt_succ_of_lt hkm))
    have h2 := E.same hs m (fun x => h m hnm (Nat.lt_succ_self _) x)
    exact ⟨h2.1.trans h1.1, h2.2.1.trans h1.2.1, fun hr => h2.2.2 (h1.2.2 hr)⟩

/-- If the thread is not waiting for a notification, work is done next. -/
theorem Execution.next {l : Listener} (hl : NoPanics l) (E : Execution l) (hf : E.Fair) (hs : E.Smooth)
    (n : Nat) (hb : ¬ Waiting (E.state n)) :
    ∃ m x, n ≤ m ∧ internal x = true ∧ E.label m = some x ∧
      l.step (E.state m) x = some (E.state (m + 1)) ∧
      (E.state m).phase = (E.state n).phase ∧ (E.state m).trace = (E.state n).trace ∧
      ((E.state n).ready = true → (E.state m).ready = true) := by
  have hex : ∃ m, n ≤ m ∧ ∃ x, internal x = true ∧ E.label m = some x := by
    by_cases hc : ∃ m, n ≤ m ∧ ∃ x, internal x = true ∧ E.label m = some x
    · exact hc
    · exfalso
      have hno : ∀ k, n ≤ k → ∀ x, E.label k = some x → internal x = false := by
        intro k hk x hx
        cases hi : internal x with
        | false => rfl
        | true => exact absurd ⟨k, hk, x, hi, hx⟩ hc
      obtain ⟨m, x, h1, h2, h3⟩ := hf n (by
        intro m hm
        obtain ⟨g1, -, g3⟩ := E.same_until hs n m hm (fun k hk _ => hno k hk)
        rcases C47_progress l _ (E.healthy hl hs m) with ⟨hp, hr⟩ | ⟨x, s', hi, hx⟩
        · exfalso
          apply hb
          refine ⟨by rw [← g1]; exact hp, ?_⟩
          cases hrn : (E.state n).ready with
          | false => rfl
          | true => rw [g3 hrn] at hr; cases hr
        · exact ⟨x, hi, by rw [hx]; rfl⟩)
      exact hc ⟨m, h1, x, h2, h3⟩
  obtain ⟨m0, hm0⟩ := hex
  obtain ⟨m, ⟨hnm, x, hi, hx⟩, hmin⟩ :=
    least (P := fun k => n ≤ k ∧ ∃ x, internal x = true ∧ E.label k = some x) m0 hm0
  have hsame := E.same_until hs n m hnm (by
    intro k hk hkm y hy
    cases hiy : internal y with
    | false => rfl
    | true => exact absurd ⟨hk, y, hiy, hy⟩ (hmin k hkm))
  have hst := E.step m
  rw [hx] at hst
  exact ⟨m, x, hnm, hi, hx, hst, hsame⟩

/-- Steps of work before the next datagram is taken, if a notification is pending. -/
def togo (s : NetState) : Nat :=
  match s.phase with
  | .polling => 2
  | .handling _ => 1
  | .dispatch _ _ _ todo running _ => 3 + 2 * todo.length + running.length
  | .stopped _ => 0

theorem togo_step (l : Listener) (s s' : NetState) (x : Label) (h : Healthy s) (hx : l.step s x = some s')
    (hi : internal x = true) (hr : s.ready = true ∨ ∃ k, s.phase = .handling k) :
    x = .recv ∨ (togo s' < togo s ∧ (s'.ready = true ∨ ∃ k, s'.phase = .handling k)) := by
  cases x with
  | recv => exact .inl rfl
  | pollEvent =>
    right
    simp only [Listener.step] at hx
    split at hx
    · rename_i hph hrd
      cases hx
      exact ⟨by simp [togo, hph], .inr ⟨1, rfl⟩⟩
    · cases hx
  | start r =>
    right
    simp only [Listener.step] at hx
    split at hx
    · rename_i k p a todo running panicked hph
      split at hx
      · rename_i hm
        cases hx
        have := List.length_erase_of_mem hm
        have := List.length_pos_of_mem hm
        refine ⟨by simp only [togo, hph, List.length_cons]; omega, .inl ?_⟩
        rcases hr with hr | ⟨k, hr⟩
        · exact hr
        · rw [hph] at hr; cases hr
      · cases hx
    · cases hx
  | finish r =>
    right
    simp only [Listener.step] at hx
    split at hx
    · rename_i k p a todo running panicked hph
      split at hx
      · rename_i hm
        cases hx
        have := List.length_erase_of_mem hm
        have := List.length_pos_of_mem hm
        refine ⟨by simp only [togo, hph]; omega, .inl ?_⟩
        rcases hr with hr | ⟨k, hr⟩
        · exact hr
        · rw [hph] at hr; cases hr
      · cases hx
    · cases hx
  | join =>
    right
    simp only [Listener.step] at hx
    split at hx
    · rename_i k p a todo running panicked hph
      split at hx
      · cases hx
        have := h.calm _ _ _ _ _ _ hph
        subst this
        refine ⟨?_, .inl ?_⟩
        · simp only [togo, hph, afterEvent]
          by_cases hk : k = 0 <;> simp [hk] <;> omega
        · rcases hr with hr | ⟨k, hr⟩
          · exact hr
          · rw [hph] at hr; cases hr
      · cases hx
    · cases hx
  | arrive => simp [internal] at hi
  | pollTimeout => simp [internal] at hi
  | pollSpurious => simp [internal] at hi
  | pollError => simp [internal] at hi
  | recvError => simp [internal] at hi
  | crash => simp [internal] at hi

theorem Execution.recvs {l : Listener} (hl : NoPanics l) (E : Execution l) (hf : E.Fair) (hs : E.Smooth)
    (n : Nat) (hr : (E.state n).ready = true ∨ ∃ k, (E.state n).phase = .handling k) :
    ∃ m, n ≤ m ∧ E.label m = some .recv := by
  induction ht : togo (E.state n) using Nat.strongRecOn generalizing n with
  | ind t ih =>
    subst ht
    obtain ⟨m, x, h1, h2, h3, h4, h5, h6, h7⟩ := E.next hl hf hs n (by
      intro hw
      rcases hr with hr | ⟨k, hr⟩
      · rw [hw.2] at hr; cases hr
      · rw [hw.1] at hr; cases hr)
    have htg : togo (E.state m) = togo (E.state n) := by simp only [togo, h5]
    rcases togo_step l _ _ x (E.healthy hl hs m) h4 h2 (by
      rcases hr with hr | ⟨k, hr⟩
      · exact .inl (h7 hr)
      · exact .inr ⟨k, by rw [h5]; exact hr⟩) with rfl | ⟨g1, g2⟩
    · exact ⟨m, h1, h3⟩
    · obtain ⟨m', i1, i2⟩ := ih _ (by omega) (m + 1) g2 rfl
      exact ⟨m', by omega, i2⟩

theorem taken_mono (l : Listener) (s s' : NetState) (x : Label) (h : l.step s x = some s') :
    s.trace <+: s'.trace := by
  cases x <;> simp only [Listener.step] at h <;> (repeat' split at h) <;>
    simp only [Option.some.injEq, reduceCtorEq] at h <;> subst h <;> simp

theorem Execution.trace_le {l : Listener} (E : Execution l) {n m : Nat} (h : n ≤ m) :
    (E.state n).trace <+: (E.state m).trace := by
  induction h with
  | refl => exact List.prefix_refl _
  | @step m _ ih =>
    refine ih.trans ?_
    have hst := E.step m
    cases hx : E.label m with
    | none => rw [hx] at hst; simp only at hst; rw [hst]; exact List.prefix_refl _
    | some x => rw [hx] at hst; exact taken_mono l _ _ x hst

theorem takenIn_le {t u : List Ev} (h : t <+: u) : (takenIn t).length ≤ (takenIn u).length := by
  obtain ⟨w, rfl⟩ := h
  simp

/-- A pending notification leads to a datagram being taken. -/
theorem Execution.takes {l : Listener} (hl : NoPanics l) (E : Execution l) (hf : E.Fair) (hs : E.Smooth)
    (n : Nat) (hr : (E.state n).ready = true ∨ ∃ k, (E.state n).phase = .handling k) :
    ∃ m, n < m ∧ (takenIn (E.state n).trace).length < (takenIn (E.state m).trace).length := by
  obtain ⟨m, h1, h2⟩ := E.recvs hl hf hs n hr
  have hst := E.step m
  rw [h2] at hst
  have hle := takenIn_le (E.trace_le h1)
  refine ⟨m + 1, by omega, ?_⟩
  have hal := (E.healthy hl hs (m + 1)).alive
  simp only [Listener.step] at hst
  split at hst
  · split at hst
    · simp only [Option.some.injEq] at hst
      rw [← hst] at hal
      simp [dead] at hal
    · simp only [Option.some.injEq] at hst
      rw [← hst]
      simp [takenIn]
      omega
  · cases hst

/-- The thread always gets done with the datagram at hand. -/
theorem Execution.idles {l : Listener} (hl : NoPanics l) (E : Execution l) (hf : E.Fair) (hs : E.Smooth)
    (n : Nat) : ∃ m, n ≤ m ∧ idle (E.state m).phase = true ∧
      takenIn (E.state m).trace = takenIn (E.state n).trace := by
  induction ht : togo (E.state n) using Nat.strongRecOn generalizing n with
  | ind t ih =>
    subst ht
    cases hp : (E.state n).phase with
    | polling => exact ⟨n, Nat.le_refl _, by rw [hp]; rfl, rfl⟩
    | handling k => exact ⟨n, Nat.le_refl _, by rw [hp]; rfl, rfl⟩
    | stopped c =>
      have := (E.healthy hl hs n).alive
      rw [hp] at this
      cases this
    | dispatch k p a todo running panicked =>
      obtain ⟨m, x, h1, h2, h3, h4, h5, h6, -⟩ := E.next hl hf hs n (by
        intro hw; rw [hw.1] at hp; cases hp)
      rw [hp] at h5
      have hstep : togo (E.state (m + 1)) < togo (E.state n) ∧
          takenIn (E.state (m + 1)).trace = takenIn (E.state m).trace := by
        cases x with
        | recv => simp [Listener.step, h5] at h4
        | pollEvent => simp [Listener.step, h5] at h4
        | start r =>
          simp only [Listener.step, h5] at h4
          split at h4
          · rename_i hm
            have := List.length_erase_of_mem hm
            have := List.length_pos_of_mem hm
            simp only [Option.some.injEq] at h4
            rw [← h4]
            refine ⟨by simp only [togo, hp, List.length_cons]; omega, by simp [takenIn]⟩
          · cases h4
        | finish r =>
          simp only [Listener.step, h5] at h4
          split at h4
          · rename_i hm
            have := List.length_erase_of_mem hm
            have := List.length_pos_of_mem hm
            simp only [Option.some.injEq] at h4
            rw [← h4]
            refine ⟨by simp only [togo, hp]; omega, by simp [takenIn]⟩
          · cases h4
        | join =>
          simp only [Listener.step, h5] at h4
          split at h4
          · simp only [Option.some.injEq] at h4
            have := (E.healthy hl hs m).calm _ _ _ _ _ _ h5
            subst this
            rw [← h4]
            refine ⟨?_, rfl⟩
            simp only [togo, hp, afterEvent]
            by_cases hk : k = 0 <;> simp [hk] <;> omega
          · cases h4
        | arrive => simp [internal] at h2
        | pollTimeout => simp [internal] at h2
        | pollSpurious => simp [internal] at h2
        | pollError => simp [internal] at h2
        | recvError => simp [internal] at h2
        | crash => simp [internal] at h2
      obtain ⟨m', i1, i2, i3⟩ := ih _ hstep.1 (m + 1) rfl
      exact ⟨m', by omega, i2, by rw [i3, hstep.2, h6]⟩

/-- Once `k + 1` datagrams were taken, every receiver gets number `k`. -/
theorem Execution.gets {l : Listener} (hl : NoPanics l) (E : Execution l) (hf : E.Fair) (hs : E.Smooth)
    (n i : Nat) (d : Datagram) (hd : (E.queued ++ arrivals (E.upTo n))[i]? = some d)
    (n' : Nat) (hn : i < (takenIn (E.state n').trace).length) :
    ∃ m, n' ≤ m ∧ ∀ r, r < l.receivers.length →
      (callsOf r (E.state m).trace)[i]? = some (received l.buffersize d) := by
  -- a later moment that is late enough for both
  obtain ⟨m, h1, h2, h3⟩ := E.idles hl hf hs (max n n')
  refine ⟨m, by omega, ?_⟩
  intro r hr
  obtain ⟨handled, g1, g2, g3⟩ := C43 l E.queued _ _ (E.run m)
  rw [g3 h2 r hr]
  have hlen : i < handled.length := by
    have e1 : (takenIn (E.state n').trace).length ≤ (takenIn (E.state m).trace).length :=
      takenIn_le (E.trace_le (by omega))
    rw [g2, List.length_map] at e1
    omega
  have harr : (E.queued ++ arrivals (E.upTo m))[i]? = some d := by
    obtain ⟨w, hw⟩ := E.upTo_le (show n ≤ m by omega)
    rw [← hw, arrivals_append, ← List.append_assoc]
    rw [List.getElem?_append_left (List.getElem?_eq_some_iff.mp hd).1]
    exact hd
  rw [g1, List.getElem?_append_left hlen] at harr
  rw [List.getElem?_map, harr]
  rfl

/-! ## The theorems -/

/-- C79. While datagrams keep coming, every single one is delivered: in every execution without end that is
fair, without failures and without panicking receivers, in which datagrams never stop arriving, each datagram
(number `i`, counting from the start) sooner or later is what each receiver is called with for the `i`-th
time.  The delay is not bounded (`C47_lag`), and without the later arrivals this is false (`C47_false`). -/
theorem C79 (l : Listener) (hl : NoPanics l) (E : Execution l) (hf : E.Fair) (hs : E.Smooth)
    (he : E.Endless) (n i : Nat) (d : Datagram) (hd : (E.queued ++ arrivals (E.upTo n))[i]? = some d) :
    ∃ m, ∀ r, r < l.receivers.length →
      (callsOf r (E.state m).trace)[i]? = some (received l.buffersize d) := by
  have key : ∀ k, ∃ n', k ≤ (takenIn (E.state n').trace).length := by
    intro k
    induction k with
    | zero => exact ⟨0, Nat.zero_le _⟩
    | succ k ih =>
      obtain ⟨n', hn'⟩ := ih
      obtain ⟨m, d, h1, h2⟩ := he n'
      have hst := E.step m
      rw [h2] at hst
      simp only [Listener.step, Option.some.injEq] at hst
      obtain ⟨m', h3, h4⟩ := E.takes hl hf hs (m + 1) (.inl (by rw [← hst]))
      have := takenIn_le (E.trace_le (show n' ≤ m + 1 by omega))
      exact ⟨m', by omega⟩
  obtain ⟨n', hn'⟩ := key (i + 1)
  obtain ⟨m, -, h⟩ := E.gets hl hf hs n i d hd n' (by omega)
  exact ⟨m, h⟩

/-- C79. A datagram that arrives in an empty socket is delivered to every receiver, whether or not anything
arrives after it. -/
theorem C79_alone (l : Listener) (hl : NoPanics l) (E : Execution l) (hf : E.Fair) (hs : E.Smooth)
    (n : Nat) (d : Datagram) (ha : E.label n = some (.arrive d)) (hq : (E.state n).queue = []) :
    ∃ m, n < m ∧ ∀ r, r < l.receivers.length →
      (callsOf r (E.state m).trace)[(E.queued ++ arrivals (E.upTo n)).length]? =
        some (received l.buffersize d) := by
  have hst := E.step n
  rw [ha] at hst
  simp only [Listener.step, Option.some.injEq] at hst
  obtain ⟨m, h1, h2⟩ := E.takes hl hf hs (n + 1) (.inl (by rw [← hst]))
  obtain ⟨handled, g1, g2, -⟩ := C43 l E.queued _ _ (E.run n)
  rw [hq, List.append_nil] at g1
  have htr : (E.state (n + 1)).trace = (E.state n).trace := by rw [← hst]
  rw [htr, g2, List.length_map, ← g1] at h2
  obtain ⟨m', h3, h4⟩ := E.gets hl hf hs (n + 1) (E.queued ++ arrivals (E.upTo n)).length d (by
    rw [E.upTo_succ, ha, arrivals_append]
    simp [arrivals]) m h2
  exact ⟨m', by omega, h4⟩

/-- C79. A receiver that was not yet called with a datagram that was taken is called with it sooner or
later. -/
theorem C79_taken (l : Listener) (hl : NoPanics l) (E : Execution l) (hf : E.Fair) (hs : E.Smooth) (n : Nat) :
    ∃ m, n ≤ m ∧ ∀ r, r < l.receivers.length →
      callsOf r (E.state m).trace = takenIn (E.state n).trace := by
  obtain ⟨m, h1, h2, h3⟩ := E.idles hl hf hs n
  obtain ⟨handled, g1, g2, g3⟩ := C43 l E.queued _ _ (E.run m)
  exact ⟨m, h1, fun r hr => by rw [g3 h2 r hr, ← h3, g2]⟩

/-- C79. When nothing arrives any more, the thread comes to rest: from some moment on it waits in `poll`
for ever, and every receiver has been called with everything that was taken. -/
theorem C79_rest (l : Listener) (hl : NoPanics l) (E : Execution l) (hf : E.Fair) (hs : E.Smooth)
    (n : Nat) (hn : ∀ m d, n ≤ m → E.label m ≠ some (.arrive d)) :
    ∃ m, n ≤ m ∧ ∀ m', m ≤ m' → Waiting (E.state m') ∧ (E.state m').trace = (E.state m).trace ∧
      (E.state m').queue = (E.state m).queue ∧
      ∀ r, r < l.receivers.length → callsOf r (E.state m').trace = takenIn (E.state m').trace := by
  have hsame : ∀ k, n ≤ k → (∀ x, E.label k = some x → internal x = false) →
      E.state (k + 1) = E.state k := by
    intro k hk h
    have hst := E.step k
    cases hx : E.label k with
    | none => rw [hx] at hst; exact hst
    | some x =>
      rw [hx] at hst
      rcases hs k x hx with hi | rfl | ⟨d, rfl⟩
      · rw [h x hx] at hi; cases hi
      · simp only [Listener.step] at hst
        split at hst
        · simp only [Option.some.injEq] at hst; exact hst.symm
        · cases hst
      · exact absurd hx (hn k d hk)
  have hsames : ∀ a b, n ≤ a → a ≤ b →
      (∀ k, a ≤ k → k < b → ∀ x, E.label k = some x → internal x = false) → E.state b = E.state a := by
    intro a b ha hab
    induction hab with
    | refl => intro _; rfl
    | @step b hab ih =>
      intro h
      rw [hsame b (Nat.le_trans ha hab) (h b hab (Nat.lt_succ_self _)), ih fun k h1 h2 => h k h1 (Nat.lt_succ_of_lt h2)]
  have hw : ∃ m, n ≤ m ∧ Waiting (E.state m) := by
    have key : ∀ w n', n ≤ n' → work l (E.state n') = w → ∃ m, n ≤ m ∧ Waiting (E.state m) := by
      intro w
      induction w using Nat.strongRecOn with
      | ind w ih =>
        intro n' hn' hwk
        by_cases hwt : Waiting (E.state n')
        · exact ⟨n', hn', hwt⟩
        · obtain ⟨m0, x0, h1, h2, h3, -⟩ := E.next hl hf hs n' hwt
          obtain ⟨m, ⟨hm, x, hi, hx⟩, hmin⟩ :=
            least (P := fun k => n' ≤ k ∧ ∃ x, internal x = true ∧ E.label k = some x) m0 ⟨h1, x0, h2, h3⟩
          have heq := hsames n' m hn' hm (by
            intro k hk hkm y hy
            cases hiy : internal y with
            | false => rfl
            | true => exact absurd ⟨hk, y, hiy, hy⟩ (hmin k hkm))
          have hst := E.step m
          rw [hx] at hst
          have hdec := (internal_step l _ _ x (E.healthy hl hs m) hst hi).1
          rw [heq, hwk] at hdec
          exact ih _ hdec (m + 1) (by omega) rfl
    exact key _ n (Nat.le_refl _) rfl
  obtain ⟨m, hm, hwt⟩ := hw
  have hstay : ∀ m', m ≤ m' → E.state m' = E.state m := by
    intro m' hm'
    induction hm' with
    | refl => rfl
    | @step k hk ih =>
      rw [← ih]
      refine hsame k (Nat.le_trans hm hk) ?_
      intro x hx
      have hst := E.step k
      rw [hx] at hst
      cases hi : internal x with
      | false => rfl
      | true =>
        exfalso
        rw [ih] at hst
        cases x <;> simp [internal] at hi <;> simp [Listener.step, hwt.1, hwt.2] at hst
  refine ⟨m, hm, fun m' hm' => ?_⟩
  rw [hstay m' hm']
  refine ⟨hwt, rfl, rfl, ?_⟩
  obtain ⟨handled, g1, g2, g3⟩ := C43 l E.queued _ _ (E.run m)
  intro r hr
  rw [g3 (by rw [hwt.1]; rfl) r hr, g2]

/-! ## A concrete case -/

/-- A listener with one receiver. -/
def liveListener : Listener := ⟨[⟨fun _ _ => false, fun _ _ => []⟩], 16⟩

/-- An empty datagram. -/
def liveDatagram : Datagram := ⟨[], .v4 1 1 1 1 1⟩

/-- What happens for each datagram. -/
def liveEvents : List Ev := [.taken ⟨[]⟩ ⟨.v4 1 1 1 1 1⟩, .call 0 ⟨[]⟩ ⟨.v4 1 1 1 1 1⟩, .ret 0]

/-- The state at step `j` of round `k`. -/
def liveState (k j : Nat) : NetState :=
  let t := (List.replicate k liveEvents).flatten
  let d := Phase.dispatch 0 ⟨[]⟩ ⟨.v4 1 1 1 1 1⟩
  match j with
  | 0 => ⟨[], false, List.replicate 16 0, .polling, t⟩
  | 1 => ⟨[liveDatagram], true, List.replicate 16 0, .polling, t⟩
  | 2 => ⟨[liveDatagram], false, List.replicate 16 0, .handling 1, t⟩
  | 3 => ⟨[], false, List.replicate 16 0, d [0] [] false, t ++ liveEvents.take 1⟩
  | 4 => ⟨[], false, List.replicate 16 0, d [] [0] false, t ++ liveEvents.take 2⟩
  | _ => ⟨[], false, List.replicate 16 0, d [] [] false, t ++ liveEvents⟩

/-- The steps of a round. -/
def liveLabel : Nat → Label
  | 0 => .arrive liveDatagram
  | 1 => .pollEvent
  | 2 => .recv
  | 3 => .start 0
  | 4 => .finish 0
  | _ => .join

theorem live_step (k j : Nat) (hj : j < 6) :
    liveListener.step (liveState k j) (liveLabel j) =
      some (if j = 5 then liveState (k + 1) 0 else liveState k (j + 1)) := by
  match j, hj with
  | 0, _ => rfl
  | 1, _ => rfl
  | 2, _ => rfl
  | 3, _ => simp [liveState, liveLabel, Listener.step, liveEvents]
  | 4, _ => simp [liveState, liveLabel, Listener.step, liveEvents]
  | 5, _ =>
    simp [liveState, liveLabel, Listener.step, afterEvent, List.replicate_succ', List.flatten_append]

/-- One datagram after the other, for ever. -/
def liveExecution : Execution liveListener where
  queued := []
  state n := liveState (n / 6) (n % 6)
  label n := some (liveLabel (n % 6))
  start := rfl
  step n := by
    have h := live_step (n / 6) (n % 6) (Nat.mod_lt _ (by omega))
    simp only
    rw [h]
    by_cases h5 : n % 6 = 5
    · have e1 : (n + 1) / 6 = n / 6 + 1 := by omega
      have e2 : (n + 1) % 6 = 0 := by omega
      rw [if_pos h5, e1, e2]
    · have e1 : (n + 1) / 6 = n / 6 := by omega
      have e2 : (n + 1) % 6 = n % 6 + 1 := by omega
      rw [if_neg h5, e1, e2]

/-- The hypotheses of `C79` and `C79_taken` can be met, and so can those of `C79_alone`. -/
example : NoPanics liveListener ∧ liveExecution.Fair ∧ liveExecution.Smooth ∧ liveExecution.Endless ∧
    (liveExecution.queued ++ arrivals (liveExecution.upTo 20))[2]? = some liveDatagram ∧
    liveExecution.label 6 = some (.arrive liveDatagram) ∧ (liveExecution.state 6).queue = [] := by
  refine ⟨by simp [NoPanics, liveListener], ?_, ?_, ?_, rfl, rfl, rfl⟩
  · intro n _
    refine ⟨6 * n + 1, .pollEvent, by omega, rfl, ?_⟩
    show some (liveLabel ((6 * n + 1) % 6)) = _
    rw [show (6 * n + 1) % 6 = 1 by omega]
    rfl
  · intro n x hx
    have hx : liveLabel (n % 6) = x := Option.some.inj hx
    have hlt : n % 6 < 6 := Nat.mod_lt _ (by omega)
    match hm : n % 6, hlt with
    | 0, _ => rw [hm] at hx; exact .inr (.inr ⟨_, hx.symm⟩)
    | 1, _ => rw [hm] at hx; subst hx; exact .inl rfl
    | 2, _ => rw [hm] at hx; subst hx; exact .inl rfl
    | 3, _ => rw [hm] at hx; subst hx; exact .inl rfl
    | 4, _ => rw [hm] at hx; subst hx; exact .inl rfl
    | 5, _ => rw [hm] at hx; subst hx; exact .inl rfl
  · intro n
    refine ⟨6 * n, liveDatagram, by omega, ?_⟩
    show some (liveLabel ((6 * n) % 6)) = _
    rw [show (6 * n) % 6 = 0 by omega]
    rfl

/-- One datagram, and then nothing more. -/
def liveOnce : Execution liveListener where
  queued := []
  state n := if n < 6 then liveState 0 n else liveState 1 0
  label n := if n < 6 then some (liveLabel n) else none
  start := rfl
  step n := by
    by_cases h : n < 6
    · have hs := live_step 0 n h
      simp only [if_pos h]
      rw [hs]
      by_cases h5 : n = 5
      · rw [if_pos h5, if_neg (by omega)]
      · rw [if_neg h5, if_pos (by omega)]
    · simp only [if_neg h]
      rw [if_neg (by omega)]

/-- The hypotheses of `C79_rest` can be met. -/
example : liveOnce.Fair ∧ liveOnce.Smooth ∧ (∀ m d, 1 ≤ m → liveOnce.label m ≠ some (.arrive d)) := by
  refine ⟨?_, ?_, ?_⟩
  · intro n h
    exfalso
    obtain ⟨x, hi, hx⟩ := h (max n 6) (by omega)
    have : liveOnce.state (max n 6) = liveState 1 0 := if_neg (by omega)
    rw [this] at hx
    cases x <;> simp [internal] at hi <;> simp [Listener.step, liveState] at hx
  · intro n x hx
    by_cases hn : n < 6
    · have hx : some (liveLabel n) = some x := by simpa [liveOnce, hn] using hx
      simp only [Option.some.injEq] at hx
      match n, hn with
      | 0, _ => exact .inr (.inr ⟨_, hx.symm⟩)
      | 1, _ => subst hx; exact .inl rfl
      | 2, _ => subst hx; exact .inl rfl
      | 3, _ => subst hx; exact .inl rfl
      | 4, _ => subst hx; exact .inl rfl
      | 5, _ => subst hx; exact .inl rfl
    · simp [liveOnce, hn] at hx
  · intro m d hm hx
    by_cases hn : m < 6
    · have hx : some (liveLabel m) = some (.arrive d) := by simpa [liveOnce, hn] using hx
      match m, hn, hm with
      | 1, _, _ => cases hx
      | 2, _, _ => cases hx
      | 3, _, _ => cases hx
      | 4, _, _ => cases hx
      | 5, _, _ => cases hx
    · simp [liveOnce, hn] at hx

end Ipv8
