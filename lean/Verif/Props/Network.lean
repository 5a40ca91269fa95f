import Verif.Lemmas.Network
/-!
# Properties C43 – C47: the listening thread

Quantification over `ls : List Label` with `l.run (l.init queued) ls = some s` is quantification over
every arrival history and every schedule of the thread pool.
-/

namespace Ipv8
open Spec

/-! ## C43: each receiver, each datagram, once, in order, unaltered -/

/-- C43. What was taken from the socket is the arrivals in order, up to what is still queued, each cut
to the buffer size; and between datagrams every receiver has been called with exactly that sequence. -/
theorem C43 (l : Listener) (queued : List Datagram) (ls : List Label) (s : NetState)
    (h : l.run (l.init queued) ls = some s) :
    ∃ handled, queued ++ arrivals ls = handled ++ s.queue ∧
      takenIn s.trace = handled.map (received l.buffersize) ∧
      (idle s.phase = true → ∀ r, r < l.receivers.length →
        callsOf r s.trace = handled.map (received l.buffersize)) := by
  obtain ⟨⟨handled, h1, h2⟩, _, hp, _, _⟩ := inv_run l queued ls s h
  refine ⟨handled, h1, h2, ?_⟩
  intro hi r hr
  rw [← h2]
  unfold PhaseInv at hp
  cases hph : s.phase with
  | polling => rw [hph] at hp; exact hp.1 r hr
  | handling k => rw [hph] at hp; exact hp.1 r hr
  | dispatch => rw [hph] at hi; simp [idle] at hi
  | stopped => rw [hph] at hi; simp [idle] at hi

/-- C43. At every moment, also in the middle of a datagram or after the thread ended, a receiver has been
called with the taken datagrams in order, lacking at most the current one; nobody else is called. -/
theorem C43_always (l : Listener) (queued : List Datagram) (ls : List Label) (s : NetState)
    (h : l.run (l.init queued) ls = some s) :
    (∀ r, r < l.receivers.length → callsOf r s.trace = takenIn s.trace ∨
      ∃ cur, callsOf r s.trace ++ [cur] = takenIn s.trace) ∧
    (∀ r, l.receivers.length ≤ r → callsOf r s.trace = []) := by
  obtain ⟨_, _, hp, ho, _⟩ := inv_run l queued ls s h
  refine ⟨?_, ho⟩
  intro r hr
  unfold PhaseInv at hp
  split at hp
  · obtain ⟨prev, h1, _, _, _, _, h6, _, _⟩ := hp
    rw [h6 r hr, h1]
    split
    · exact .inr ⟨_, rfl⟩
    · exact .inl rfl
  · obtain ⟨prev, p, a, h1, h2, _⟩ := hp
    rw [h1]
    rcases h2 r hr with h2 | h2 <;> rw [h2]
    · exact .inr ⟨_, rfl⟩
    · exact .inl rfl
  · exact .inl (hp.1 r hr)

/-- C43. If no receiver panics, every datagram that was taken is handed to every receiver unless the
thread is still at it: the thread cannot end in the middle of a datagram. -/
theorem C43_complete (l : Listener) (hl : NoPanics l) (queued : List Datagram) (ls : List Label)
    (s : NetState) (h : l.run (l.init queued) ls = some s) (hd : dead s.phase = true) (r : Nat)
    (hr : r < l.receivers.length) : callsOf r s.trace = takenIn s.trace := by
  obtain ⟨_, _, hp, _, _⟩ := inv_run l queued ls s h
  unfold PhaseInv at hp
  cases hph : s.phase with
  | polling => rw [hph] at hd; simp [dead] at hd
  | handling => rw [hph] at hd; simp [dead] at hd
  | dispatch => rw [hph] at hd; simp [dead] at hd
  | stopped c =>
    rw [hph] at hp
    cases c with
    | pollError => exact hp.1 r hr
    | recvError => exact hp.1 r hr
    | receiverPanic =>
      obtain ⟨_, p, a, _, _, _, r', x, hx, hpan⟩ := hp
      have := hl x (List.mem_of_getElem? hx) p a
      rw [this] at hpan
      simp at hpan

/-! ## C44: one datagram at a time -/

/-- C44. Whenever a datagram is taken, every receiver has been called with everything taken before and
every one of those calls has returned. -/
theorem C44 (l : Listener) (queued : List Datagram) (ls : List Label) (s : NetState)
    (h : l.run (l.init queued) ls = some s) (before after : List Ev) (p : Packet) (a : Address)
    (ht : s.trace = before ++ .taken p a :: after) :
    (∀ r, r < l.receivers.length → callsOf r before = takenIn before) ∧
    (∀ r, returnsOf r before = (callsOf r before).length) := by
  have := (inv_run l queued ls s h).trace before (.taken p a) after ht
  exact ⟨this.1, fun r => (this.2 r).symm⟩

/-- C44. A receiver is only ever called with the datagram taken last, and not a second time with it; and
only calls that are running return. -/
theorem C44_calls (l : Listener) (queued : List Datagram) (ls : List Label) (s : NetState)
    (h : l.run (l.init queued) ls = some s) (before after : List Ev) (r : Nat) :
    (∀ p a, s.trace = before ++ .call r p a :: after →
      (takenIn before).getLast? = some (p, a) ∧
      (callsOf r before).length + 1 = (takenIn before).length) ∧
    (s.trace = before ++ .ret r :: after → (callsOf r before).length = returnsOf r before + 1) := by
  have hinv := (inv_run l queued ls s h).trace
  constructor
  · intro p a ht
    obtain ⟨_, prev, h1, h2⟩ := hinv before (.call r p a) after ht
    rw [h1, h2]
    simp
  · intro ht
    exact hinv before (.ret r) after ht

/-! ## C45: cutting to the buffer -/

/-- C45. The `i`-th datagram handed over is the `i`-th that arrived: unchanged if it fits the buffer, its
first `buffersize` bytes otherwise; nothing of other datagrams is in it. -/
theorem C45 (l : Listener) (queued : List Datagram) (ls : List Label) (s : NetState)
    (h : l.run (l.init queued) ls = some s) (i : Nat) (p : Packet) (a : Address)
    (hi : (takenIn s.trace)[i]? = some (p, a)) :
    ∃ d, (queued ++ arrivals ls)[i]? = some d ∧ a = ⟨d.source⟩ ∧
      (d.bytes.length ≤ l.buffersize → p.bytes = d.bytes) ∧
      (l.buffersize < d.bytes.length → p.bytes.length = l.buffersize ∧ p.bytes <+: d.bytes) := by
  obtain ⟨⟨handled, h1, h2⟩, _⟩ := inv_run l queued ls s h
  rw [h2, List.getElem?_map] at hi
  cases hd : handled[i]? with
  | none => rw [hd] at hi; simp at hi
  | some d =>
    rw [hd] at hi
    simp only [Option.map_some, received, Option.some.injEq, Prod.mk.injEq] at hi
    obtain ⟨rfl, rfl⟩ := hi
    refine ⟨d, ?_, rfl, ?_, ?_⟩
    · rw [h1]
      have hlt : i < handled.length := (List.getElem?_eq_some_iff.mp hd).1
      rw [List.getElem?_append_left hlt, hd]
    · intro hlen; exact List.take_of_length_le hlen
    · intro hlen
      exact ⟨by simp only [List.length_take]; omega, List.take_prefix _ _⟩

/-! ## C46: what ends the thread -/

theorem credit_init (l : Listener) (queued : List Datagram) :
    credit (l.init queued) ≤ (l.init queued).queue.length := by
  cases queued <;> simp [credit, Listener.init]

theorem credit_step (l : Listener) (s s' : NetState) (x : Label) (hx : l.step s x = some s')
    (hns : x ≠ .pollSpurious) (h : credit s ≤ s.queue.length) : credit s' ≤ s'.queue.length := by
  cases x with
  | pollSpurious => exact absurd rfl hns
  | arrive d =>
    simp only [Listener.step, Option.some.injEq] at hx
    subst hx
    simp only [credit, List.length_append, List.length_cons, List.length_nil] at h ⊢
    split at h <;> simp only [if_true] <;> omega
  | pollEvent =>
    simp only [Listener.step] at hx
    split at hx
    · rename_i hph hr
      cases hx
      simp only [credit, hph, hr] at h ⊢
      simp at h ⊢
      exact h
    · simp at hx
  | pollTimeout =>
    simp only [Listener.step] at hx
    split at hx
    · cases hx; exact h
    · simp at hx
  | pollError =>
    simp only [Listener.step] at hx
    split at hx
    · rename_i hph
      cases hx
      simp only [credit, hph] at h ⊢
      exact h
    · simp at hx
  | recvError =>
    simp only [Listener.step] at hx
    split at hx
    · rename_i hph
      cases hx
      simp only [credit, hph] at h ⊢
      omega
    · simp at hx
  | recv =>
    simp only [Listener.step] at hx
    split at hx
    · rename_i k hph
      split at hx
      · cases hx
        simp only [credit, hph] at h ⊢
        omega
      · rename_i d q hqq
        simp only [Option.some.injEq] at hx
        subst hx
        simp only [credit, hph, hqq, List.length_cons] at h ⊢
        omega
    · simp at hx
  | start r =>
    simp only [Listener.step] at hx
    split at hx
    · rename_i hph
      split at hx
      · cases hx
        simp only [credit, hph] at h ⊢
        exact h
      · simp at hx
    · simp at hx
  | finish r =>
    simp only [Listener.step] at hx
    split at hx
    · rename_i hph
      split at hx
      · cases hx
        simp only [credit, hph] at h ⊢
        exact h
      · simp at hx
    · simp at hx
  | crash r =>
    simp only [Listener.step] at hx
    split at hx
    · rename_i hph
      split at hx
      · cases hx
        simp only [credit, hph] at h ⊢
        exact h
      · simp at hx
    · simp at hx
  | join =>
    simp only [Listener.step] at hx
    split at hx
    · rename_i k p a todo running panicked hph
      split at hx
      · cases hx
        simp only [credit, hph] at h ⊢
        cases panicked with
        | true => simp only [if_true]; omega
        | false =>
          simp only [afterEvent]
          by_cases hk : k = 0
          · simp only [hk]; simp only [hk] at h; exact h
          · simp only [hk]; exact h
      · simp at hx
    · simp at hx

/-- Why the thread ended, in terms of what happened. -/
def StopCause (l : Listener) (ls : List Label) (s : NetState) : Stop → Prop
  | .pollError => .pollError ∈ ls
  | .recvError => .recvError ∈ ls ∨ .pollSpurious ∈ ls
  | .receiverPanic => ∃ (x : Receiver) (p : Packet) (a : Address), x ∈ l.receivers ∧
      (takenIn s.trace).getLast? = some (p, a) ∧ x.mayPanic p a = true

theorem stopped_cause (l : Listener) (queued : List Datagram) (ls : List Label) (s : NetState)
    (h : l.run (l.init queued) ls = some s) :
    (.pollSpurious ∉ ls → credit s ≤ s.queue.length) ∧
    (∀ c, s.phase = .stopped c → StopCause l ls s c) := by
  refine run_induction l _ (fun ls s => (.pollSpurious ∉ ls → credit s ≤ s.queue.length) ∧
    (∀ c, s.phase = .stopped c → StopCause l ls s c)) ?_ ?_ ls s h
  · exact ⟨fun _ => credit_init l queued, by intro c hc; simp [Listener.init] at hc⟩
  · rintro ls s x s' hrun ⟨ih1, ih2⟩ hx
    have hcredit : .pollSpurious ∉ ls ++ [x] → credit s' ≤ s'.queue.length := by
      intro hns
      simp only [List.mem_append, List.mem_singleton, not_or] at hns
      exact credit_step l s s' x hx (fun h => hns.2 h.symm) (ih1 hns.1)
    refine ⟨hcredit, ?_⟩
    intro c hc
    have keep : s'.phase = s.phase → s'.trace = s.trace → StopCause l (ls ++ [x]) s' c := by
      intro e1 e2
      have := ih2 c (by rw [← e1]; exact hc)
      cases c with
      | pollError => exact List.mem_append_left _ this
      | recvError =>
        rcases this with h | h
        · exact .inl (List.mem_append_left _ h)
        · exact .inr (List.mem_append_left _ h)
      | receiverPanic => simp only [StopCause, e2]; exact this
    cases x with
    | arrive d =>
      simp only [Listener.step, Option.some.injEq] at hx
      subst hx
      exact keep rfl rfl
    | pollTimeout =>
      simp only [Listener.step] at hx
      split at hx
      · cases hx; exact keep rfl rfl
      · simp at hx
    | pollEvent =>
      simp only [Listener.step] at hx
      split at hx
      · cases hx; simp at hc
      · simp at hx
    | pollSpurious =>
      simp only [Listener.step] at hx
      split at hx
      · cases hx; simp at hc
      · simp at hx
    | pollError =>
      simp only [Listener.step] at hx
      split at hx
      · cases hx
        simp only [Phase.stopped.injEq] at hc
        subst hc
        simp [StopCause]
      · simp at hx
    | recvError =>
      simp only [Listener.step] at hx
      split at hx
      · cases hx
        simp only [Phase.stopped.injEq] at hc
        subst hc
        simp [StopCause]
      · simp at hx
    | recv =>
      simp only [Listener.step] at hx
      split at hx
      · rename_i k hph
        split at hx
        · rename_i hq
          cases hx
          simp only [Phase.stopped.injEq] at hc
          subst hc
          by_cases hsp : Label.pollSpurious ∈ ls
          · exact .inr (List.mem_append_left _ hsp)
          · exfalso
            have := ih1 hsp
            simp only [credit, hph, hq, List.length_nil] at this
            omega
        · simp only [Option.some.injEq] at hx
          subst hx
          simp at hc
      · simp at hx
    | start r =>
      simp only [Listener.step] at hx
      split at hx
      · split at hx
        · cases hx; simp at hc
        · simp at hx
      · simp at hx
    | finish r =>
      simp only [Listener.step] at hx
      split at hx
      · split at hx
        · cases hx; simp at hc
        · simp at hx
      · simp at hx
    | crash r =>
      simp only [Listener.step] at hx
      split at hx
      · split at hx
        · cases hx; simp at hc
        · simp at hx
      · simp at hx
    | join =>
      have hinv := inv_step l queued ls s s' .join (inv_run l queued ls s hrun) hx
      have hp := hinv.phase
      unfold PhaseInv at hp
      rw [hc] at hp
      cases c with
      | receiverPanic =>
        obtain ⟨prev, p, a, h1, _, _, r, y, hy, hpan⟩ := hp
        exact ⟨y, p, a, List.mem_of_getElem? hy, by rw [h1]; simp, hpan⟩
      | pollError =>
        exfalso
        simp only [Listener.step] at hx
        split at hx
        · rename_i k p a todo running panicked hph
          split at hx
          · cases hx
            cases panicked <;> simp [afterEvent] at hc
            split at hc <;> simp at hc
          · simp at hx
        · simp at hx
      | recvError =>
        exfalso
        simp only [Listener.step] at hx
        split at hx
        · rename_i k p a todo running panicked hph
          split at hx
          · cases hx
            cases panicked <;> simp [afterEvent] at hc
            split at hc <;> simp at hc
          · simp at hx
        · simp at hx

/-- C46. If polling and reading do not fail, every readiness event is backed by a new datagram, and no
receiver panics, the listening thread never ends. -/
theorem C46 (l : Listener) (queued : List Datagram) (ls : List Label) (s : NetState)
    (h : l.run (l.init queued) ls = some s) (h1 : .pollError ∉ ls) (h2 : .recvError ∉ ls)
    (h3 : .pollSpurious ∉ ls) (h4 : NoPanics l) : dead s.phase = false := by
  have hc := (stopped_cause l queued ls s h).2
  cases hp : s.phase with
  | polling => rfl
  | handling => rfl
  | dispatch => rfl
  | stopped c =>
    exfalso
    have := hc c hp
    cases c with
    | pollError => exact h1 this
    | recvError => exact this.elim h2 h3
    | receiverPanic =>
      obtain ⟨x, p, a, hx, _, hpan⟩ := this
      rw [h4 x hx p a] at hpan
      simp at hpan

/-- C46. If the thread ended, then because of a failing poll, a failing read, a notification without a
datagram, or a receiver that panicked on the datagram taken last. -/
theorem C46_causes (l : Listener) (queued : List Datagram) (ls : List Label) (s : NetState)
    (h : l.run (l.init queued) ls = some s) (hd : dead s.phase = true) :
    .pollError ∈ ls ∨ .recvError ∈ ls ∨ .pollSpurious ∈ ls ∨
      ∃ x ∈ l.receivers, ∃ p a, (takenIn s.trace).getLast? = some (p, a) ∧ x.mayPanic p a = true := by
  have hc := (stopped_cause l queued ls s h).2
  cases hp : s.phase with
  | polling => rw [hp] at hd; simp [dead] at hd
  | handling => rw [hp] at hd; simp [dead] at hd
  | dispatch => rw [hp] at hd; simp [dead] at hd
  | stopped c =>
    have := hc c hp
    cases c with
    | pollError => exact .inl this
    | recvError => exact this.elim (fun h => .inr (.inl h)) (fun h => .inr (.inr (.inl h)))
    | receiverPanic =>
      obtain ⟨x, p, a, hx, h5, h6⟩ := this
      exact .inr (.inr (.inr ⟨x, hx, p, a, h5, h6⟩))

/-- The thread has ended or is bound to: it only waits for receivers that are still running. -/
def doomed : Phase → Bool
  | .dispatch _ _ _ _ _ panicked => panicked
  | .stopped _ => true
  | _ => false

theorem doomed_step (l : Listener) (s s' : NetState) (x : Label) (h : doomed s.phase = true)
    (hx : l.step s x = some s') : doomed s'.phase = true ∧ takenIn s'.trace = takenIn s.trace := by
  cases hp : s.phase with
  | polling => rw [hp] at h; simp [doomed] at h
  | handling k => rw [hp] at h; simp [doomed] at h
  | stopped c =>
    cases x <;> simp [Listener.step, hp] at hx
    subst hx
    simp [doomed]
  | dispatch k p a todo running panicked =>
    rw [hp] at h
    simp only [doomed] at h
    subst h
    cases x <;> simp [Listener.step, hp] at hx
    case arrive => subst hx; simp [doomed]
    case start => obtain ⟨_, hx⟩ := hx; subst hx; simp [doomed, takenIn]
    case finish => obtain ⟨_, hx⟩ := hx; subst hx; simp [doomed, takenIn]
    case crash => obtain ⟨_, hx⟩ := hx; subst hx; simp [doomed, takenIn]
    case join => obtain ⟨_, hx⟩ := hx; subst hx; simp [doomed]

theorem doomed_run (l : Listener) (s s' : NetState) (ls : List Label) (h : doomed s.phase = true)
    (hrun : l.run s ls = some s') : doomed s'.phase = true ∧ takenIn s'.trace = takenIn s.trace := by
  induction ls generalizing s with
  | nil => simp only [Listener.run, Option.some.injEq] at hrun; subst hrun; exact ⟨h, rfl⟩
  | cons x ls ih =>
    simp only [Listener.run] at hrun
    cases hx : l.step s x with
    | none => simp [hx] at hrun
    | some m =>
      simp only [hx] at hrun
      obtain ⟨h1, h2⟩ := doomed_step l s m x h hx
      obtain ⟨h3, h4⟩ := ih m h1 hrun
      exact ⟨h3, h4.trans h2⟩

/-- C46. The panic of a single receiver is fatal for all: once one panicked, no further datagram is ever
taken, in no continuation. -/
theorem C46_panic_fatal (l : Listener) (after : List Label) (r : Nat) (m s : NetState)
    (h : l.run m (.crash r :: after) = some s) :
    takenIn s.trace = takenIn m.trace ∧ idle s.phase = false := by
  have hphase : doomed s.phase = true → idle s.phase = false := by
    cases s.phase <;> simp [doomed, idle]
  simp only [Listener.run] at h
  cases hx : l.step m (.crash r) with
  | none => simp [hx] at h
  | some m' =>
    simp only [hx] at h
    have h1 : doomed m'.phase = true ∧ takenIn m'.trace = takenIn m.trace := by
      simp only [Listener.step] at hx
      split at hx
      · split at hx
        · cases hx; simp [doomed, takenIn]
        · simp at hx
      · simp at hx
    obtain ⟨h2, h3⟩ := doomed_run l m' s after h1.1 h
    exact ⟨h3.trans h1.2, hphase h2⟩

/-- C46. So is a notification with nothing to read: when the thread is about to read and the queue is
empty, reading ends it. -/
theorem C46_empty_fatal (l : Listener) (s s' : NetState) (k : Nat) (hp : s.phase = .handling (k + 1))
    (hq : s.queue = []) (h : l.step s .recv = some s') : s'.phase = .stopped .recvError := by
  simp only [Listener.step, hp, hq, Option.some.injEq] at h
  subst h
  rfl

/-- Both happen. -/
theorem C46_fatal (d : Datagram) :
    (∃ s, (Listener.mk [] 16).run (Listener.init ⟨[], 16⟩ []) [.pollSpurious, .recv] = some s ∧
      s.phase = .stopped .recvError) ∧
    (∃ s, (Listener.mk [⟨fun _ _ => true, fun _ _ => []⟩] 16).run
        (Listener.init ⟨[⟨fun _ _ => true, fun _ _ => []⟩], 16⟩ [])
        [.arrive d, .pollEvent, .recv, .start 0, .crash 0, .join] = some s ∧
      s.phase = .stopped .receiverPanic) :=
  ⟨⟨_, rfl, rfl⟩, ⟨_, rfl, rfl⟩⟩

/-- C46. An error of the operating system can come at any time, whatever is queued, and is never survived: a failing
`poll` ends a waiting thread and a failing read ends one about to read, with the queued datagrams left unread. -/
theorem C46_errors (l : Listener) (s : NetState) :
    (s.phase = .polling → ∃ s', l.step s .pollError = some s' ∧ s'.phase = .stopped .pollError ∧
      s'.queue = s.queue ∧ s'.trace = s.trace) ∧
    (∀ k, s.phase = .handling (k + 1) → ∃ s', l.step s .recvError = some s' ∧ s'.phase = .stopped .recvError ∧
      s'.queue = s.queue ∧ s'.trace = s.trace) := by
  constructor
  · intro hp
    exact ⟨{ s with phase := .stopped .pollError }, by simp [Listener.step, hp], rfl, rfl, rfl⟩
  · intro k hp
    exact ⟨{ s with phase := .stopped .recvError }, by simp [Listener.step, hp], rfl, rfl, rfl⟩

/-- Such a moment, with a datagram queued. -/
example (d : Datagram) : ∃ s, (Listener.mk [] 16).run (Listener.init ⟨[], 16⟩ []) [.arrive d, .pollEvent] = some s ∧
    s.phase = .handling (0 + 1) ∧ s.queue = [d] :=
  ⟨_, rfl, rfl, rfl⟩

/-- C46. Nothing but arrivals happens after the thread ended. -/
theorem C46_final (l : Listener) (s s' : NetState) (x : Label) (hd : dead s.phase = true)
    (hx : l.step s x = some s') : s'.phase = s.phase ∧ s'.trace = s.trace := by
  cases hp : s.phase with
  | polling => rw [hp] at hd; simp [dead] at hd
  | handling => rw [hp] at hd; simp [dead] at hd
  | dispatch => rw [hp] at hd; simp [dead] at hd
  | stopped c =>
    cases x <;> simp [Listener.step, hp] at hx
    subst hx
    simp

/-! ## C47: eventual delivery -/

/-- How much work is left before the thread waits in `poll` with nothing notified. -/
def work (l : Listener) (s : NetState) : Nat :=
  (if s.ready then 2 * l.receivers.length + 4 else 0) +
    match s.phase with
    | .handling k => k * (2 * l.receivers.length + 3)
    | .dispatch k _ _ todo running _ =>
      k * (2 * l.receivers.length + 3) + 2 * todo.length + running.length + 1
    | _ => 0

theorem noPanics_mayPanic {l : Listener} (hl : NoPanics l) (r : Nat) (p : Packet) (a : Address) :
    l.mayPanic r p a = false := by
  unfold Listener.mayPanic
  cases h : l.receivers[r]? with
  | none => rfl
  | some x => exact hl x (List.mem_of_getElem? h) p a

/-- The states the thread can be in without panics and with enough datagrams. -/
structure Healthy (s : NetState) : Prop where
  alive : dead s.phase = false
  enough : credit s ≤ s.queue.length
  events : s.phase ≠ .handling 0
  calm : ∀ k p a todo running panicked,
    s.phase = .dispatch k p a todo running panicked → panicked = false

theorem healthy_step (l : Listener) (hl : NoPanics l) (s s' : NetState) (x : Label)
    (h : Healthy s) (hx : l.step s x = some s')
    (hok : internal x = true ∨ x = .pollTimeout ∨ ∃ d, x = .arrive d) : Healthy s' := by
  have hne : x ≠ .pollSpurious := by
    rintro rfl
    rcases hok with h | h | ⟨_, h⟩ <;> simp [internal] at h
  have henough := credit_step l s s' x hx hne h.enough
  cases x with
  | pollSpurious => exact absurd rfl hne
  | pollError => rcases hok with h | h | ⟨_, h⟩ <;> simp [internal] at h
  | recvError => rcases hok with h | h | ⟨_, h⟩ <;> simp [internal] at h
  | arrive d =>
    simp only [Listener.step, Option.some.injEq] at hx
    subst hx
    exact ⟨h.alive, henough, h.events, h.calm⟩
  | pollTimeout =>
    simp only [Listener.step] at hx
    split at hx
    · cases hx; exact h
    · simp at hx
  | pollEvent =>
    simp only [Listener.step] at hx
    split at hx
    · cases hx
      exact ⟨rfl, henough, by simp, by simp⟩
    · simp at hx
  | recv =>
    simp only [Listener.step] at hx
    split at hx
    · rename_i k hph
      split at hx
      · rename_i hq
        have := h.enough
        simp only [credit, hph, hq, List.length_nil] at this
        omega
      · simp only [Option.some.injEq] at hx
        subst hx
        refine ⟨rfl, henough, by simp, ?_⟩
        intro k p a todo running panicked he
        simp only [Phase.dispatch.injEq] at he
        exact he.2.2.2.2.2.symm
    · simp at hx
  | start r =>
    simp only [Listener.step] at hx
    split at hx
    · rename_i hph
      split at hx
      · cases hx
        refine ⟨rfl, henough, by simp, ?_⟩
        intro k p a todo running panicked he
        simp only [Phase.dispatch.injEq] at he
        rw [← he.2.2.2.2.2]
        exact h.calm _ _ _ _ _ _ hph
      · simp at hx
    · simp at hx
  | finish r =>
    simp only [Listener.step] at hx
    split at hx
    · rename_i hph
      split at hx
      · cases hx
        refine ⟨rfl, henough, by simp, ?_⟩
        intro k p a todo running panicked he
        simp only [Phase.dispatch.injEq] at he
        rw [← he.2.2.2.2.2]
        exact h.calm _ _ _ _ _ _ hph
      · simp at hx
    · simp at hx
  | crash r =>
    simp only [Listener.step, noPanics_mayPanic hl] at hx
    split at hx <;> simp at hx
  | join =>
    simp only [Listener.step] at hx
    split at hx
    · rename_i k p a todo running panicked hph
      have hcalm := h.calm _ _ _ _ _ _ hph
      subst hcalm
      split at hx
      · cases hx
        by_cases hk : k = 0
        · refine ⟨?_, henough, ?_, ?_⟩ <;> simp [afterEvent, hk, dead]
        · refine ⟨?_, henough, ?_, ?_⟩ <;> simp [afterEvent, hk, dead]
      · simp at hx
    · simp at hx

theorem healthy_init (l : Listener) (queued : List Datagram) : Healthy (l.init queued) :=
  ⟨rfl, credit_init l queued, by simp [Listener.init], by simp [Listener.init]⟩

theorem healthy_run (l : Listener) (hl : NoPanics l) (s s' : NetState) (ls : List Label)
    (h : Healthy s) (hrun : l.run s ls = some s')
    (hok : ∀ x ∈ ls, internal x = true ∨ x = .pollTimeout ∨ ∃ d, x = .arrive d) : Healthy s' := by
  induction ls generalizing s with
  | nil => simp only [Listener.run, Option.some.injEq] at hrun; subst hrun; exact h
  | cons x ls ih =>
    simp only [Listener.run] at hrun
    cases hx : l.step s x with
    | none => simp [hx] at hrun
    | some m =>
      simp only [hx] at hrun
      exact ih m (healthy_step l hl s m x h hx (hok x (by simp))) hrun
        (fun y hy => hok y (by simp [hy]))

/-- Internal steps use up work, and move datagrams from the queue to the taken ones at the expense of
credit. -/
theorem internal_step (l : Listener) (s s' : NetState) (x : Label)
    (h : Healthy s) (hx : l.step s x = some s') (hi : internal x = true) :
    work l s' < work l s ∧
    (∃ now, s.queue = now ++ s'.queue ∧ credit s = now.length + credit s' ∧
      (s.buffer.length = l.buffersize →
        takenIn s'.trace = takenIn s.trace ++ now.map (received l.buffersize))) ∧
    s'.buffer.length = s.buffer.length := by
  cases x with
  | arrive => simp [internal] at hi
  | pollTimeout => simp [internal] at hi
  | pollSpurious => simp [internal] at hi
  | pollError => simp [internal] at hi
  | recvError => simp [internal] at hi
  | pollEvent =>
    simp only [Listener.step] at hx
    split at hx
    · rename_i hph hr
      cases hx
      refine ⟨?_, ⟨[], rfl, ?_, by simp⟩, rfl⟩
      · simp only [work, hph, hr]; simp
      · simp only [credit, hph, hr]; simp
    · simp at hx
  | recv =>
    simp only [Listener.step] at hx
    split at hx
    · rename_i k hph
      split at hx
      · rename_i hq
        have := h.enough
        simp only [credit, hph, hq, List.length_nil] at this
        omega
      · rename_i d q hqq
        simp only [Option.some.injEq] at hx
        subst hx
        refine ⟨?_, ⟨[d], by simp [hqq], ?_, ?_⟩, ?_⟩
        · simp only [work, hph, List.length_range, List.length_nil]
          have : k.succ * (2 * l.receivers.length + 3) =
            k * (2 * l.receivers.length + 3) + (2 * l.receivers.length + 3) := Nat.succ_mul _ _
          omega
        · simp only [credit, hph, List.length_singleton]; omega
        · intro hb
          simp [takenIn, received, cut_eq, hb]
        · simp only [recvInto_length]
    · simp at hx
  | start r =>
    simp only [Listener.step] at hx
    split at hx
    · rename_i hph
      split at hx
      · rename_i hr
        cases hx
        refine ⟨?_, ⟨[], rfl, ?_, by simp [takenIn]⟩, rfl⟩
        · simp only [work, hph, List.length_erase_of_mem hr, List.length_cons]
          have := List.length_pos_of_mem hr
          omega
        · simp only [credit, hph, List.length_nil]; omega
      · simp at hx
    · simp at hx
  | finish r =>
    simp only [Listener.step] at hx
    split at hx
    · rename_i hph
      split at hx
      · rename_i hr
        cases hx
        refine ⟨?_, ⟨[], rfl, ?_, by simp [takenIn]⟩, rfl⟩
        · simp only [work, hph, List.length_erase_of_mem hr]
          have := List.length_pos_of_mem hr
          omega
        · simp only [credit, hph, List.length_nil]; omega
      · simp at hx
    · simp at hx
  | crash => simp [internal] at hi
  | join =>
    simp only [Listener.step] at hx
    split at hx
    · rename_i k p a todo running panicked hph
      have hcalm := h.calm _ _ _ _ _ _ hph
      subst hcalm
      split at hx
      · cases hx
        refine ⟨?_, ⟨[], rfl, ?_, by simp⟩, rfl⟩
        · by_cases hk : k = 0
          · simp [work, hph, afterEvent, hk]
          · simp only [work, hph, afterEvent, hk]
            simp
            omega
        · by_cases hk : k = 0
          · simp [credit, hph, afterEvent, hk]
          · simp [credit, hph, afterEvent, hk]
      · simp at hx
    · simp at hx

/-- C47, progress: unless the thread waits in `poll` and nothing is notified, it or the pool can make a
step. -/
theorem C47_progress (l : Listener) (s : NetState) (h : Healthy s) :
    (s.phase = .polling ∧ s.ready = false) ∨
      ∃ x s', internal x = true ∧ l.step s x = some s' := by
  have key : ∀ x, internal x = true → (l.step s x).isSome = true →
      ∃ x s', internal x = true ∧ l.step s x = some s' := by
    intro x hi hs
    obtain ⟨s', hs'⟩ := Option.isSome_iff_exists.mp hs
    exact ⟨x, s', hi, hs'⟩
  cases hp : s.phase with
  | polling =>
    cases hr : s.ready with
    | false => exact .inl ⟨rfl, rfl⟩
    | true => exact .inr (key .pollEvent rfl (by simp [Listener.step, hp, hr]))
  | handling k =>
    right
    cases k with
    | zero => exact absurd hp h.events
    | succ k =>
      cases hq : s.queue with
      | nil => exact key .recv rfl (by simp [Listener.step, hp, hq])
      | cons d q => exact key .recv rfl (by simp [Listener.step, hp, hq])
  | stopped c => have := h.alive; rw [hp] at this; simp [dead] at this
  | dispatch k p a todo running panicked =>
    right
    cases todo with
    | cons r todo => exact key (.start r) rfl (by simp [Listener.step, hp])
    | nil =>
      cases running with
      | cons r running => exact key (.finish r) rfl (by simp [Listener.step, hp])
      | nil => exact key .join rfl (by simp [Listener.step, hp])

theorem internal_run (l : Listener) (hl : NoPanics l) (s s' : NetState) (ls : List Label)
    (h : Healthy s) (hrun : l.run s ls = some s') (hi : ∀ x ∈ ls, internal x = true) :
    ls.length + work l s' ≤ work l s ∧
    (∃ now, s.queue = now ++ s'.queue ∧ credit s = now.length + credit s' ∧
      (s.buffer.length = l.buffersize →
        takenIn s'.trace = takenIn s.trace ++ now.map (received l.buffersize))) := by
  induction ls generalizing s with
  | nil =>
    simp only [Listener.run, Option.some.injEq] at hrun
    subst hrun
    exact ⟨by simp, [], rfl, by simp, by simp⟩
  | cons x ls ih =>
    simp only [Listener.run] at hrun
    cases hx : l.step s x with
    | none => simp [hx] at hrun
    | some m =>
      simp only [hx] at hrun
      have hix := hi x (by simp)
      obtain ⟨h1, ⟨now, h2, h3, h4⟩, h5⟩ := internal_step l s m x h hx hix
      obtain ⟨g1, now', g2, g3, g4⟩ := ih m (healthy_step l hl s m x h hx (.inl hix)) hrun
        (fun y hy => hi y (by simp [hy]))
      refine ⟨by simp; omega, now ++ now', ?_, ?_, ?_⟩
      · rw [h2, g2, List.append_assoc]
      · rw [h3, g3, List.length_append]; omega
      · intro hb
        rw [g4 (by rw [h5]; exact hb), h4 hb]
        simp

/-- An execution in which only datagrams arrive, polls time out, and thread and pool work: no failures,
no notification without a datagram. -/
def Smooth (ls : List Label) : Prop :=
  ∀ x ∈ ls, internal x = true ∨ x = .pollTimeout ∨ ∃ d, x = .arrive d

/-- The number of queued datagrams that will still be handed over if nothing else arrives: one per
readiness event that is pending or being worked on. -/
def promised (s : NetState) : Nat := credit s

/-- C47, exactly what holds.  Let `s` be reached by a smooth execution without receiver panics.  Then,
however thread and pool are scheduled and without further arrivals,
* only finitely many steps are possible,
* when no more are possible, exactly the first `promised s` queued datagrams have been handed over to
  every receiver, and the rest is still in the queue. -/
theorem C47_exact_partial (l : Listener) (hl : NoPanics l) (queued : List Datagram) (ls : List Label)
    (s : NetState) (h : l.run (l.init queued) ls = some s) (hsm : Smooth ls)
    (more : List Label) (s' : NetState) (hi : ∀ x ∈ more, internal x = true)
    (h' : l.run s more = some s') :
    more.length ≤ work l s ∧
    ((∀ x, internal x = true → l.step s' x = none) →
      s'.queue = s.queue.drop (promised s) ∧
      takenIn s'.trace =
        takenIn s.trace ++ (s.queue.take (promised s)).map (received l.buffersize) ∧
      ∀ r, r < l.receivers.length → callsOf r s'.trace = takenIn s'.trace) := by
  have hh := healthy_run l hl _ s ls (healthy_init l queued) h hsm
  have hb := (inv_run l queued ls s h).buffer
  obtain ⟨h1, now, h2, h3, h4⟩ := internal_run l hl s s' more hh h' hi
  refine ⟨by omega, ?_⟩
  intro hstuck
  have hh' := healthy_run l hl s s' more hh h' (fun x hx => .inl (hi x hx))
  rcases C47_progress l s' hh' with ⟨hp, hr⟩ | ⟨x, s'', hxi, hx⟩
  · have hc : credit s' = 0 := by simp [credit, hp, hr]
    have hn : promised s = now.length := by rw [promised, h3, hc]; rfl
    refine ⟨?_, ?_, ?_⟩
    · rw [hn, h2]; simp
    · rw [hn, h4 hb]
      congr 2
      rw [h2]; simp
    · have hrun : l.run (l.init queued) (ls ++ more) = some s' := by
        rw [run_append, h]; exact h'
      have hphase := (inv_run l queued _ s' hrun).phase
      unfold PhaseInv at hphase
      rw [hp] at hphase
      exact hphase.1
  · rw [hstuck x hxi] at hx
    simp at hx

/-- The queue is empty whenever a datagram arrives. -/
def SpacedFrom (l : Listener) (s : NetState) : List Label → Prop
  | [] => True
  | x :: ls => ((∃ d, x = .arrive d) → s.queue = []) ∧
    ∀ s', l.step s x = some s' → SpacedFrom l s' ls

theorem spaced_credit (l : Listener) (hl : NoPanics l) (s s' : NetState) (ls : List Label)
    (h : Healthy s) (heq : s.queue.length ≤ credit s) (hrun : l.run s ls = some s')
    (hok : Smooth ls) (hsp : SpacedFrom l s ls) : s'.queue.length ≤ credit s' := by
  induction ls generalizing s with
  | nil => simp only [Listener.run, Option.some.injEq] at hrun; subst hrun; exact heq
  | cons x ls ih =>
    simp only [Listener.run] at hrun
    cases hx : l.step s x with
    | none => simp [hx] at hrun
    | some m =>
      simp only [hx] at hrun
      have hxo := hok x (by simp)
      refine ih m (healthy_step l hl s m x h hx hxo) ?_ hrun (fun y hy => hok y (by simp [hy]))
        (hsp.2 m hx)
      rcases hxo with hi | rfl | ⟨d, rfl⟩
      · obtain ⟨_, ⟨now, h2, h3, _⟩, _⟩ := internal_step l s m x h hx hi
        rw [h2, h3, List.length_append] at heq
        omega
      · simp only [Listener.step] at hx
        split at hx
        · cases hx; exact heq
        · simp at hx
      · have hq := hsp.1 ⟨d, rfl⟩
        simp only [Listener.step, Option.some.injEq] at hx
        subst hx
        simp only [credit, hq]
        simp

/-- C47, what holds: if at most one datagram is waiting when the thread starts and no datagram arrives
while another one is still in the queue, then all of them are delivered: when thread and pool have
nothing left to do, the queue is empty and every receiver has seen every datagram.  Missing: datagrams
that arrive in bursts, for which C47 is false. -/
theorem C47_partial (l : Listener) (hl : NoPanics l) (queued : List Datagram) (hw : queued.length ≤ 1)
    (ls : List Label) (s : NetState)
    (h : l.run (l.init queued) ls = some s) (hsm : Smooth ls) (hsp : SpacedFrom l (l.init queued) ls)
    (hdone : ∀ x, internal x = true → l.step s x = none) :
    s.queue = [] ∧ ∀ r, r < l.receivers.length →
      callsOf r s.trace = (queued ++ arrivals ls).map (received l.buffersize) := by
  have hh := healthy_run l hl _ s ls (healthy_init l queued) h hsm
  have hc := spaced_credit l hl _ s ls (healthy_init l queued)
    (by cases queued with
      | nil => simp [Listener.init]
      | cons d ds => simp [Listener.init, credit] at hw ⊢; exact hw) h hsm hsp
  obtain ⟨handled, h1, h2, h3⟩ := C43 l queued ls s h
  rcases C47_progress l s hh with ⟨hp, hr⟩ | ⟨x, s', hxi, hx⟩
  · have hq : s.queue = [] := by
      have : credit s = 0 := by simp [credit, hp, hr]
      rw [this] at hc
      exact List.length_eq_zero_iff.mp (by omega)
    refine ⟨hq, ?_⟩
    intro r hr'
    rw [h3 (by rw [hp]; rfl) r hr']
    rw [hq] at h1
    simp only [List.append_nil] at h1
    rw [h1]
  · rw [hdone x hxi] at hx
    simp at hx

/-- C47 is false: two datagrams that arrive before the thread polls raise one notification.  The first
is delivered, then the thread waits; the second stays in the queue through every continuation without
further arrivals and unfounded notifications. -/
theorem C47_false (l : Listener) (d1 d2 : Datagram) (hl : l.receivers = []) :
    ∃ s, l.run (l.init []) [.arrive d1, .arrive d2, .pollEvent, .recv, .join] = some s ∧
      takenIn s.trace = [received l.buffersize d1] ∧ s.queue = [d2] ∧
      ∀ (more : List Label) (s' : NetState), l.run s more = some s' →
        (∀ x ∈ more, x ≠ .pollSpurious ∧ ∀ d, x ≠ .arrive d) →
        s'.queue = [d2] ∧ takenIn s'.trace = [received l.buffersize d1] := by
  have hcut : (recvInto (List.replicate l.buffersize 0) d1.bytes).2.take
      (recvInto (List.replicate l.buffersize 0) d1.bytes).1 = d1.bytes.take l.buffersize := by
    rw [cut_eq, List.length_replicate]
  refine ⟨⟨[d2], false, (recvInto (List.replicate l.buffersize 0) d1.bytes).2, .polling,
    [.taken ⟨(recvInto (List.replicate l.buffersize 0) d1.bytes).2.take
      (recvInto (List.replicate l.buffersize 0) d1.bytes).1⟩ ⟨d1.source⟩]⟩,
    by simp [Listener.run, Listener.step, Listener.init, hl, afterEvent], ?_, rfl, ?_⟩
  · simp [takenIn, received, hcut]
  · intro more
    have key : ∀ (more : List Label) (s s' : NetState), s.queue = [d2] → s.ready = false →
        (s.phase = .polling ∨ s.phase = .stopped .pollError) → l.run s more = some s' →
        (∀ x ∈ more, x ≠ .pollSpurious ∧ ∀ d, x ≠ .arrive d) →
        s'.queue = [d2] ∧ s'.trace = s.trace := by
      intro more
      induction more with
      | nil =>
        intro s s' hq _ _ hrun _
        simp only [Listener.run, Option.some.injEq] at hrun
        subst hrun
        exact ⟨hq, rfl⟩
      | cons x more ih =>
        intro s s' hq hr hp hrun hx
        simp only [Listener.run] at hrun
        cases hst : l.step s x with
        | none => simp [hst] at hrun
        | some m =>
          simp only [hst] at hrun
          have hm : m.queue = [d2] ∧ m.ready = false ∧
              (m.phase = .polling ∨ m.phase = .stopped .pollError) ∧ m.trace = s.trace := by
            rcases hp with hp | hp <;> cases x <;>
              simp [Listener.step, hp, hr] at hst <;>
              first
                | (subst hst; simp [hq, hr, hp]; done)
                | exact absurd rfl (hx _ List.mem_cons_self).1
                | exact absurd rfl ((hx _ List.mem_cons_self).2 _)
          obtain ⟨g1, g2⟩ := ih m s' hm.1 hm.2.1 hm.2.2.1 hrun (fun y hy => hx y (by simp [hy]))
          exact ⟨g1, by rw [g2, hm.2.2.2]⟩
    intro s' hrun hx
    have := key more _ s' rfl rfl (.inl rfl) hrun hx
    refine ⟨this.1, ?_⟩
    rw [this.2]
    simp [takenIn, received, hcut]

/-! ## Satisfiability of the hypotheses -/

/-- Two receivers that do nothing. -/
def exampleListener : Listener :=
  ⟨[⟨fun _ _ => false, fun _ _ => []⟩, ⟨fun _ _ => false, fun _ _ => []⟩], 4⟩

/-- A datagram longer than that listener's buffer. -/
def exampleDatagram : Datagram := ⟨[1, 2, 3, 4, 5], .v4 1 2 3 4 5⟩

/-- An execution with one datagram, the receivers running out of order. -/
def exampleRun : List Label :=
  [.pollTimeout, .arrive exampleDatagram, .pollEvent, .recv, .start 1, .start 0, .finish 0, .finish 1,
    .join]

example : NoPanics exampleListener := by simp [NoPanics, exampleListener]
example : Smooth exampleRun := by simp [Smooth, exampleRun, internal]
example : ∃ s, exampleListener.run (exampleListener.init []) exampleRun = some s ∧
    callsOf 1 s.trace = [(⟨[1, 2, 3, 4]⟩, ⟨.v4 1 2 3 4 5⟩)] ∧ s.phase = .polling := ⟨_, rfl, rfl, rfl⟩
example : SpacedFrom exampleListener (exampleListener.init []) exampleRun := by
  simp [SpacedFrom, exampleRun, Listener.step, Listener.init, exampleListener]

/-! ## Cases for the theorems above -/

/-- `C43_complete`: the thread of the example listener handles a datagram and then ends with an error of `poll`. -/
example (s : NetState) (h : exampleListener.run (exampleListener.init []) (exampleRun ++ [.pollError]) = some s) :
    callsOf 0 s.trace = takenIn s.trace ∧ takenIn s.trace = [(⟨[1, 2, 3, 4]⟩, ⟨.v4 1 2 3 4 5⟩)] := by
  have hs := h
  cases hs
  exact ⟨C43_complete exampleListener (by simp [NoPanics, exampleListener]) [] _ _ h rfl 0 (by decide), rfl⟩

/-- `C46_empty_fatal`: woken for nothing. -/
example (s s' : NetState) (h : exampleListener.run (exampleListener.init []) [.pollSpurious] = some s)
    (h' : exampleListener.step s .recv = some s') : s'.phase = .stopped .recvError := by
  cases h
  exact C46_empty_fatal exampleListener _ _ 0 rfl rfl h'

/-- `C44`: the next datagram is taken after all receivers are through with the first. -/
example := C44 exampleListener [] (exampleRun ++ [.arrive ⟨[6], .v4 1 1 1 1 1⟩, .pollEvent, .recv]) _ rfl
  [.taken ⟨[1, 2, 3, 4]⟩ ⟨.v4 1 2 3 4 5⟩, .call 1 ⟨[1, 2, 3, 4]⟩ ⟨.v4 1 2 3 4 5⟩, .call 0 ⟨[1, 2, 3, 4]⟩ ⟨.v4 1 2 3 4 5⟩,
    .ret 0, .ret 1] [] ⟨[6]⟩ ⟨.v4 1 1 1 1 1⟩ rfl

/-- `C45`: the datagram of five bytes is cut to four. -/
example := C45 exampleListener [] exampleRun _ rfl 0 ⟨[1, 2, 3, 4]⟩ ⟨.v4 1 2 3 4 5⟩ rfl

/-- `C46`: the thread lives on after `exampleRun`. -/
example := C46 exampleListener [] exampleRun _ rfl (by simp [exampleRun]) (by simp [exampleRun]) (by simp [exampleRun])
  (by simp [NoPanics, exampleListener])

/-- `C46_causes`, `C46_final`: an error of `poll`, and another datagram after it. -/
example := C46_causes exampleListener [] (exampleRun ++ [.pollError]) _ rfl rfl
example (s : NetState) (h : exampleListener.run (exampleListener.init []) (exampleRun ++ [.pollError]) = some s) :=
  C46_final exampleListener s _ (.arrive exampleDatagram) (by cases h; rfl) rfl

/-- `C47_exact_partial`, `C47_partial`: two datagrams at once, of which one is delivered; and one, which is. -/
example := C47_exact_partial exampleListener (by simp [NoPanics, exampleListener]) []
  [.arrive exampleDatagram, .arrive ⟨[6], .v4 1 1 1 1 1⟩] _ rfl (by simp [Smooth, internal])
  [.pollEvent, .recv, .start 1, .start 0, .finish 0, .finish 1, .join] _ (by simp [internal]) rfl
example := C47_partial exampleListener (by simp [NoPanics, exampleListener]) [] (by decide) exampleRun _ rfl
  (by simp [Smooth, exampleRun, internal])
  (by simp [SpacedFrom, exampleRun, Listener.step, Listener.init, exampleListener])
  (by
    intro x hx
    cases x <;> simp [internal] at hx <;> first | rfl | simp [Listener.step, afterEvent])

/-- `C43`, `C43_always` and `C44_calls`: the execution of `exampleRun`. -/
example (s : NetState) (h : exampleListener.run (exampleListener.init []) exampleRun = some s) :=
  And.intro (C43 exampleListener [] _ s h) (And.intro (C43_always exampleListener [] _ s h) (C44_calls exampleListener [] _ s h))

/-- `C46_panic_fatal` -/
example (l : Listener) (m s : NetState) (h : l.run m [.crash 0, .join] = some s) := C46_panic_fatal l [.join] 0 m s h

/-- `C47_false` and `C47_progress`. -/
example := C47_false ⟨[], 16⟩ ⟨[1], .v4 1 2 3 4 5⟩ ⟨[2], .v4 1 2 3 4 5⟩ rfl
example := C47_progress exampleListener (exampleListener.init [exampleDatagram])

end Ipv8
