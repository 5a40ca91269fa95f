import Verif.Props.Live
import Verif.Props.Isolation
/-!
# C81: liveness of a whole process

C79 is about one listening thread.  Here it is one of many in a process that does anything else meanwhile.
-/

namespace Ipv8
open Spec

/-! ## Specification -/

/-- The whole life of a process that never ends.  At each moment something happens in it, or (`none`)
nothing does. -/
structure Lifetime (N : Net) where
  state : Nat → Node
  label : Nat → Option NLabel
  start : state 0 = Node.init
  step : ∀ n, match label n with
    | some x => (state n).step N x = some (state (n + 1))
    | none => state (n + 1) = state n

/-- Step `x` is work of the listening thread on socket `s` or of the pool for it. -/
def WorkOf (s : Nat) (n : Node) (x : NLabel) : Prop :=
  ∃ k t y, x = .thread k y ∧ n.threads[k]? = some t ∧ t.socket = s ∧ internal y = true

/-- The machine is fair to the thread on socket `s`: if from some moment on there is always something the
thread, or the pool for it, could do, then it does something. -/
def Lifetime.Fair {N : Net} (P : Lifetime N) (s : Nat) : Prop :=
  ∀ n, (∀ m, n ≤ m → ∃ x, WorkOf s (P.state m) x ∧ ((P.state m).step N x).isSome = true) →
    ∃ m x, n ≤ m ∧ P.label m = some x ∧ WorkOf s (P.state m) x

/-- No system call of the thread on socket `s` fails and no notification comes without a datagram. -/
def Lifetime.Smooth {N : Net} (P : Lifetime N) (s : Nat) : Prop :=
  ∀ n k y t, P.label n = some (.thread k y) → (P.state n).threads[k]? = some t → t.socket = s →
    internal y = true ∨ y = .pollTimeout

/-- Datagrams to the address `a` never stop coming. -/
def Lifetime.Endless {N : Net} (P : Lifetime N) (a : SocketAddr) : Prop :=
  ∀ n, ∃ m dest d, n ≤ m ∧ P.label m = some (.arrive dest d) ∧ N.reaches a dest = true

/-- What happened to socket `s` up to a moment. -/
def Lifetime.history {N : Net} (P : Lifetime N) (s n : Nat) : List NEv := Spec.history s (P.state n).log

/-! ## Proofs -/

theorem Lifetime.reachable {N : Net} (P : Lifetime N) (n : Nat) :
    ∃ ls, Node.init.run N ls = some (P.state n) := by
  induction n with
  | zero => exact ⟨[], by rw [P.start]; rfl⟩
  | succ n ih =>
    obtain ⟨ls, h⟩ := ih
    have hs := P.step n
    cases hx : P.label n with
    | none => rw [hx] at hs; simp only at hs; exact ⟨ls, by rw [hs]; exact h⟩
    | some x =>
      rw [hx] at hs
      refine ⟨ls ++ [x], ?_⟩
      have : ∀ (as : List NLabel) (m : Node), m.run N as = some (P.state n) →
          m.run N (as ++ [x]) = some (P.state (n + 1)) := by
        intro as
        induction as with
        | nil =>
          intro m hm
          simp only [Node.run, Option.some.injEq] at hm
          subst hm
          simp only [List.nil_append, Node.run, hs]
        | cons a as ih =>
          intro m hm
          simp only [Node.run, List.cons_append] at hm ⊢
          split at hm
          · next m1 hm1 => exact ih m1 hm
          · simp at hm
      exact this ls _ h

theorem Lifetime.inv {N : Net} (P : Lifetime N) (n : Nat) : (P.state n).Inv N := by
  obtain ⟨ls, h⟩ := P.reachable n
  exact node_run N ls _ _ (Node.init_inv N) h

/-- Where threads come from. -/
theorem thread_origin (N : Net) (n n' : Node) (x : NLabel) (hs : n.step N x = some n') (t' : Thread)
    (ht' : t' ∈ n'.threads) :
    (∃ t ∈ n.threads, t.socket = t'.socket ∧ t.listener = t'.listener ∧ t.address = t'.address) ∨
    ∃ q, t'.state = t'.listener.init q := by
  cases x with
  | arrive dest d =>
    left
    simp only [Node.step, Option.some.injEq] at hs
    subst hs
    simp only [Node.arrive, List.mem_map] at ht'
    obtain ⟨t, ht, rfl⟩ := ht'
    refine ⟨t, ht, ?_⟩
    split <;> exact ⟨rfl, rfl, rfl⟩
  | thread k y =>
    left
    simp only [Node.step] at hs
    split at hs
    · rename_i h hk
      split at hs
      · cases hs
      · split at hs
        · simp only [Option.some.injEq] at hs
          subst hs
          simp only at ht'
          rcases List.mem_or_eq_of_mem_set ht' with hm | rfl
          · exact ⟨t', hm, rfl, rfl, rfl⟩
          · exact ⟨h, List.mem_of_getElem? hk, rfl, rfl, rfl⟩
        · cases hs
    · cases hs
  | reap k =>
    left
    simp only [Node.step] at hs
    split at hs
    · split at hs
      · simp only [Option.some.injEq] at hs
        subst hs
        exact ⟨t', List.mem_of_mem_eraseIdx ht', rfl, rfl, rfl⟩
      · cases hs
    · cases hs
  | startReceiver k c =>
    simp only [Node.step] at hs
    split at hs
    · simp only [Option.some.injEq] at hs
      subst hs
      simp only [List.mem_append, List.mem_singleton] at ht'
      rcases ht' with hm | rfl
      · exact .inl ⟨t', hm, rfl, rfl, rfl⟩
      · exact .inr ⟨_, rfl⟩
    · cases hs
  | startInstance k =>
    simp only [Node.step] at hs
    split at hs
    · simp only [Option.some.injEq] at hs
      subst hs
      simp only [List.mem_append, List.mem_singleton] at ht'
      rcases ht' with hm | rfl
      · exact .inl ⟨t', hm, rfl, rfl, rfl⟩
      · exact .inr ⟨_, rfl⟩
    · cases hs
  | _ =>
    left
    simp only [Node.step] at hs
    repeat' split at hs
    all_goals first
      | (cases hs; done)
      | (simp only [Option.some.injEq] at hs
         subst hs
         exact ⟨t', ht', rfl, rfl, rfl⟩)

/-- Every listening thread was started at some moment. -/
theorem Lifetime.started {N : Net} (P : Lifetime N) (n : Nat) (t : Thread) (ht : t ∈ (P.state n).threads) :
    ∃ n1 t1 q, n1 ≤ n ∧ t1 ∈ (P.state n1).threads ∧ t1.socket = t.socket ∧ t1.listener = t.listener ∧
      t1.address = t.address ∧ t1.state = t.listener.init q := by
  induction n generalizing t with
  | zero => rw [P.start] at ht; cases ht
  | succ n ih =>
    have hs := P.step n
    cases hx : P.label n with
    | none =>
      rw [hx] at hs
      simp only at hs
      rw [hs] at ht
      obtain ⟨n1, t1, q, h1, h2⟩ := ih t ht
      exact ⟨n1, t1, q, by omega, h2⟩
    | some x =>
      rw [hx] at hs
      rcases thread_origin N _ _ x hs t ht with ⟨u, hu, e1, e2, e3⟩ | ⟨q, hq⟩
      · obtain ⟨n1, t1, q, h1, h2, h3, h4, h5, h6⟩ := ih u hu
        exact ⟨n1, t1, q, by omega, h2, h3.trans e1, h4.trans e2, h5.trans e3, by rw [h6, e2]⟩
      · exact ⟨n + 1, t, q, Nat.le_refl _, ht, rfl, rfl, rfl, hq⟩

theorem stepFor_head (N : Net) (n : Node) (s : Nat) (x : NLabel) :
    stepFor N n s x = (stepFor N n s x).head?.toList := by
  cases x <;> simp only [stepFor] <;> (try split) <;> rfl

/-- Steps of a smooth life are smooth steps of the thread. -/
theorem Lifetime.smooth_for {N : Net} (P : Lifetime N) (s : Nat) (hs : P.Smooth s) (n : Nat) (x : NLabel)
    (hx : P.label n = some x) (y : Label) (hy : y ∈ stepFor N (P.state n) s x) :
    internal y = true ∨ y = .pollTimeout ∨ ∃ d, y = .arrive d := by
  cases x with
  | arrive dest d =>
    simp only [stepFor] at hy
    split at hy
    · simp only [List.mem_singleton] at hy; exact .inr (.inr ⟨d, hy⟩)
    · cases hy
  | thread k z =>
    simp only [stepFor] at hy
    split at hy
    · rename_i ha
      simp only [List.mem_singleton] at hy
      subst hy
      simp only [Option.any_eq_true_iff_get, beq_iff_eq] at ha
      obtain ⟨h1, h2⟩ := ha
      rcases hs n k y _ hx (Option.some_get h1).symm h2 with h | h
      · exact .inl h
      · exact .inr (.inl h)
    · cases hy
  | _ => simp [stepFor] at hy

/-- The thread on socket `s` lives on. -/
theorem Lifetime.lives {N : Net} (P : Lifetime N) (n1 : Nat) (t1 : Thread)
    (ht1 : t1 ∈ (P.state n1).threads) (hl : NoPanics t1.listener) (hh : Healthy t1.state)
    (hs : P.Smooth t1.socket) (k : Nat) :
    ∃ u ∈ (P.state (n1 + k)).threads, u.socket = t1.socket ∧ u.listener = t1.listener ∧
      u.address = t1.address ∧ Healthy u.state := by
  induction k with
  | zero => exact ⟨t1, ht1, rfl, rfl, rfl, hh⟩
  | succ k ih =>
    obtain ⟨u, hu, e1, e2, e3, e4⟩ := ih
    have hst := P.step (n1 + k)
    cases hx : P.label (n1 + k) with
    | none =>
      rw [hx] at hst
      simp only at hst
      exact ⟨u, by rw [Nat.add_succ, hst]; exact hu, e1, e2, e3, e4⟩
    | some x =>
      rw [hx] at hst
      rcases thread_step N _ _ x (P.inv _) hst u hu with ⟨v, hv, f1, f2, f3, f4⟩ | ⟨-, ⟨c, hc⟩, -⟩
      · refine ⟨v, hv, f1.trans e1, f3.trans e2, f2.trans e3, ?_⟩
        refine healthy_run u.listener (by rw [e2]; exact hl) _ _ _ e4 f4 ?_
        intro y hy
        exact P.smooth_for t1.socket hs _ x hx y (by rw [← e1]; exact hy)
      · have := e4.alive
        rw [hc] at this
        cases this

/-- The life of the process, seen from the thread on socket `s`. -/
theorem Lifetime.view {N : Net} (P : Lifetime N) (n1 : Nat) (t1 : Thread) (q : List Datagram)
    (ht1 : t1 ∈ (P.state n1).threads) (hl : NoPanics t1.listener) (hq : t1.state = t1.listener.init q)
    (hs : P.Smooth t1.socket) (hf : P.Fair t1.socket) :
    ∃ E : Execution t1.listener, E.Fair ∧ E.Smooth ∧ E.queued = q ∧
      (∀ k, ∃ u ∈ (P.state (n1 + k)).threads, u.socket = t1.socket ∧ u.listener = t1.listener ∧
        u.address = t1.address ∧ u.state = E.state k) ∧
      (∀ k, E.label k = (P.label (n1 + k)).bind fun x => (stepFor N (P.state (n1 + k)) t1.socket x).head?) := by
  have hh : Healthy t1.state := by rw [hq]; exact healthy_init _ q
  have hlive := P.lives n1 t1 ht1 hl hh hs
  let st : Nat → NetState := fun k => (Classical.choose (hlive k)).state
  have hst : ∀ k, ∃ u ∈ (P.state (n1 + k)).threads, u.socket = t1.socket ∧ u.listener = t1.listener ∧
      u.address = t1.address ∧ u.state = st k := by
    intro k
    obtain ⟨h1, h2, h3, h4, -⟩ := Classical.choose_spec (hlive k)
    exact ⟨_, h1, h2, h3, h4, rfl⟩
  let lab : Nat → Option Label := fun k =>
    (P.label (n1 + k)).bind fun x => (stepFor N (P.state (n1 + k)) t1.socket x).head?
  have hstep : ∀ k, match lab k with
      | some x => t1.listener.step (st k) x = some (st (k + 1))
      | none => st (k + 1) = st k := by
    intro k
    obtain ⟨u, hu, e1, e2, e3, e4⟩ := hst k
    obtain ⟨v, hv, g1, g2, g3, g4⟩ := hst (k + 1)
    have hp := P.step (n1 + k)
    cases hx : P.label (n1 + k) with
    | none =>
      rw [hx] at hp
      simp only at hp
      have hl0 : lab k = none := by simp only [lab, hx]; rfl
      rw [hl0]
      simp only
      rw [Nat.add_succ, hp] at hv
      have := thread_unique (P.inv (n1 + k)) hv hu (g1.trans e1.symm).symm
      rw [← g4, ← e4, this]
    | some x =>
      rw [hx] at hp
      have hl1 : lab k = (stepFor N (P.state (n1 + k)) t1.socket x).head? := by simp only [lab, hx]; rfl
      rcases thread_step N _ _ x (P.inv _) hp u hu with ⟨w, hw, f1, f2, f3, f4⟩ | ⟨-, ⟨c, hc⟩, -⟩
      · have := thread_unique (P.inv (n1 + (k + 1))) hv hw (g1.trans (f1.trans e1).symm).symm
        subst this
        rw [e1, stepFor_head, ← hl1, e2, e4, g4] at f4
        cases hy : lab k with
        | none =>
          rw [hy] at f4
          simp only [Option.toList_none, Listener.run, Option.some.injEq] at f4
          exact f4.symm
        | some y =>
          rw [hy] at f4
          simp only [Option.toList_some, Listener.run] at f4
          split at f4
          · next s' hs' =>
            show t1.listener.step (st k) y = some (st (k + 1))
            rw [hs', f4]
          · cases f4
      · obtain ⟨u', hu', a1, -, -, a4⟩ := hlive k
        have := thread_unique (P.inv (n1 + k)) hu hu' (e1.trans a1.symm).symm
        subst this
        have := a4.alive
        rw [hc] at this
        cases this
  have hinit : st 0 = t1.listener.init q := by
    obtain ⟨u, hu, e1, e2, e3, e4⟩ := hst 0
    have := thread_unique (P.inv n1) hu ht1 e1.symm
    rw [← e4, ← this, hq]
  refine ⟨⟨q, st, lab, hinit, hstep⟩, ?_, ?_, rfl, hst, fun k => rfl⟩
  · intro n hn
    obtain ⟨m, x, h1, h2, k, t, y, rfl, h3, h4, h5⟩ := hf (n1 + n) (by
      intro m hm
      obtain ⟨y, hi, hy⟩ := hn (m - n1) (by omega)
      obtain ⟨u, hu, e1, e2, e3, e4⟩ := hst (m - n1)
      rw [show n1 + (m - n1) = m by omega] at hu
      obtain ⟨k, hk⟩ := List.getElem?_of_mem hu
      refine ⟨.thread k y, ⟨k, u, y, rfl, hk, e1, hi⟩, ?_⟩
      simp only at hy
      rw [Option.isSome_iff_exists] at hy
      obtain ⟨s', hy⟩ := hy
      simp only [Node.step, hk, e2, e4]
      cases y <;> simp [internal] at hi <;> simp [hy])
    refine ⟨m - n1, y, by omega, h5, ?_⟩
    simp only [lab]
    rw [show n1 + (m - n1) = m by omega, h2]
    simp [stepFor, h3, h4]
  · intro n x hx
    simp only [lab] at hx
    cases hy : P.label (n1 + n) with
    | none => rw [hy] at hx; simp at hx
    | some y =>
      rw [hy] at hx
      simp only [Option.bind_some] at hx
      exact P.smooth_for _ hs _ y hy x (List.mem_of_head? hx)

/-- What the history of a socket says about the thread that has it. -/
theorem thread_facts {N : Net} {n : Node} (hi : n.Inv N) (t : Thread) (ht : t ∈ n.threads) :
    threadIn (Spec.history t.socket n.log) = t.state.trace ∧
    ∃ handled, arrivedIn (Spec.history t.socket n.log) = handled ++ t.state.queue ∧
      takenIn t.state.trace = handled.map (received t.listener.buffersize) ∧
      (idle t.state.phase = true → ∀ r, r < t.listener.receivers.length →
        callsOf r t.state.trace = handled.map (received t.listener.buffersize)) := by
  obtain ⟨u, b, xs, hr, hl, hrun, hh⟩ := hi.fits _ (thread_mem_objs ht)
  simp only at hh
  obtain ⟨o1, o2, o3, o4, o5⟩ := observed_facts _ _ _ _ hrun
  obtain ⟨handled, c1, c2, c3⟩ := C43 _ _ _ _ hrun
  have ho := receiverLife_only hr
  refine ⟨?_, handled, ?_, c2, c3⟩
  · rw [hh, threadIn_append, ho.1, o1]
    simp [threadIn, Listener.init]
  · rw [hh, arrivedIn_append]
    simp only [arrivedIn, o2]
    exact c1

theorem step_log {N : Net} {n n' : Node} {x : NLabel} (h : n.step N x = some n') : n.log <+: n'.log := by
  cases x <;> simp only [Node.step] at h <;> (repeat' split at h) <;>
    simp only [Option.some.injEq, reduceCtorEq] at h <;> subst h <;> simp [Node.arrive]

theorem Lifetime.log_le {N : Net} (P : Lifetime N) {n m : Nat} (h : n ≤ m) :
    (P.state n).log <+: (P.state m).log := by
  induction h with
  | refl => exact List.prefix_refl _
  | @step m _ ih =>
    refine ih.trans ?_
    have hst := P.step m
    cases hx : P.label m with
    | none => rw [hx] at hst; simp only at hst; rw [hst]; exact List.prefix_refl _
    | some x => rw [hx] at hst; exact step_log hst

theorem Lifetime.arrived_le {N : Net} (P : Lifetime N) (s : Nat) {n m : Nat} (h : n ≤ m) :
    arrivedIn (P.history s n) <+: arrivedIn (P.history s m) := by
  obtain ⟨w, hw⟩ := P.log_le h
  simp only [Lifetime.history, ← hw, history_append, arrivedIn_append]
  exact List.prefix_append _ _

/-- A listening thread of a process, followed through its life. -/
theorem Lifetime.follow {N : Net} (P : Lifetime N) (n0 : Nat) (t : Thread) (ht : t ∈ (P.state n0).threads)
    (hl : NoPanics t.listener) (hf : P.Fair t.socket) (hs : P.Smooth t.socket) :
    ∃ n1, n1 ≤ n0 ∧ ∃ E : Execution t.listener, E.Fair ∧ E.Smooth ∧
      (∀ k, ∃ u ∈ (P.state (n1 + k)).threads, u.socket = t.socket ∧ u.listener = t.listener ∧
        u.address = t.address ∧ u.state = E.state k) ∧
      (∀ k, E.label k = (P.label (n1 + k)).bind fun x => (stepFor N (P.state (n1 + k)) t.socket x).head?) := by
  obtain ⟨n1, t1, q, h1, h2, h3, h4, h5, h6⟩ := P.started n0 t ht
  rw [← h4] at h6 hl
  rw [← h3] at hf hs
  obtain ⟨E, e1, e2, -, e4, e5⟩ := P.view n1 t1 q h2 hl h6 hs hf
  refine ⟨n1, h1, ?_⟩
  rw [← h3, ← h4, ← h5]
  exact ⟨E, e1, e2, e4, e5⟩

/-- Once the thread has taken `i + 1` datagrams, all receivers get number `i`. -/
theorem Lifetime.gets {N : Net} (P : Lifetime N) (n1 : Nat) (t : Thread) (hl : NoPanics t.listener)
    (E : Execution t.listener) (hf : E.Fair) (hs : E.Smooth)
    (hE : ∀ k, ∃ u ∈ (P.state (n1 + k)).threads, u.socket = t.socket ∧ u.listener = t.listener ∧
        u.address = t.address ∧ u.state = E.state k)
    (n i : Nat) (d : Datagram) (hd : (arrivedIn (P.history t.socket n))[i]? = some d)
    (k : Nat) (hk : i < (takenIn (E.state k).trace).length) :
    ∃ m, n ≤ m ∧ n1 + k ≤ m ∧ ∀ r, r < t.listener.receivers.length →
      (callsOf r (threadIn (P.history t.socket m)))[i]? = some (received t.listener.buffersize d) := by
  obtain ⟨m, h1, h2, h3⟩ := E.idles hl hf hs (max n k)
  obtain ⟨u, hu, e1, e2, e3, e4⟩ := hE m
  refine ⟨n1 + m, by omega, by omega, ?_⟩
  intro r hr
  obtain ⟨g0, handled, g1, g2, g3⟩ := thread_facts (P.inv (n1 + m)) u hu
  rw [e1] at g0 g1
  rw [e2, e4] at g2 g3
  rw [e4] at g0 g1
  simp only [Lifetime.history]
  have hlen : i < handled.length := by
    have : (takenIn (E.state k).trace).length ≤ (takenIn (E.state m).trace).length :=
      takenIn_le (E.trace_le (by omega))
    rw [g2, List.length_map] at this
    omega
  have harr : (arrivedIn (P.history t.socket (n1 + m)))[i]? = some d := by
    obtain ⟨w, hw⟩ := P.arrived_le t.socket (show n ≤ n1 + m by omega)
    rw [← hw, List.getElem?_append_left (List.getElem?_eq_some_iff.mp hd).1]
    exact hd
  rw [Lifetime.history, g1, List.getElem?_append_left hlen] at harr
  rw [g0, g3 h2 r hr, List.getElem?_map, harr]
  rfl

/-- A datagram to the address of a thread is an arrival in its socket. -/
theorem Lifetime.arrives {N : Net} (P : Lifetime N) (n : Nat) (t : Thread) (ht : t ∈ (P.state n).threads)
    (dest : SocketAddr) (d : Datagram) (hr : N.reaches t.address dest = true) :
    stepFor N (P.state n) t.socket (.arrive dest d) = [.arrive d] := by
  simp only [stepFor]
  rw [if_pos]
  simp only [List.any_eq_true, Bool.and_eq_true, beq_iff_eq]
  exact ⟨_, ht, rfl, hr⟩

/-! ## The theorems -/

/-- C81. A process may do whatever it likes: as long as datagrams for the address of a listening thread keep
coming, every single one that ever arrived there since the socket was bound reaches every receiver.  That is,
number `i` of the arrivals is sooner or later what each receiver is called with for the `i`-th time.  Nothing
is assumed about the other sockets, senders, instances and threads of the process; they may fail, panic, be
started, dropped or joined at any time, and nothing need be fair to them. -/
theorem C81 (N : Net) (P : Lifetime N) (n0 : Nat) (t : Thread) (ht : t ∈ (P.state n0).threads)
    (hl : NoPanics t.listener) (hf : P.Fair t.socket) (hs : P.Smooth t.socket) (he : P.Endless t.address)
    (n i : Nat) (d : Datagram) (hd : (arrivedIn (P.history t.socket n))[i]? = some d) :
    ∃ m, n ≤ m ∧ ∀ r, r < t.listener.receivers.length →
      (callsOf r (threadIn (P.history t.socket m)))[i]? = some (received t.listener.buffersize d) := by
  obtain ⟨n1, h1, E, e1, e2, e3, e4⟩ := P.follow n0 t ht hl hf hs
  have hend : E.Endless := by
    intro k
    obtain ⟨m, dest, d', g1, g2, g3⟩ := he (n1 + k)
    obtain ⟨u, hu, f1, f2, f3, f4⟩ := e3 (m - n1)
    rw [show n1 + (m - n1) = m by omega] at hu
    refine ⟨m - n1, d', by omega, ?_⟩
    have := P.arrives m u hu dest d' (by rw [f3]; exact g3)
    rw [f1] at this
    rw [e4, show n1 + (m - n1) = m by omega, g2]
    simp [this]
  have key : ∀ k, ∃ n', k ≤ (takenIn (E.state n').trace).length := by
    intro k
    induction k with
    | zero => exact ⟨0, Nat.zero_le _⟩
    | succ k ih =>
      obtain ⟨n', hn'⟩ := ih
      obtain ⟨m, d, h1, h2⟩ := hend n'
      have hst := E.step m
      rw [h2] at hst
      simp only [Listener.step, Option.some.injEq] at hst
      obtain ⟨m', h3, h4⟩ := E.takes hl e1 e2 (m + 1) (.inl (by rw [← hst]))
      have := takenIn_le (E.trace_le (show n' ≤ m + 1 by omega))
      exact ⟨m', by omega⟩
  obtain ⟨k, hk⟩ := key (i + 1)
  obtain ⟨m, g1, -, g2⟩ := P.gets n1 t hl E e1 e2 e3 n i d hd k (by omega)
  exact ⟨m, g1, g2⟩

/-- C81. A datagram that comes for a listening thread while its socket is empty reaches every receiver,
whether or not anything comes after it. -/
theorem C81_alone (N : Net) (P : Lifetime N) (n : Nat) (t : Thread) (ht : t ∈ (P.state n).threads)
    (hl : NoPanics t.listener) (hf : P.Fair t.socket) (hs : P.Smooth t.socket) (dest : SocketAddr)
    (d : Datagram) (hx : P.label n = some (.arrive dest d)) (hr : N.reaches t.address dest = true)
    (hq : t.state.queue = []) :
    ∃ m, n < m ∧ ∀ r, r < t.listener.receivers.length →
      (callsOf r (threadIn (P.history t.socket m)))[(arrivedIn (P.history t.socket n)).length]? =
        some (received t.listener.buffersize d) := by
  obtain ⟨n1, h1, E, e1, e2, e3, e4⟩ := P.follow n t ht hl hf hs
  obtain ⟨k, rfl⟩ : ∃ k, n = n1 + k := ⟨n - n1, by omega⟩
  obtain ⟨u, hu, f1, f2, f3, f4⟩ := e3 k
  have := thread_unique (P.inv (n1 + k)) ht hu f1
  subst this
  have ha := P.arrives _ u hu dest d hr
  have hlab : E.label k = some (.arrive d) := by rw [e4, hx]; simp [ha]
  have hst := E.step k
  rw [hlab] at hst
  simp only [Listener.step, Option.some.injEq] at hst
  obtain ⟨m, g1, g2⟩ := E.takes hl e1 e2 (k + 1) (.inl (by rw [← hst]))
  obtain ⟨c0, handled, c1, c2, -⟩ := thread_facts (P.inv (n1 + k)) u hu
  obtain ⟨v, hv, f1', f2', f3', f4'⟩ := e3 (k + 1)
  obtain ⟨c0', handled', c1', c2', -⟩ := thread_facts (P.inv (n1 + (k + 1))) v hv
  rw [hq, List.append_nil] at c1
  rw [f4] at c2
  have hlen : (arrivedIn (P.history u.socket (n1 + k))).length = (takenIn (E.state (k + 1)).trace).length := by
    rw [Lifetime.history, c1, ← hst]
    simp only
    rw [c2, List.length_map]
  have hd : (arrivedIn (P.history u.socket (n1 + (k + 1))))[(arrivedIn (P.history u.socket (n1 + k))).length]? =
      some d := by
    have hp := P.step (n1 + k)
    rw [hx] at hp
    simp only at hp
    obtain ⟨w, hw⟩ := P.arrived_le u.socket (show n1 + k ≤ n1 + (k + 1) by omega)
    rw [f1', f4', ← hst] at c1'
    simp only [← f4, hq, List.nil_append] at c1'
    rw [f2', f4', ← hst] at c2'
    simp only [c2] at c2'
    have hl' : handled'.length = handled.length := by
      have := congrArg List.length c2'
      simpa using this.symm
    rw [Lifetime.history, Lifetime.history, c1', c1, ← hl']
    simp
  obtain ⟨m', a1, a2, a3⟩ := P.gets n1 u hl E e1 e2 e3 (n1 + (k + 1)) _ d hd m (by omega)
  exact ⟨m', by omega, a3⟩

/-- C81. The thread never ends: as long as its own receivers do not panic and its own system calls do not
fail, nothing the rest of the process does closes its socket or makes it miss a step. -/
theorem C81_lives (N : Net) (P : Lifetime N) (n0 : Nat) (t : Thread) (ht : t ∈ (P.state n0).threads)
    (hl : NoPanics t.listener) (hs : P.Smooth t.socket) (n : Nat) (hn : n0 ≤ n) :
    .close ∉ P.history t.socket n ∧
    ∃ u ∈ (P.state n).threads, u.socket = t.socket ∧ u.address = t.address ∧ u.listener = t.listener ∧
      ∀ c, u.state.phase ≠ .stopped c := by
  obtain ⟨n1, t1, q, h1, h2, h3, h4, h5, h6⟩ := P.started n0 t ht
  have hh : Healthy t1.state := by rw [h6]; exact healthy_init _ q
  obtain ⟨u, hu, f1, f2, f3, f4⟩ := P.lives n1 t1 h2 (by rw [h4]; exact hl) hh (by rw [h3]; exact hs) (n - n1)
  rw [show n1 + (n - n1) = n by omega] at hu
  rw [h3] at f1
  refine ⟨?_, u, hu, f1, f3.trans h5, f2.trans h4, ?_⟩
  · have := life_open ((P.inv n).fits _ (thread_mem_objs hu)).life
    rwa [f1] at this
  · intro c hc
    have := f4.alive
    rw [hc] at this
    cases this

/-- C81. A receiver that was not yet called with something the thread took from its socket is called with
it sooner or later. -/
theorem C81_taken (N : Net) (P : Lifetime N) (n0 : Nat) (t : Thread) (ht : t ∈ (P.state n0).threads)
    (hl : NoPanics t.listener) (hf : P.Fair t.socket) (hs : P.Smooth t.socket) (n : Nat) (hn : n0 ≤ n) :
    ∃ m, n ≤ m ∧ ∀ r, r < t.listener.receivers.length →
      callsOf r (threadIn (P.history t.socket m)) = takenIn (threadIn (P.history t.socket n)) := by
  obtain ⟨n1, h1, E, e1, e2, e3, e4⟩ := P.follow n0 t ht hl hf hs
  obtain ⟨m, a1, a2, a3⟩ := E.idles hl e1 e2 (n - n1)
  refine ⟨n1 + m, by omega, ?_⟩
  intro r hr
  obtain ⟨u, hu, f1, f2, f3, f4⟩ := e3 (n - n1)
  obtain ⟨v, hv, f1', f2', f3', f4'⟩ := e3 m
  rw [show n1 + (n - n1) = n by omega] at hu
  obtain ⟨c0, -⟩ := thread_facts (P.inv n) u hu
  obtain ⟨c0', handled, -, c2, c3⟩ := thread_facts (P.inv (n1 + m)) v hv
  rw [f1, f4] at c0
  rw [f1', f4'] at c0'
  rw [f2', f4'] at c2 c3
  simp only [Lifetime.history]
  rw [c0, c0', c3 a2 r hr, ← a3, c2]

/-! ## A concrete case -/

/-- Two listening threads are started, one of which fails at once. -/
def lifeSetup : List NLabel :=
  [.newReceiver ⟨.v4 0 0 0 0 9⟩ (.v4 0 0 0 0 9), .newReceiver ⟨.v4 0 0 0 0 10⟩ (.v4 0 0 0 0 10),
   .addReceiver 0 ⟨fun _ _ => false, fun _ _ => []⟩, .startReceiver 0 exampleConfig16,
   .startReceiver 0 exampleConfig16, .thread 1 .pollError]

/-- Steps of a round: a datagram for the first thread, and its work on it. -/
def lifeLabel : Nat → NLabel
  | 0 => .arrive (.v4 0 0 0 0 9) liveDatagram
  | j => .thread 0 (liveLabel j)

/-- What is observed in a round, after `j` steps. -/
def lifeEvents : Nat → List (Nat × NEv)
  | 0 => []
  | 1 => [(0, .arrive liveDatagram)]
  | 2 => [(0, .arrive liveDatagram)]
  | 3 => (0, .arrive liveDatagram) :: (liveEvents.take 1).map fun e => (0, .net e)
  | 4 => (0, .arrive liveDatagram) :: (liveEvents.take 2).map fun e => (0, .net e)
  | _ => (0, .arrive liveDatagram) :: liveEvents.map fun e => (0, .net e)

/-- The process at step `j` of round `k`. -/
def lifeNode (k j : Nat) : Node :=
  ⟨2, [], [], [],
   [⟨0, .v4 0 0 0 0 9, liveListener, liveState k j⟩,
    ⟨1, .v4 0 0 0 0 10, ⟨[], 16⟩,
      ⟨[], false, List.replicate 16 0, .stopped .pollError, []⟩⟩],
   [(0, .bind .receiver (.v4 0 0 0 0 9)), (1, .bind .receiver (.v4 0 0 0 0 10)),
    (0, .register ⟨fun _ _ => false, fun _ _ => []⟩), (0, .start 16), (1, .start 16)] ++
   (List.replicate k (lifeEvents 6)).flatten ++ lifeEvents j⟩

theorem life_work (k : Nat) (x : Label) (hx : ∀ d, x ≠ .arrive d) (j : Nat) (s' : NetState)
    (h : liveListener.step (liveState k j) x = some s') :
    (lifeNode k j).step plainNet (.thread 0 x) = some { lifeNode k j with
      threads := (lifeNode k j).threads.set 0 ⟨0, .v4 0 0 0 0 9, liveListener, s'⟩
      log := (lifeNode k j).log ++ (s'.trace.drop (liveState k j).trace.length).map (fun e => (0, .net e)) } := by
  have h0 : (lifeNode k j).threads[0]? = some ⟨0, .v4 0 0 0 0 9, liveListener, liveState k j⟩ := rfl
  simp only [Node.step, h0]
  cases x <;> first | rw [h] | exact absurd rfl (hx _)

theorem life_step (k j : Nat) (hj : j < 6) :
    (lifeNode k j).step plainNet (lifeLabel j) =
      some (if j = 5 then lifeNode (k + 1) 0 else lifeNode k (j + 1)) := by
  have h := live_step k j hj
  match j, hj with
  | 0, _ => simp [lifeNode, lifeLabel, Node.step, Node.arrive, plainNet, Node.sockets, lifeEvents, liveState,
      Listener.step]
  | 1, _ =>
    rw [lifeLabel, life_work k _ (by simp [liveLabel]) _ _ h]
    · simp [lifeNode, lifeEvents, liveState]
    · simp
  | 2, _ =>
    rw [lifeLabel, life_work k _ (by simp [liveLabel]) _ _ h]
    · simp [lifeNode, lifeEvents, liveState, liveEvents]
    · simp
  | 3, _ =>
    rw [lifeLabel, life_work k _ (by simp [liveLabel]) _ _ h]
    · simp [lifeNode, lifeEvents, liveState, liveEvents, List.drop_append]
    · simp
  | 4, _ =>
    rw [lifeLabel, life_work k _ (by simp [liveLabel]) _ _ h]
    · simp [lifeNode, lifeEvents, liveState, liveEvents, List.drop_append]
    · simp
  | 5, _ =>
    rw [lifeLabel, life_work k _ (by simp [liveLabel]) _ _ h]
    · simp [lifeNode, lifeEvents, liveState, liveEvents, List.replicate_succ', List.flatten_append]
    · simp

/-- The process during the setup. -/
def setupNode (j : Nat) : Node := (Node.init.run plainNet (lifeSetup.take j)).getD Node.init

/-- The process lives for ever. -/
def exampleLifetime : Lifetime plainNet where
  state n := if n < 6 then setupNode n else lifeNode ((n - 6) / 6) ((n - 6) % 6)
  label n := if n < 6 then lifeSetup[n]? else some (lifeLabel ((n - 6) % 6))
  start := rfl
  step n := by
    match n with
    | 0 => rfl
    | 1 => rfl
    | 2 => rfl
    | 3 => rfl
    | 4 => rfl
    | 5 => rfl
    | n + 6 =>
      simp only [show ¬ n + 6 < 6 by omega, show ¬ n + 6 + 1 < 6 by omega, if_false]
      rw [life_step _ _ (Nat.mod_lt _ (by omega))]
      by_cases h5 : n % 6 = 5
      · rw [if_pos (by omega), show (n + 6 + 1 - 6) / 6 = (n + 6 - 6) / 6 + 1 by omega,
          show (n + 6 + 1 - 6) % 6 = 0 by omega]
      · rw [if_neg (by omega), show (n + 6 + 1 - 6) / 6 = (n + 6 - 6) / 6 by omega,
          show (n + 6 + 1 - 6) % 6 = (n + 6 - 6) % 6 + 1 by omega]

/-- The hypotheses of `C81`, `C81_taken` and `C81_lives` can be met, and so can those of `C81_alone`. -/
example : ∃ t, t ∈ (exampleLifetime.state 6).threads ∧ t.socket = 0 ∧ NoPanics t.listener ∧
    t.listener.receivers.length = 1 ∧ exampleLifetime.Fair t.socket ∧ exampleLifetime.Smooth t.socket ∧
    exampleLifetime.Endless t.address ∧ t.state.queue = [] ∧
    (arrivedIn (exampleLifetime.history t.socket 30))[2]? = some liveDatagram ∧
    exampleLifetime.label 6 = some (.arrive t.address liveDatagram) := by
  refine ⟨⟨0, .v4 0 0 0 0 9, liveListener, liveState 0 0⟩, List.mem_cons_self, rfl,
    by simp [NoPanics, liveListener], rfl, ?_, ?_, ?_, rfl, rfl, rfl⟩
  · intro n _
    refine ⟨6 * n + 7, .thread 0 .pollEvent, by omega, ?_, 0, ⟨0, .v4 0 0 0 0 9, liveListener, liveState n 1⟩,
      .pollEvent, rfl, ?_, rfl, rfl⟩
    · simp only [exampleLifetime]
      rw [if_neg (by omega), show (6 * n + 7 - 6) % 6 = 1 by omega]
      rfl
    · simp only [exampleLifetime]
      rw [if_neg (by omega), show (6 * n + 7 - 6) % 6 = 1 by omega, show (6 * n + 7 - 6) / 6 = n by omega]
      rfl
  · intro n k y t hx ht hs
    match n with
    | 0 => cases hx
    | 1 => cases hx
    | 2 => cases hx
    | 3 => cases hx
    | 4 => cases hx
    | 5 =>
      simp only [exampleLifetime, lifeSetup] at hx
      simp at hx
      obtain ⟨rfl, -⟩ := hx
      have : t.socket = 1 := by
        have h : some _ = some t := ht
        rw [← Option.some.inj h]
        rfl
      simp [this] at hs
    | n + 6 =>
      have hx : some (lifeLabel ((n + 6 - 6) % 6)) = some (.thread k y) := by
        simp only [exampleLifetime] at hx
        rwa [if_neg (by omega)] at hx
      have hlt : (n + 6 - 6) % 6 < 6 := Nat.mod_lt _ (by omega)
      match hm : (n + 6 - 6) % 6, hlt with
      | 0, _ => rw [hm] at hx; cases hx
      | 1, _ => rw [hm] at hx; cases hx; exact .inl rfl
      | 2, _ => rw [hm] at hx; cases hx; exact .inl rfl
      | 3, _ => rw [hm] at hx; cases hx; exact .inl rfl
      | 4, _ => rw [hm] at hx; cases hx; exact .inl rfl
      | 5, _ => rw [hm] at hx; cases hx; exact .inl rfl
  · intro n
    refine ⟨6 * n + 6, .v4 0 0 0 0 9, liveDatagram, by omega, ?_, rfl⟩
    simp only [exampleLifetime]
    rw [if_neg (by omega), show (6 * n + 6 - 6) % 6 = 0 by omega]
    rfl

end Ipv8
