import Verif.Props.Live
import Verif.Props.World
/-!
# C91: a message that is sent again and again gets through

Liveness from end to end: a sender, a network that loses, duplicates, delays and reorders, and a listening node.
-/

namespace Ipv8
open Spec

/-! ## Specification -/

/-- The endless life of a network of nodes.  At each moment something happens somewhere, or (`none`) nothing does. -/
structure WorldLife where
  state : Nat → World
  label : Nat → Option WLabel
  start : state 0 = World.init
  step : ∀ n, match label n with
    | some x => (state n).step x = some (state (n + 1))
    | none => state (n + 1) = state n

/-- The machine of node `k` is fair to its listening thread and its pool: if from some moment on there is always
something they could do, they do something. -/
def WorldLife.FairTo (W : WorldLife) (k : Nat) : Prop :=
  ∀ n, (∀ m, n ≤ m → ∃ x, internal x = true ∧ ((W.state m).step (.at k x)).isSome = true) →
    ∃ m x, n ≤ m ∧ internal x = true ∧ W.label m = some (.at k x)

/-- At node `k` nothing fails and no notification comes without a datagram. -/
def WorldLife.SmoothAt (W : WorldLife) (k : Nat) : Prop :=
  ∀ n x, W.label n = some (.at k x) → internal x = true ∨ x = .pollTimeout

/-- This datagram arrives at its destination `a` at this moment. -/
def WorldLife.Arrives (W : WorldLife) (n : Nat) (a : SocketAddr) (d : Datagram) : Prop :=
  ∃ i k, W.label n = some (.deliver i k) ∧ (W.state n).air[i]? = some (a, d)

/-- The network may lose this datagram any number of times, but not every time: if it is sent to `a` again and again,
it arrives there again and again. -/
def WorldLife.FairLossy (W : WorldLife) (a : SocketAddr) (d : Datagram) : Prop :=
  (∀ n, ∃ m x, n ≤ m ∧ W.label m = some x ∧ (a, d) ∈ emitted x) → ∀ n, ∃ m, n ≤ m ∧ W.Arrives m a d

/-- Through the socket bound to `sender`, `NetworkSender::send` sends this packet to `a` again and again,
successfully. -/
def WorldLife.Repeats (W : WorldLife) (sender a : SocketAddr) (packet : Packet) : Prop :=
  ∀ n, ∃ m size, n ≤ m ∧ W.label m = some (.send sender ⟨a⟩ packet (.ok size))

/-- What happened up to a moment. -/
def WorldLife.upTo (W : WorldLife) (m : Nat) : List WLabel := (List.range m).filterMap W.label

/-! ## Proofs -/

/-- What a step in the world is for node `k`. -/
def WorldLife.seenBy (W : WorldLife) (k n : Nat) : Option Label :=
  match W.label n with
  | some (.at j x) => if j = k then some x else none
  | some (.deliver i j) =>
    if j = k then ((W.state n).air[i]?).map fun y => .arrive y.2 else none
  | _ => none

theorem WorldLife.host_step (W : WorldLife) (n k : Nat) (h : Host) (hk : (W.state n).hosts[k]? = some h) :
    (∃ x s', W.seenBy k n = some x ∧ h.listener.step h.state x = some s' ∧
      (W.state (n + 1)).hosts[k]? = some ⟨h.address, h.listener, s'⟩) ∨
    (W.seenBy k n = none ∧ (W.state (n + 1)).hosts[k]? = some h) := by
  have hs := W.step n
  unfold WorldLife.seenBy
  have hlt := (List.getElem?_eq_some_iff.mp hk).1
  cases hx : W.label n with
  | none => rw [hx] at hs; simp only at hs; right; exact ⟨rfl, by rw [hs]; exact hk⟩
  | some y =>
    rw [hx] at hs
    cases y with
    | boot address listener =>
      right
      simp only [World.step] at hs
      split at hs
      · simp only [Option.some.injEq] at hs
        rw [← hs]
        exact ⟨rfl, by simp only; rw [List.getElem?_append_left hlt]; exact hk⟩
      · cases hs
    | send sender address packet result =>
      right
      refine ⟨rfl, ?_⟩
      simp only [World.step] at hs
      split at hs
      · split at hs
        · simp only [Option.some.injEq] at hs; rw [← hs]; exact hk
        · cases hs
      · simp only [Option.some.injEq] at hs; rw [← hs]; exact hk
      · cases hs
    | inject dest d =>
      right
      simp only [World.step, Option.some.injEq] at hs
      rw [← hs]
      exact ⟨rfl, hk⟩
    | lose i =>
      right
      simp only [World.step, Option.some.injEq] at hs
      rw [← hs]
      exact ⟨rfl, hk⟩
    | duplicate i =>
      right
      refine ⟨rfl, ?_⟩
      simp only [World.step] at hs
      split at hs
      · simp only [Option.some.injEq] at hs; rw [← hs]; exact hk
      · cases hs
    | deliver i j =>
      simp only [World.step] at hs
      split at hs
      · rename_i dest d g hi hj
        split at hs
        · split at hs
          · rename_i s' hst
            simp only [Option.some.injEq] at hs
            rw [← hs]
            by_cases hjk : j = k
            · subst hjk
              rw [hk] at hj
              cases hj
              left
              exact ⟨.arrive d, s', by simp [hi], hst, by simp [hlt]⟩
            · right
              exact ⟨by simp [hjk], by simp only; rw [List.getElem?_set_ne hjk]; exact hk⟩
          · cases hs
        · cases hs
      · cases hs
    | «at» j x =>
      simp only [World.step] at hs
      split at hs
      · cases hs
      · rename_i g hj
        split at hs
        · cases hs
        · split at hs
          · rename_i s' hst
            simp only [Option.some.injEq] at hs
            rw [← hs]
            by_cases hjk : j = k
            · subst hjk
              rw [hk] at hj
              cases hj
              left
              exact ⟨x, s', by simp, hst, by simp [hlt]⟩
            · right
              exact ⟨by simp [hjk], by simp only; rw [List.getElem?_set_ne hjk]; exact hk⟩
          · cases hs

theorem WorldLife.host_le (W : WorldLife) (n k j : Nat) (h : Host) (hk : (W.state n).hosts[k]? = some h) :
    ∃ s, (W.state (n + j)).hosts[k]? = some ⟨h.address, h.listener, s⟩ := by
  induction j with
  | zero => exact ⟨h.state, hk⟩
  | succ j ih =>
    obtain ⟨s, hs⟩ := ih
    rcases W.host_step (n + j) k _ hs with ⟨x, s', -, -, h⟩ | ⟨-, h⟩
    · exact ⟨s', h⟩
    · exact ⟨s, h⟩

/-- Every node came up at some moment. -/
theorem WorldLife.booted (W : WorldLife) (n k : Nat) (h : Host) (hk : (W.state n).hosts[k]? = some h) :
    ∃ n1, n1 ≤ n ∧ (W.state n1).hosts[k]? = some ⟨h.address, h.listener, h.listener.init []⟩ := by
  induction n generalizing h with
  | zero => rw [W.start] at hk; simp [World.init] at hk
  | succ n ih =>
    cases hv : (W.state n).hosts[k]? with
    | some v =>
      obtain ⟨n1, h1, h2⟩ := ih v hv
      obtain ⟨s, hs⟩ := W.host_le n k 1 v hv
      rw [hk] at hs
      cases hs
      exact ⟨n1, by omega, h2⟩
    | none =>
      have hs := W.step n
      have hge := List.getElem?_eq_none_iff.mp hv
      have hno : (W.state (n + 1)).hosts.length = (W.state n).hosts.length → False := by
        intro he
        have := (List.getElem?_eq_some_iff.mp hk).1
        omega
      cases hx : W.label n with
      | none => rw [hx] at hs; simp only at hs; rw [hs, hv] at hk; cases hk
      | some y =>
        rw [hx] at hs
        cases y with
        | boot address listener =>
          simp only [World.step] at hs
          split at hs
          · simp only [Option.some.injEq] at hs
            have hk' := hk
            rw [← hs] at hk'
            simp only at hk'
            rw [List.getElem?_append_right hge] at hk'
            have h0 : k - (W.state n).hosts.length = 0 := by
              have := (List.getElem?_eq_some_iff.mp hk').1
              simp only [List.length_singleton] at this
              omega
            rw [h0] at hk'
            simp only [List.getElem?_cons_zero, Option.some.injEq] at hk'
            subst hk'
            exact ⟨n + 1, Nat.le_refl _, hk⟩
          · cases hs
        | _ =>
          exfalso
          apply hno
          simp only [World.step] at hs
          repeat' split at hs
          all_goals first
            | (cases hs; done)
            | (simp only [Option.some.injEq] at hs; rw [← hs]; done)
            | (simp only [Option.some.injEq] at hs; rw [← hs]; simp only [List.length_set])

theorem Label.isArrival_of_internal {x : Label} (h : internal x = true) : x.isArrival = false := by
  cases x <;> simp_all [internal, Label.isArrival]

/-- The life of the world, seen from node `k`. -/
theorem WorldLife.view (W : WorldLife) (n1 k : Nat) (a : SocketAddr) (l : Listener)
    (h1 : (W.state n1).hosts[k]? = some ⟨a, l, l.init []⟩) (hf : W.FairTo k) (hs : W.SmoothAt k) :
    ∃ E : Execution l, E.Fair ∧ E.Smooth ∧ E.queued = [] ∧
      (∀ j, (W.state (n1 + j)).hosts[k]? = some ⟨a, l, E.state j⟩) ∧
      (∀ j, E.label j = W.seenBy k (n1 + j)) := by
  have hmem : ∀ j, ∃ s, (W.state (n1 + j)).hosts[k]? = some ⟨a, l, s⟩ := fun j => W.host_le n1 k j _ h1
  let st : Nat → NetState := fun j => Classical.choose (hmem j)
  have hst : ∀ j, (W.state (n1 + j)).hosts[k]? = some ⟨a, l, st j⟩ := fun j => Classical.choose_spec (hmem j)
  have hstep : ∀ j, match W.seenBy k (n1 + j) with
      | some x => l.step (st j) x = some (st (j + 1))
      | none => st (j + 1) = st j := by
    intro j
    have hj1 := hst (j + 1)
    rw [← Nat.add_assoc] at hj1
    rcases W.host_step (n1 + j) k _ (hst j) with ⟨x, s', g1, g2, g3⟩ | ⟨g1, g2⟩
    · rw [g1]
      rw [g3] at hj1
      simp only [Option.some.injEq, Host.mk.injEq, true_and] at hj1
      rw [← hj1]
      exact g2
    · rw [g1]
      rw [g2] at hj1
      simp only [Option.some.injEq, Host.mk.injEq, true_and] at hj1
      exact hj1.symm
  have h0 : st 0 = l.init [] := by
    have := hst 0
    rw [Nat.add_zero, h1] at this
    simp only [Option.some.injEq, Host.mk.injEq, true_and] at this
    exact this.symm
  refine ⟨⟨[], st, fun j => W.seenBy k (n1 + j), h0, hstep⟩, ?_, ?_, rfl, hst, fun _ => rfl⟩
  · intro j hj
    obtain ⟨m, x, a1, a2, a3⟩ := hf (n1 + j) (by
      intro i hi
      obtain ⟨x, b1, b2⟩ := hj (i - n1) (by omega)
      obtain ⟨s', b2⟩ := Option.isSome_iff_exists.mp b2
      have hh := hst (i - n1)
      rw [show n1 + (i - n1) = i by omega] at hh
      refine ⟨x, b1, ?_⟩
      simp only at b2
      simp only [World.step, hh, Label.isArrival_of_internal b1, b2]
      rfl)
    refine ⟨m - n1, x, by omega, a2, ?_⟩
    simp only [WorldLife.seenBy, show n1 + (m - n1) = m by omega, a3]
    simp
  · intro j x hx
    simp only [WorldLife.seenBy] at hx
    split at hx
    · rename_i i y hy
      split at hx
      · rename_i hik
        simp only [Option.some.injEq] at hx
        subst hx hik
        rcases hs _ _ hy with h | h
        · exact .inl h
        · exact .inr (.inl h)
      · cases hx
    · rename_i i i' hy
      split at hx
      · cases ha : (W.state (n1 + j)).air[i]? with
        | none => rw [ha] at hx; simp at hx
        | some z =>
          rw [ha] at hx
          simp only [Option.map_some, Option.some.injEq] at hx
          exact .inr (.inr ⟨z.2, hx.symm⟩)
      · cases hx
    · cases hx

/-- No two nodes have the same address. -/
theorem World.step_distinct (w w' : World) (x : WLabel) (h : w.step x = some w')
    (hp : w.hosts.Pairwise (fun a b => a.address ≠ b.address)) :
    w'.hosts.Pairwise (fun a b => a.address ≠ b.address) := by
  cases x with
  | boot address listener =>
    simp only [World.step] at h
    split at h
    · rename_i hfree
      simp only [Option.some.injEq] at h
      subst h
      simp only [List.all_eq_true, bne_iff_ne, ne_eq] at hfree
      rw [List.pairwise_append]
      exact ⟨hp, by simp, by simpa using hfree⟩
    · cases h
  | deliver i j =>
    simp only [World.step] at h
    split at h
    · rename_i hj
      split at h
      · split at h
        · simp only [Option.some.injEq] at h
          subst h
          exact pairwise_set_address hp hj rfl
        · cases h
      · cases h
    · cases h
  | «at» j x =>
    simp only [World.step] at h
    split at h
    · cases h
    · rename_i hj
      split at h
      · cases h
      · split at h
        · simp only [Option.some.injEq] at h
          subst h
          exact pairwise_set_address hp hj rfl
        · cases h
  | _ =>
    simp only [World.step] at h
    repeat' split at h
    all_goals first
      | (cases h; done)
      | (simp only [Option.some.injEq] at h; rw [← h]; exact hp)

theorem WorldLife.distinct (W : WorldLife) (n : Nat) :
    (W.state n).hosts.Pairwise (fun a b => a.address ≠ b.address) := by
  induction n with
  | zero => rw [W.start]; simp [World.init]
  | succ n ih =>
    have hs := W.step n
    cases hx : W.label n with
    | none => rw [hx] at hs; simp only at hs; rw [hs]; exact ih
    | some x => rw [hx] at hs; exact World.step_distinct _ _ _ hs ih

/-- What arrives under an address arrives at the node that has it. -/
theorem WorldLife.arrives (W : WorldLife) (n k : Nat) (h : Host) (hk : (W.state n).hosts[k]? = some h)
    (d : Datagram) (ha : W.Arrives n h.address d) : W.seenBy k n = some (.arrive d) := by
  obtain ⟨i, j, h1, h2⟩ := ha
  have hs := W.step n
  rw [h1] at hs
  simp only [World.step, h2] at hs
  split at hs
  · rename_i dest d' g e hj
    cases e
    split at hs
    · rename_i he
      have := unique_address (W.distinct n) hj hk he.symm
      subst this
      simp [WorldLife.seenBy, h1, h2]
    · cases hs
  · cases hs

theorem Execution.count_arrivals {l : Listener} (E : Execution l) (d : Datagram)
    (h : ∀ n, ∃ m, n ≤ m ∧ E.label m = some (.arrive d)) (k : Nat) :
    ∃ n, k ≤ (arrivals (E.upTo n)).count d := by
  induction k with
  | zero => exact ⟨0, Nat.zero_le _⟩
  | succ k ih =>
    obtain ⟨n, hn⟩ := ih
    obtain ⟨m, h1, h2⟩ := h n
    refine ⟨m + 1, ?_⟩
    obtain ⟨w, hw⟩ := E.upTo_le h1
    rw [E.upTo_succ, h2, arrivals_append, ← hw, arrivals_append]
    simp only [Option.toList, arrivals, List.count_append, List.count_cons_self, List.count_nil]
    omega

/-- A datagram that arrives again and again is taken from the socket again and again. -/
theorem Execution.again {l : Listener} (hl : NoPanics l) (E : Execution l) (hf : E.Fair) (hs : E.Smooth)
    (d : Datagram) (h : ∀ n, ∃ m, n ≤ m ∧ E.label m = some (.arrive d)) (k lo : Nat) :
    ∃ m handled more, lo ≤ m ∧ E.queued ++ arrivals (E.upTo m) = handled ++ more ∧ k ≤ handled.count d ∧
      more = (E.state m).queue ∧ idle (E.state m).phase = true ∧
      takenIn (E.state m).trace = handled.map (received l.buffersize) ∧
      ∀ r, r < l.receivers.length →
        callsOf r (E.state m).trace = handled.map (received l.buffersize) := by
  obtain ⟨n, hn⟩ := E.count_arrivals d h k
  have key : ∀ k, ∃ n', k ≤ (takenIn (E.state n').trace).length := by
    intro k
    induction k with
    | zero => exact ⟨0, Nat.zero_le _⟩
    | succ k ih =>
      obtain ⟨n', hn'⟩ := ih
      obtain ⟨m, h1, h2⟩ := h n'
      have hst := E.step m
      rw [h2] at hst
      simp only [Listener.step, Option.some.injEq] at hst
      obtain ⟨m', h3, h4⟩ := E.takes hl hf hs (m + 1) (.inl (by rw [← hst]))
      have := takenIn_le (E.trace_le (show n' ≤ m + 1 by omega))
      exact ⟨m', by omega⟩
  obtain ⟨n', hn'⟩ := key (E.queued ++ arrivals (E.upTo n)).length
  obtain ⟨m, h1, h2, -⟩ := E.idles hl hf hs (max (max n n') lo)
  obtain ⟨handled, g1, g2, g3⟩ := C43 l E.queued _ _ (E.run m)
  refine ⟨m, handled, _, by omega, g1, ?_, rfl, h2, g2, fun r hr => g3 h2 r hr⟩
  obtain ⟨w, hw⟩ := E.upTo_le (show n ≤ m by omega)
  have hpre : E.queued ++ arrivals (E.upTo n) <+: handled := by
    refine List.prefix_of_prefix_length_le (l₃ := handled ++ (E.state m).queue) ?_ (List.prefix_append _ _) ?_
    · rw [← g1, ← hw, arrivals_append, ← List.append_assoc]
      exact List.prefix_append _ _
    · have e1 : (takenIn (E.state n').trace).length ≤ (takenIn (E.state m).trace).length :=
        takenIn_le (E.trace_le (by omega))
      rw [g2, List.length_map] at e1
      omega
  have := hpre.sublist.count_le d
  rw [List.count_append] at this
  omega

/-- What the theorems have in common: a moment at which node `k` has handled the message `n` times. -/
theorem WorldLife.handles (W : WorldLife) (n0 k : Nat) (host : Host) (hk : (W.state n0).hosts[k]? = some host)
    (hl : NoPanics host.listener) (hf : W.FairTo k) (hs : W.SmoothAt k)
    (sender : SocketAddr) (packet : Packet) (hrep : W.Repeats sender host.address packet)
    (hnet : W.FairLossy host.address ⟨packet.bytes, sender⟩) (n : Nat) :
    ∃ m s ls handled, n0 ≤ m ∧ (W.state m).hosts[k]? = some ⟨host.address, host.listener, s⟩ ∧
      host.listener.run (host.listener.init []) ls = some s ∧ arrivals ls = handled ++ s.queue ∧
      idle s.phase = true ∧ n ≤ handled.count ⟨packet.bytes, sender⟩ ∧
      takenIn s.trace = handled.map (received host.listener.buffersize) ∧
      ∀ r, r < host.listener.receivers.length →
        callsOf r s.trace = handled.map (received host.listener.buffersize) := by
  obtain ⟨n1, h1, h2⟩ := W.booted n0 k host hk
  obtain ⟨E, e1, e2, e3, e4, e5⟩ := W.view n1 k _ _ h2 hf hs
  have harr : ∀ n, ∃ m, n ≤ m ∧ E.label m = some (.arrive ⟨packet.bytes, sender⟩) := by
    intro j
    obtain ⟨m, g1, g2⟩ := hnet (by
      intro n
      obtain ⟨m, size, c1, c2⟩ := hrep n
      exact ⟨m, _, c1, c2, by simp [emitted]⟩) (n1 + j)
    refine ⟨m - n1, by omega, ?_⟩
    have hh := e4 (m - n1)
    rw [show n1 + (m - n1) = m by omega] at hh
    rw [e5, show n1 + (m - n1) = m by omega]
    exact W.arrives m k _ hh _ g2
  obtain ⟨m, handled, more, g0, g1, g2, g3, g4, g5, g6⟩ := E.again hl e1 e2 _ harr n (n0 - n1)
  refine ⟨n1 + m, E.state m, E.upTo m, handled, by omega, e4 m, ?_, ?_, g4, g2, g5, g6⟩
  · have := E.run m
    rw [e3] at this
    exact this
  · rw [e3, List.nil_append, g3] at g1
    exact g1

/-! ## The theorems -/

/-- **C91.**  Send a message again and again, over a network that may lose, duplicate, delay and reorder as it
likes as long as it does not lose every copy, to a node whose machine is fair, where nothing fails and no receiver
panics: then every receiver of that node is called with the message (cut to the buffer) and the sender's address, and
not once but as often as you like if you wait long enough.  Nothing is assumed about the other nodes, their load,
and what else is sent to this one. -/
theorem C91 (W : WorldLife) (n0 k : Nat) (host : Host) (hk : (W.state n0).hosts[k]? = some host)
    (hl : NoPanics host.listener) (hf : W.FairTo k) (hs : W.SmoothAt k)
    (sender : SocketAddr) (packet : Packet) (hrep : W.Repeats sender host.address packet)
    (hnet : W.FairLossy host.address ⟨packet.bytes, sender⟩) (n : Nat) :
    ∃ m s, n0 ≤ m ∧ (W.state m).hosts[k]? = some ⟨host.address, host.listener, s⟩ ∧
      ∀ r, r < host.listener.receivers.length →
        n ≤ (callsOf r s.trace).count (⟨packet.bytes.take host.listener.buffersize⟩, ⟨sender⟩) := by
  obtain ⟨m, s, ls, handled, h1, h2, h3, h4, h5, h6, h7, h8⟩ :=
    W.handles n0 k host hk hl hf hs sender packet hrep hnet n
  refine ⟨m, s, h1, h2, ?_⟩
  intro r hr
  rw [h8 r hr]
  exact Nat.le_trans h6 (List.count_le_count_map (f := received host.listener.buffersize))

/-- **C91, communities.**  If that node forwards to communities that do not panic, and the message has the header for
the mid of one of them, a type that is not reserved, and fits into the buffer, then that community is called with the
header, the whole message and the sender's address, as often as you like. -/
theorem C91_community (W : WorldLife) (n0 k : Nat) (host : Host) (hk : (W.state n0).hosts[k]? = some host)
    (cs : List Community) (size : Nat) (hnode : host.listener = node cs size)
    (hcs : ∀ c ∈ cs, ∀ h d a, c.onReceive h d a ≠ .panic) (hf : W.FairTo k) (hs : W.SmoothAt k)
    (sender : SocketAddr) (packet : Packet) (hrep : W.Repeats sender host.address packet)
    (hnet : W.FairLossy host.address ⟨packet.bytes, sender⟩)
    (mid : FixedBytes 20) (t : UInt8) (hh : HasHeader packet mid.1 t) (ht : reserved t = false)
    (hsize : packet.bytes.length ≤ size) (c : Community) (hc : lastWith mid.1 cs = some c) (n : Nat) :
    ∃ m s, n0 ≤ m ∧ (W.state m).hosts[k]? = some ⟨host.address, host.listener, s⟩ ∧
      n ≤ (host.listener.communityCalls s.trace).count ⟨c.id, Header.pyIpv8Header mid t, ⟨packet, 0⟩, ⟨sender⟩⟩ := by
  have hl : NoPanics host.listener := by rw [hnode]; exact C52_no_panics cs size hcs
  obtain ⟨m, s, ls, handled, h1, h2, h3, h4, h5, h6, h7, h8⟩ :=
    W.handles n0 k host hk hl hf hs sender packet hrep hnet n
  refine ⟨m, s, h1, h2, ?_⟩
  rw [hnode] at h3 ⊢
  obtain ⟨handled', g1, g2⟩ := C52_history cs size [] ls s h3 h5
  rw [List.nil_append, h4] at g1
  have := List.append_cancel_right g1
  subst this
  rw [g2]
  refine Nat.le_trans h6 ?_
  clear g1 g2 h4 h6 h7 h8
  have one : ((registered cs).forwardMessage (received size ⟨packet.bytes, sender⟩).1
      (received size ⟨packet.bytes, sender⟩).2).2 = [⟨c.id, Header.pyIpv8Header mid t, ⟨packet, 0⟩, ⟨sender⟩⟩] := by
    simp only [received, List.take_of_length_le hsize]
    rw [C40 cs packet ⟨sender⟩ mid t hh c hc ht]
  induction handled with
  | nil => simp
  | cons d ds ih =>
    simp only [callsFor, List.map_cons, List.flatMap_cons, List.count_append, List.count_cons] at ih ⊢
    by_cases hd : d = ⟨packet.bytes, sender⟩
    · subst hd
      rw [one]
      simp only [List.count_cons_self, List.count_nil, BEq.rfl, if_true]
      omega
    · simp only [beq_iff_eq, hd, if_false]
      omega

/-! ## A finite number of times is not enough -/

theorem World.run_append (w : World) (as bs : List WLabel) :
    w.run (as ++ bs) = (w.run as).bind fun w' => w'.run bs := by
  induction as generalizing w with
  | nil => rfl
  | cons a as ih =>
    simp only [List.cons_append, World.run]
    cases w.step a with
    | none => rfl
    | some w' => exact ih w'

/-- The life in which these things happen and then nothing any more. -/
def WorldLife.ofRun (ls : List WLabel) (w : World) (h : World.init.run ls = some w) : WorldLife where
  state n := (World.init.run (ls.take n)).getD World.init
  label n := ls[n]?
  start := by simp [World.run]
  step := by
    intro n
    have hall : ∀ n, ∃ v, World.init.run (ls.take n) = some v := by
      intro n
      have h' := h
      rw [← List.take_append_drop n ls, World.run_append] at h'
      cases hv : World.init.run (ls.take n) with
      | none => rw [hv] at h'; cases h'
      | some v => exact ⟨v, rfl⟩
    obtain ⟨v, hv⟩ := hall n
    obtain ⟨v', hv'⟩ := hall (n + 1)
    simp only [hv, hv', Option.getD_some]
    cases hx : ls[n]? with
    | none =>
      have := List.getElem?_eq_none_iff.mp hx
      rw [List.take_of_length_le this] at hv
      rw [List.take_of_length_le (by omega), hv] at hv'
      exact (Option.some.inj hv').symm
    | some x =>
      rw [List.take_add_one, hx, World.run_append, hv] at hv'
      simp only [Option.bind_some, Option.toList, World.run] at hv'
      cases hst : v.step x with
      | none => rw [hst] at hv'; cases hv'
      | some v2 => rw [hst] at hv'; simp only at hv' ⊢; rw [hst]; exact hv'

theorem World.run_sends (w : World) (sender a : SocketAddr) (packet : Packet) (n : Nat) :
    w.run (List.replicate n (.send sender ⟨a⟩ packet (.ok packet.bytes.length))) =
      some { w with air := w.air ++ List.replicate n (a, ⟨packet.bytes, sender⟩) } := by
  induction n generalizing w with
  | zero => simp [World.run]
  | succ n ih =>
    simp only [List.replicate_succ, World.run, World.step, Packet.raw, if_true]
    rw [ih]
    simp [NetworkSender.send, Packet.raw]

theorem World.run_delivers (a : SocketAddr) (l : Listener) (s s' : NetState) (d : Datagram) (n : Nat)
    (h : l.run s (List.replicate n (.arrive d)) = some s') :
    (World.mk [⟨a, l, s⟩] (List.replicate n (a, d))).run (List.replicate n (.deliver 0 0)) =
      some ⟨[⟨a, l, s'⟩], []⟩ := by
  induction n generalizing s with
  | zero => simp only [List.replicate_zero, Listener.run, Option.some.injEq] at h; subst h; rfl
  | succ n ih =>
    simp only [List.replicate_succ, Listener.run] at h
    cases hx : l.step s (.arrive d) with
    | none => rw [hx] at h; cases h
    | some m =>
      rw [hx] at h
      simp only [List.replicate_succ, World.run, World.step, List.getElem?_cons_zero, if_true, hx]
      exact ih m h

theorem World.run_at (a : SocketAddr) (l : Listener) (s s' : NetState) (air : List (SocketAddr × Datagram))
    (ls : List Label) (hi : ∀ x ∈ ls, internal x = true) (h : l.run s ls = some s') :
    (World.mk [⟨a, l, s⟩] air).run (ls.map (.at 0)) = some ⟨[⟨a, l, s'⟩], air⟩ := by
  induction ls generalizing s with
  | nil => simp only [Listener.run, Option.some.injEq] at h; subst h; rfl
  | cons x ls ih =>
    simp only [Listener.run] at h
    cases hx : l.step s x with
    | none => rw [hx] at h; cases h
    | some m =>
      rw [hx] at h
      simp only [List.map_cons, World.run, World.step, List.getElem?_cons_zero,
        Label.isArrival_of_internal (hi x List.mem_cons_self), hx]
      exact ih m (fun y hy => hi y (List.mem_cons_of_mem _ hy)) h

theorem sentTo_append (a : SocketAddr) (xs ys : List WLabel) :
    sentTo a (xs ++ ys) = sentTo a xs ++ sentTo a ys := by
  simp [sentTo]

theorem WorldLife.ofRun_upTo (ls : List WLabel) (w : World) (h : World.init.run ls = some w) (n : Nat) :
    (WorldLife.ofRun ls w h).upTo n = ls.take n := by
  induction n with
  | zero => rfl
  | succ n ih =>
    unfold WorldLife.upTo at ih ⊢
    rw [List.range_succ, List.filterMap_append, ih, List.take_add_one]
    congr 1

theorem WorldLife.ofRun_state (ls : List WLabel) (w : World) (h : World.init.run ls = some w) (n : Nat)
    (hn : ls.length ≤ n) : (WorldLife.ofRun ls w h).state n = w := by
  show (World.init.run (ls.take n)).getD World.init = w
  rw [List.take_of_length_le hn, h]
  rfl

/-- Some way for a burst of any size, zero included, to come to rest. -/
theorem burst_rest (l : Listener) (hl : NoPanics l) (d : Datagram) (n : Nat) :
    ∃ (s1 : NetState) (more : List Label) (s : NetState),
      l.run (l.init []) (List.replicate n (.arrive d)) = some s1 ∧ (∀ x ∈ more, internal x = true) ∧
      l.run s1 more = some s ∧ (∀ x, internal x = true → l.step s x = none) ∧
      ∀ r, r < l.receivers.length → (callsOf r s.trace).length ≤ 1 := by
  cases n with
  | zero =>
    refine ⟨l.init [], [], l.init [], rfl, by simp, rfl, ?_, by simp [Listener.init, callsOf]⟩
    intro x hx
    cases x <;> simp_all [internal, Listener.step, Listener.init]
  | succ n =>
    obtain ⟨⟨more, s, h1, h2, h3⟩, h4⟩ := C47_false_burst l hl d (List.replicate n d)
    have h5 := (h4 more s h1 h2 h3).1
    rw [run_append] at h2
    rw [← List.replicate_succ, List.map_replicate] at h2
    cases hs1 : l.run (l.init []) (List.replicate (n + 1) (.arrive d)) with
    | none => rw [hs1] at h2; cases h2
    | some s1 =>
      rw [hs1] at h2
      exact ⟨s1, more, s, rfl, h1, h2, h3, fun r hr => by rw [h5 r hr]; exact Nat.le_refl _⟩

/-- **C91, a finite number of times is not enough,** even if the network loses, duplicates and reorders nothing,
everything arrives, the machine is fair and nothing fails: for every number there is an execution in which the message
is successfully sent that often, all copies arrive, and every receiver is called at most once, ever. -/
theorem C91_finite (a sender : SocketAddr) (l : Listener) (hl : NoPanics l) (packet : Packet) (n : Nat) :
    ∃ (W : WorldLife) (last : Nat), W.FairTo 0 ∧ W.SmoothAt 0 ∧
      NoLoss (W.upTo last) ∧ NoDuplicates (W.upTo last) ∧
      sentTo a (W.upTo last) = List.replicate n ⟨packet.bytes, sender⟩ ∧
      (∀ m, last ≤ m → (W.state m).air = [] ∧ W.label m = none) ∧
      (∃ s, (W.state last).hosts[0]? = some ⟨a, l, s⟩) ∧
      ∀ m host, (W.state m).hosts[0]? = some host →
        ∀ r, r < l.receivers.length → (callsOf r host.state.trace).length ≤ 1 := by
  obtain ⟨s1, more, s, b1, b2, b3, b4, b5⟩ := burst_rest l hl ⟨packet.bytes, sender⟩ n
  let ls : List WLabel := .boot a l :: (List.replicate n (.send sender ⟨a⟩ packet (.ok packet.bytes.length)) ++
    (List.replicate n (.deliver 0 0) ++ more.map (.at 0)))
  have hrun : World.init.run ls = some ⟨[⟨a, l, s⟩], []⟩ := by
    simp only [ls, World.run, World.step, World.init, List.all_nil, if_true, List.nil_append]
    rw [World.run_append, World.run_sends]
    simp only [Option.bind_some, List.nil_append]
    rw [World.run_append, World.run_delivers a l _ s1 _ n b1]
    simp only [Option.bind_some]
    exact World.run_at a l s1 s [] more b2 b3
  have hlabels : ∀ x ∈ ls, x = .boot a l ∨ x = .send sender ⟨a⟩ packet (.ok packet.bytes.length) ∨ x = .deliver 0 0 ∨
      ∃ y, x = .at 0 y ∧ internal y = true := by
    intro x hx
    simp only [ls, List.mem_cons, List.mem_append, List.mem_replicate, List.mem_map] at hx
    rcases hx with h | ⟨-, h⟩ | ⟨-, h⟩ | ⟨y, hy, h⟩
    · exact .inl h
    · exact .inr (.inl h)
    · exact .inr (.inr (.inl h))
    · exact .inr (.inr (.inr ⟨y, h.symm, b2 y hy⟩))
  let W := WorldLife.ofRun ls _ hrun
  have hend : ∀ m, ls.length ≤ m → W.state m = ⟨[⟨a, l, s⟩], []⟩ := fun m hm => WorldLife.ofRun_state ls _ hrun m hm
  have hup : W.upTo ls.length = ls := by
    show (WorldLife.ofRun ls _ hrun).upTo ls.length = ls
    rw [WorldLife.ofRun_upTo, List.take_length]
  have hmem : ∀ m x, W.label m = some x → x ∈ ls := fun m x h => List.mem_of_getElem? h
  have hfair : W.FairTo 0 := by
    intro m hm
    obtain ⟨x, h1, h2⟩ := hm (max m ls.length) (by omega)
    rw [hend _ (by omega)] at h2
    simp only [World.step, List.getElem?_cons_zero, b4 x h1] at h2
    split at h2 <;> cases h2
  have hsmooth : W.SmoothAt 0 := by
    intro m x hx
    rcases hlabels _ (hmem m _ hx) with h | h | h | ⟨y, h, hy⟩
    · cases h
    · cases h
    · cases h
    · cases h; exact .inl hy
  refine ⟨W, ls.length, hfair, hsmooth, ?_, ?_, ?_, ?_, ?_, ?_⟩
  · intro i hi
    rw [hup] at hi
    rcases hlabels _ hi with h | h | h | ⟨y, h, -⟩ <;> cases h
  · intro i hi
    rw [hup] at hi
    rcases hlabels _ hi with h | h | h | ⟨y, h, -⟩ <;> cases h
  · rw [hup]
    have e1 : ∀ n, sentTo a (List.replicate n (.send sender ⟨a⟩ packet (.ok packet.bytes.length))) =
        List.replicate n ⟨packet.bytes, sender⟩ := by
      intro n
      induction n with
      | zero => rfl
      | succ n ih => simp only [List.replicate_succ, sentTo, List.flatMap_cons] at ih ⊢; simp [emitted, ih]
    have e2 : ∀ n, sentTo a (List.replicate n (.deliver 0 0)) = [] := by
      intro n
      induction n with
      | zero => rfl
      | succ n ih => simp only [List.replicate_succ, sentTo, List.flatMap_cons] at ih ⊢; simp [emitted]
    have e3 : ∀ more : List Label, sentTo a (more.map (.at 0)) = [] := by
      intro more
      induction more with
      | nil => rfl
      | cons x more ih => simp only [List.map_cons, sentTo, List.flatMap_cons] at ih ⊢; simp [emitted]
    show sentTo a ([.boot a l] ++ (_ ++ (_ ++ _))) = _
    rw [sentTo_append, sentTo_append, sentTo_append, e1, e2, e3]
    simp [sentTo, emitted]
  · intro m hm
    exact ⟨by rw [hend m hm], List.getElem?_eq_none_iff.mpr hm⟩
  · exact ⟨s, by rw [hend _ (Nat.le_refl _)]; rfl⟩
  · intro m host hk r hr
    obtain ⟨n1, h1, h2⟩ := W.booted m 0 host hk
    obtain ⟨E, -, -, -, e4, -⟩ := W.view n1 0 _ _ h2 hfair hsmooth
    have c1 := e4 (m - n1)
    rw [show n1 + (m - n1) = m by omega, hk] at c1
    have c2 := e4 (m + ls.length - n1)
    rw [hend _ (by omega)] at c2
    simp only [List.getElem?_cons_zero, Option.some.injEq, Host.mk.injEq] at c1 c2
    have hs1 : host.state = E.state (m - n1) := congrArg Host.state c1
    obtain ⟨w, hw⟩ := E.trace_le (show m - n1 ≤ m + ls.length - n1 by omega)
    have := b5 r hr
    rw [c2.2.2, ← hw, callsOf_append, List.length_append, ← hs1] at this
    omega

/-! ## A concrete case -/

/-- What a node with one receiver does for a datagram. -/
def roundLabels (d : Datagram) : List Label := [.arrive d, .pollEvent, .recv, .start 0, .finish 0, .join]

/-- Nothing to do. -/
def Resting (s : NetState) : Prop := s.queue = [] ∧ s.ready = false ∧ s.phase = .polling

theorem round_runs (l : Listener) (h1 : l.receivers.length = 1) (d : Datagram) (s : NetState) (hs : Resting s) :
    ∃ s', l.run s (roundLabels d) = some s' ∧ Resting s' := by
  obtain ⟨q, r, b, p, t⟩ := s
  obtain ⟨rfl, rfl, rfl⟩ := hs
  simp [roundLabels, Listener.run, Listener.step, h1, afterEvent, Resting, List.range_succ]

/-- The node after `k` rounds. -/
def restAfter (l : Listener) (d : Datagram) : Nat → NetState
  | 0 => l.init []
  | k + 1 => (l.run (restAfter l d k) (roundLabels d)).getD (l.init [])

theorem restAfter_resting (l : Listener) (h1 : l.receivers.length = 1) (d : Datagram) (k : Nat) :
    Resting (restAfter l d k) := by
  induction k with
  | zero => exact ⟨rfl, rfl, rfl⟩
  | succ k ih =>
    obtain ⟨s', e1, e2⟩ := round_runs l h1 d _ ih
    simp only [restAfter, e1, Option.getD_some]
    exact e2

/-- The node within round `k`, after `j` steps. -/
def within (l : Listener) (d : Datagram) (k j : Nat) : NetState :=
  (l.run (restAfter l d k) ((roundLabels d).take j)).getD (l.init [])

theorem within_step (l : Listener) (h1 : l.receivers.length = 1) (d : Datagram) (k j : Nat) (x : Label)
    (hx : (roundLabels d)[j]? = some x) : l.step (within l d k j) x = some (within l d k (j + 1)) := by
  obtain ⟨s', e1, -⟩ := round_runs l h1 d _ (restAfter_resting l h1 d k)
  have hall : ∀ j, ∃ v, l.run (restAfter l d k) ((roundLabels d).take j) = some v := by
    intro j
    have h' := e1
    rw [← List.take_append_drop j (roundLabels d), Ipv8.run_append] at h'
    cases hv : l.run (restAfter l d k) ((roundLabels d).take j) with
    | none => rw [hv] at h'; cases h'
    | some v => exact ⟨v, rfl⟩
  obtain ⟨v, hv⟩ := hall j
  obtain ⟨v', hv'⟩ := hall (j + 1)
  simp only [within, hv, hv', Option.getD_some]
  rw [List.take_add_one, hx, Ipv8.run_append, hv] at hv'
  simp only [Option.bind_some, Option.toList, Listener.run] at hv'
  cases hst : l.step v x with
  | none => rw [hst] at hv'; cases hv'
  | some v2 => rw [hst] at hv'; simp only at hv'; exact hv'

/-- The world at step `j` of round `k`. -/
def lossyState (a : SocketAddr) (l : Listener) (d : Datagram) (k : Nat) : Nat → World
  | 0 => ⟨[⟨a, l, within l d k 0⟩], []⟩
  | 1 => ⟨[⟨a, l, within l d k 0⟩], [(a, d)]⟩
  | 2 => ⟨[⟨a, l, within l d k 0⟩], []⟩
  | 3 => ⟨[⟨a, l, within l d k 0⟩], [(a, d)]⟩
  | j + 4 => ⟨[⟨a, l, within l d k (j + 1)⟩], []⟩

/-- The steps of a round: the message is sent and lost, sent again and arrives, and is handled. -/
def lossyLabel (a : SocketAddr) (d : Datagram) : Nat → WLabel
  | 0 => .send d.source ⟨a⟩ ⟨d.bytes⟩ (.ok d.bytes.length)
  | 1 => .lose 0
  | 2 => .send d.source ⟨a⟩ ⟨d.bytes⟩ (.ok d.bytes.length)
  | 3 => .deliver 0 0
  | 4 => .at 0 .pollEvent
  | 5 => .at 0 .recv
  | 6 => .at 0 (.start 0)
  | 7 => .at 0 (.finish 0)
  | _ => .at 0 .join

theorem lossy_step (a : SocketAddr) (l : Listener) (h1 : l.receivers.length = 1) (d : Datagram) (k j : Nat)
    (hj : j < 9) :
    (lossyState a l d k j).step (lossyLabel a d j) =
      some (if j = 8 then lossyState a l d (k + 1) 0 else lossyState a l d k (j + 1)) := by
  match j, hj with
  | 0, _ => simp [lossyState, lossyLabel, World.step, NetworkSender.send, Packet.raw]
  | 1, _ => rfl
  | 2, _ => simp [lossyState, lossyLabel, World.step, NetworkSender.send, Packet.raw]
  | 3, _ => simp [lossyState, lossyLabel, World.step, within_step l h1 d k 0 _ rfl]
  | 4, _ => simp [lossyState, lossyLabel, World.step, Label.isArrival, within_step l h1 d k 1 _ rfl]
  | 5, _ => simp [lossyState, lossyLabel, World.step, Label.isArrival, within_step l h1 d k 2 _ rfl]
  | 6, _ => simp [lossyState, lossyLabel, World.step, Label.isArrival, within_step l h1 d k 3 _ rfl]
  | 7, _ => simp [lossyState, lossyLabel, World.step, Label.isArrival, within_step l h1 d k 4 _ rfl]
  | 8, _ =>
    simp only [lossyState, lossyLabel, World.step, Label.isArrival, List.getElem?_cons_zero,
      within_step l h1 d k 5 _ rfl]
    rfl

/-- A node comes up; then one round after the other, for ever. -/
def lossyLife (a : SocketAddr) (l : Listener) (h1 : l.receivers.length = 1) (d : Datagram) : WorldLife where
  state n := match n with
    | 0 => World.init
    | n + 1 => lossyState a l d (n / 9) (n % 9)
  label n := match n with
    | 0 => some (.boot a l)
    | n + 1 => some (lossyLabel a d (n % 9))
  start := rfl
  step n := by
    cases n with
    | zero => rfl
    | succ n =>
      have h := lossy_step a l h1 d (n / 9) (n % 9) (Nat.mod_lt _ (by omega))
      simp only
      rw [h]
      by_cases h8 : n % 9 = 8
      · have e1 : (n + 1) / 9 = n / 9 + 1 := by omega
        have e2 : (n + 1) % 9 = 0 := by omega
        rw [if_pos h8, e1, e2]
      · have e1 : (n + 1) / 9 = n / 9 := by omega
        have e2 : (n + 1) % 9 = n % 9 + 1 := by omega
        rw [if_neg h8, e1, e2]

theorem lossyLife_label (a : SocketAddr) (l : Listener) (h1 : l.receivers.length = 1) (d : Datagram) (k j : Nat)
    (hj : j < 9) : (lossyLife a l h1 d).label (9 * k + j + 1) = some (lossyLabel a d j) := by
  show some (lossyLabel a d ((9 * k + j) % 9)) = _
  rw [show (9 * k + j) % 9 = j by omega]

/-- What the hypotheses of `C91` ask of the machine and the network, with losses that never stop. -/
theorem lossyLife_hypotheses (a : SocketAddr) (l : Listener) (h1 : l.receivers.length = 1) (d : Datagram) :
    (lossyLife a l h1 d).FairTo 0 ∧ (lossyLife a l h1 d).SmoothAt 0 ∧
    (lossyLife a l h1 d).Repeats d.source a ⟨d.bytes⟩ ∧ (lossyLife a l h1 d).FairLossy a d ∧
    ∀ n, ∃ m, n ≤ m ∧ (lossyLife a l h1 d).label m = some (.lose 0) := by
  refine ⟨?_, ?_, ?_, ?_, ?_⟩
  · intro n _
    exact ⟨9 * n + 4 + 1, .pollEvent, by omega, rfl, lossyLife_label a l h1 d n 4 (by omega)⟩
  · intro n x hx
    cases n with
    | zero => cases hx
    | succ n =>
      have hx : lossyLabel a d (n % 9) = .at 0 x := Option.some.inj hx
      have hlt : n % 9 < 9 := Nat.mod_lt _ (by omega)
      match hm : n % 9, hlt with
      | 0, _ => rw [hm] at hx; cases hx
      | 1, _ => rw [hm] at hx; cases hx
      | 2, _ => rw [hm] at hx; cases hx
      | 3, _ => rw [hm] at hx; cases hx
      | 4, _ => rw [hm] at hx; cases hx; exact .inl rfl
      | 5, _ => rw [hm] at hx; cases hx; exact .inl rfl
      | 6, _ => rw [hm] at hx; cases hx; exact .inl rfl
      | 7, _ => rw [hm] at hx; cases hx; exact .inl rfl
      | 8, _ => rw [hm] at hx; cases hx; exact .inl rfl
  · intro n
    exact ⟨9 * n + 0 + 1, _, by omega, lossyLife_label a l h1 d n 0 (by omega)⟩
  · intro _ n
    refine ⟨9 * n + 3 + 1, by omega, 0, 0, lossyLife_label a l h1 d n 3 (by omega), ?_⟩
    show (lossyState a l d ((9 * n + 3) / 9) ((9 * n + 3) % 9)).air[0]? = _
    rw [show (9 * n + 3) % 9 = 3 by omega]
    rfl
  · intro n
    exact ⟨9 * n + 1 + 1, by omega, lossyLife_label a l h1 d n 1 (by omega)⟩

/-- The hypotheses of `C91` and `C91_community` can be met: the node with two communities of `Props/System.lean` and
the packet for the second one. -/
example : ∃ W : WorldLife, W.FairTo 0 ∧ W.SmoothAt 0 ∧ W.Repeats (.v4 1 2 3 4 5) (.v4 9 9 9 9 9) examplePacket ∧
    W.FairLossy (.v4 9 9 9 9 9) ⟨examplePacket.bytes, .v4 1 2 3 4 5⟩ ∧
    (∃ s, (W.state 1).hosts[0]? = some ⟨.v4 9 9 9 9 9, node exampleNode 2048, s⟩) ∧
    (∀ c ∈ exampleNode, ∀ h d a, c.onReceive h d a ≠ .panic) ∧
    HasHeader examplePacket (List.replicate 20 8) 246 ∧ reserved 246 = false ∧
    examplePacket.bytes.length ≤ 2048 ∧ (lastWith (List.replicate 20 8) exampleNode).map (·.id) = some 2 := by
  obtain ⟨h1, h2, h3, h4, -⟩ :=
    lossyLife_hypotheses (.v4 9 9 9 9 9) (node exampleNode 2048) rfl ⟨examplePacket.bytes, .v4 1 2 3 4 5⟩
  refine ⟨_, h1, h2, h3, h4, ⟨_, rfl⟩, ?_, ⟨rfl, [0, 0, 0, 0, 0, 0, 0, 3], by decide⟩, by decide, by decide,
    by decide +kernel⟩
  intro c hc h d a
  simp only [exampleNode, List.mem_cons, List.not_mem_nil, or_false] at hc
  rcases hc with rfl | rfl <;> simp [exampleCommunity]

/-! ## Cases for the theorems above -/

/-- `C91_finite`: a receiver that never panics. -/
example := C91_finite (.v4 1 1 1 1 1) (.v4 2 2 2 2 2) ⟨[⟨fun _ _ => false, fun _ _ => []⟩], 16⟩ (by simp [NoPanics]) ⟨[1, 2]⟩ 5

end Ipv8
