import Verif.Props.Machine
import Verif.Props.LiveWorkers
import Verif.Props.LiveSigned
import Verif.Props.LiveNode
/-!
# C97: a message that is sent again and again gets through whole systems

C91 with everything that can be in the way: other instances in the same process, the pool they share, foreign hosts, and
NAT boxes.
-/

namespace Ipv8
open Spec

/-! ## Specification -/

/-- The endless life of a system of processes.  At each moment something happens somewhere, or (`none`) nothing does. -/
structure FleetLife (net : Nat → Net) where
  state : Nat → Fleet
  label : Nat → Option FLabel
  start : state 0 = Fleet.init
  step : ∀ m, match label m with
    | some x => (state m).step net x = some (state (m + 1))
    | none => state (m + 1) = state m

/-- Whoever sends it: this datagram is handed to the network, for destination `a`, again and again. -/
def FleetLife.Repeats {net : Nat → Net} (F : FleetLife net) (a : SocketAddr) (d : Datagram) : Prop :=
  ∀ m, ∃ m', m ≤ m' ∧ (a, d) ∈ emittedIn ((F.state (m' + 1)).log.drop (F.state m').log.length)

/-- The network may lose it any number of times, but not every time: if it is handed to the network again and again, it
arrives at the machine of process `k` again and again; on its way, NAT boxes have made `(dest, d')` of it. -/
def FleetLife.FairLossy {net : Nat → Net} (F : FleetLife net) (a : SocketAddr) (d : Datagram) (k : Nat)
    (dest : SocketAddr) (d' : Datagram) : Prop :=
  F.Repeats a d → ∀ m, ∃ m' i, m ≤ m' ∧ F.label m' = some (.deliver i k) ∧ (F.state m').air[i]? = some (dest, d')

/-! ## The pool of one process -/

theorem FleetLife.reached {net : Nat → Net} (F : FleetLife net) (m : Nat) :
    ∃ ls, Fleet.init.run net ls = some (F.state m) := by
  induction m with
  | zero => exact ⟨[], by rw [F.start]; rfl⟩
  | succ m ih =>
    obtain ⟨ls, h⟩ := ih
    have hs := F.step m
    cases hx : F.label m with
    | none => rw [hx] at hs; simp only at hs; exact ⟨ls, by rw [hs]; exact h⟩
    | some x =>
      rw [hx] at hs
      simp only at hs
      exact ⟨ls ++ [x], by rw [Fleet.run_append, h]; simp [Fleet.run, hs]⟩

theorem FleetLife.stays {net : Nat → Net} (F : FleetLife net) (m m' k : Nat) (h : m ≤ m') (a : Machine)
    (ha : (F.state m).machines[k]? = some a) :
    ∃ b, (F.state m').machines[k]? = some b ∧ b.pool.threads = a.pool.threads := by
  induction h with
  | refl => exact ⟨a, ha, rfl⟩
  | @step j hj ih =>
    obtain ⟨b, h1, h2⟩ := ih
    have hs := F.step j
    cases hx : F.label j with
    | none => rw [hx] at hs; simp only at hs; exact ⟨b, by rw [hs]; exact h1, h2⟩
    | some x =>
      rw [hx] at hs
      simp only at hs
      obtain ⟨ls, hr⟩ := F.reached j
      obtain ⟨c, g1, g2⟩ := fleet_stays net ls _ _ hr x hs k b h1
      exact ⟨c, g1, g2.trans h2⟩

theorem FleetLife.size {net : Nat → Net} (F : FleetLife net) (m k : Nat) (a : Machine)
    (ha : (F.state m).machines[k]? = some a) (m' : Nat) (b : Machine) (hb : (F.state m').machines[k]? = some b) :
    b.pool.threads = a.pool.threads := by
  rcases Nat.le_total m m' with h | h
  · obtain ⟨c, g1, g2⟩ := F.stays m m' k h a ha
    rw [hb] at g1
    cases g1
    exact g2
  · obtain ⟨c, g1, g2⟩ := F.stays m' m k h b hb
    rw [ha] at g1
    cases g1
    exact g2.symm

/-- The life of the pool of process `k` (`a` is that process at moment `m`): what the system does that concerns this
pool. -/
def FleetLife.workers {net : Nat → Net} (F : FleetLife net) (m k : Nat) (a : Machine)
    (ha : (F.state m).machines[k]? = some a) : WorkersLife a.pool.threads where
  state j := (F.state j).pool k a.pool.threads
  label j := (F.label j).bind ((F.state j).poolLabel net k)
  start := by rw [F.start]; rfl
  step j := by
    have hs := F.step j
    cases hx : F.label j with
    | none => rw [hx] at hs; simp only at hs; simp only [Option.bind_none]; rw [hs]
    | some x =>
      rw [hx] at hs
      simp only at hs
      obtain ⟨ls, hr⟩ := F.reached j
      simp only [Option.bind_some]
      exact fleet_pool net ls _ _ hr x hs k _ (fun b hb => F.size m k a ha (j + 1) b hb)

/-! ## The listening thread -/

/-- A listening thread that has not stopped keeps its socket. -/
theorem machine_keeps {N : Net} {m m' : Machine} {x : MLabel} (h : m.step N x = some m') (t : PThread) (ht : t ∈ m.threads)
    (hp : ∀ c, m.pool.phase t.member ≠ some (.stopped c)) : t ∈ m'.threads := by
  cases x with
  | object x =>
    simp only [Machine.step] at h
    repeat' split at h
    all_goals cases h
    exact ht
  | startReceiver k config =>
    simp only [Machine.step] at h
    repeat' split at h
    all_goals cases h
    exact List.mem_append_left _ ht
  | startInstance k =>
    simp only [Machine.step] at h
    repeat' split at h
    all_goals cases h
    exact List.mem_append_left _ ht
  | work x =>
    simp only [Machine.step] at h
    repeat' split at h
    all_goals cases h
    exact ht
  | reap i =>
    simp only [Machine.step] at h
    split at h
    · rename_i pt hi
      split at h
      · rename_i c hc
        cases h
        obtain ⟨j, hj⟩ := List.getElem?_of_mem ht
        have hne : j ≠ i := by
          rintro rfl
          rw [hi] at hj
          cases hj
          exact hp c hc
        by_cases hlt : j < i
        · exact List.mem_of_getElem? (i := j) (by simp only [List.getElem?_eraseIdx, hlt, if_true]; exact hj)
        · refine List.mem_of_getElem? (i := j - 1) ?_
          simp only [List.getElem?_eraseIdx]
          rw [if_neg (by omega), show j - 1 + 1 = j by omega]
          exact hj
      · cases h
    · cases h

theorem fleet_keeps {net : Nat → Net} {f f' : Fleet} {x : FLabel} (h : f.step net x = some f') {k : Nat} {m : Machine}
    (hk : f.machines[k]? = some m) (t : PThread) (ht : t ∈ m.threads)
    (hp : ∀ c, m.pool.phase t.member ≠ some (.stopped c)) :
    ∃ m', f'.machines[k]? = some m' ∧ t ∈ m'.threads := by
  have hlt := (List.getElem?_eq_some_iff.mp hk).1
  cases x with
  | boot threads =>
    simp only [Fleet.step, Option.some.injEq] at h
    subst h
    exact ⟨m, by simp only; rw [List.getElem?_append_left hlt]; exact hk, ht⟩
  | proc j x =>
    simp only [Fleet.step] at h
    cases hj : f.machines[j]? with
    | none => simp [hj] at h
    | some mj =>
      simp only [hj] at h
      cases hm : mj.step (net j) x with
      | none => simp [hm] at h
      | some m' =>
        simp only [hm, Option.some.injEq] at h
        subst h
        simp only
        by_cases hjk : j = k
        · subst hjk
          rw [hk] at hj
          cases hj
          exact ⟨m', List.getElem?_set_self hlt, machine_keeps hm t ht hp⟩
        · exact ⟨m, by rw [List.getElem?_set_ne hjk]; exact hk, ht⟩
  | deliver i j =>
    simp only [Fleet.step] at h
    cases hi : f.air[i]? with
    | none => simp [hi] at h
    | some y =>
      cases hj : f.machines[j]? with
      | none => simp [hi, hj] at h
      | some mj =>
        simp only [hi, hj, Option.some.injEq] at h
        subst h
        simp only
        by_cases hjk : j = k
        · subst hjk
          rw [hk] at hj
          cases hj
          exact ⟨_, List.getElem?_set_self hlt, ht⟩
        · exact ⟨m, by rw [List.getElem?_set_ne hjk]; exact hk, ht⟩
  | foreign dest d =>
    simp only [Fleet.step, Option.some.injEq] at h
    subst h
    exact ⟨m, hk, ht⟩
  | lose i =>
    simp only [Fleet.step, Option.some.injEq] at h
    subst h
    exact ⟨m, hk, ht⟩
  | duplicate i =>
    simp only [Fleet.step] at h
    split at h
    · cases h; exact ⟨m, hk, ht⟩
    · cases h
  | rewrite i dest source =>
    simp only [Fleet.step] at h
    split at h
    · cases h; exact ⟨m, hk, ht⟩
    · cases h

/-- What a history says about the thread that has it: what arrived is what it took, followed by what is in its socket. -/
structure Follows {l : Listener} (h : List NEv) (s : NetState) : Prop where
  trace : threadIn h = s.trace
  arrived : ∃ taken, arrivedIn h = taken ++ s.queue ∧ takenIn s.trace = taken.map (received l.buffersize)

/-- One listening thread, followed through the life of the system. -/
theorem FleetLife.follow {net : Nat → Net} (F : FleetLife net) (n0 k : Nat) (a : Machine)
    (hk : (F.state n0).machines[k]? = some a) (hsize : 1 ≤ a.pool.threads)
    (hf : (F.workers n0 k a hk).Fair) (hl : (F.workers n0 k a hk).Settled)
    (t : PThread) (ht : t ∈ a.threads) (u : RMember) (hu : a.pool.members[t.member]? = some u)
    (hp : NoPanics u.listener) (hft : (F.workers n0 k a hk).FairTo t.member)
    (hst : (F.workers n0 k a hk).SmoothAt t.member) :
    ∃ E : Execution u.listener, E.Fair ∧ E.Smooth ∧
      (∀ j, n0 ≤ j → ∃ b, (F.state j).machines[k]? = some b ∧ t ∈ b.threads) ∧
      (∀ j i dest d, n0 ≤ j → F.label j = some (.deliver i k) → (F.state j).air[i]? = some (dest, d) →
        (net k).reaches t.address dest = true → E.label j = some (.arrive d)) ∧
      ∀ j, n0 ≤ j → Follows (l := u.listener) (history t.socket (processLog k (F.state j).log)) (E.state j) := by
  have hstate : ∀ j b, (F.state j).machines[k]? = some b → (F.workers n0 k a hk).state j = b.pool := by
    intro j b hb
    show (F.state j).pool k a.pool.threads = b.pool
    simp only [Fleet.pool, hb]
  obtain ⟨E, e1, e2, e3, e4⟩ := (F.workers n0 k a hk).view n0 t.member u (by rw [hstate n0 a hk]; exact hu)
  obtain ⟨f1, f2⟩ := (F.workers n0 k a hk).view_fair hsize hf hl n0 t.member u hft hst hp E e2 e4
  -- it stays
  have hstays : ∀ j, n0 ≤ j → ∃ b, (F.state j).machines[k]? = some b ∧ t ∈ b.threads := by
    intro j hj
    induction hj with
    | refl => exact ⟨a, hk, ht⟩
    | @step j hj ih =>
      obtain ⟨b, hb, htb⟩ := ih
      have hs := F.step j
      cases hx : F.label j with
      | none => rw [hx] at hs; simp only at hs; exact ⟨b, by rw [hs]; exact hb, htb⟩
      | some x =>
        rw [hx] at hs
        simp only at hs
        refine fleet_keeps hs hb t htb ?_
        intro c hc
        obtain ⟨s, g1, -, -, -, g5⟩ := e4 j hj
        rw [hstate j b hb] at g1
        simp only [Workers.phase, g1, Option.some.injEq] at hc
        rw [hc] at g5
        have hh := (E.healthy hp f2 j)
        cases hE : (E.state j).phase <;> rw [hE] at g5 <;> simp only [samePlace] at g5
        have := hh.alive
        rw [hE] at this
        cases this
  refine ⟨E, f1, f2, hstays, ?_, ?_⟩
  · intro m' i dest d hm' c2 c3 hr
    obtain ⟨b, hb, htb⟩ := hstays m' hm'
    obtain ⟨ls, hls⟩ := F.reached m'
    obtain ⟨c, hc, hruns⟩ := fleet_reached net ls _ hls
    obtain ⟨nd, g1, g2⟩ := hc.machines k b hb
    obtain ⟨⟨lk, g3⟩, -⟩ := hruns k nd g1
    obtain ⟨ti, hti⟩ := List.getElem?_of_mem htb
    have hfind := g2.find g3 dest ti t hti hr
    rw [e2]
    have : (F.workers n0 k a hk).label m' = some (.io t.member (.arrive d)) := by
      show (F.label m').bind _ = _
      simp only [c2, Option.bind_some, Fleet.poolLabel, if_true, c3, hb, hfind, Option.map_some]
    rw [this]
    simp [TLabel.at, jobsAt, visible]
  · intro j hj
    obtain ⟨b, hb, htb⟩ := hstays j hj
    obtain ⟨ls, hls⟩ := F.reached j
    obtain ⟨c, hc, hruns⟩ := fleet_reached net ls _ hls
    obtain ⟨nd, g1, g2⟩ := hc.machines k b hb
    obtain ⟨⟨lk, g3⟩, g4⟩ := hruns k nd g1
    obtain ⟨ti, hti⟩ := List.getElem?_of_mem htb
    obtain ⟨th, i1, i2, -, C, rs, i3, i4, -⟩ := g2.thread ti t hti
    obtain ⟨s, j1, j2, -, j4, -⟩ := e4 j hj
    rw [hstate j b hb, i3] at j1
    simp only [Option.some.injEq, RMember.mk.injEq] at j1
    obtain ⟨hli, rfl⟩ := j1
    obtain ⟨k1, handled, k2, k3, -⟩ := thread_facts (node_run _ lk _ _ (Node.init_inv _) g3) th (List.mem_of_getElem? i1)
    rw [i2] at k1 k2
    rw [← g4, hc.log, ← i4.trace, j4] at k1
    rw [← g4, hc.log, ← i4.queue, j2] at k2
    rw [← i4.trace, j4, hli] at k3
    exact ⟨k1, handled, k2, k3⟩

/-- What the theorems have in common: a moment at which the thread has handled the message `n` times. -/
theorem FleetLife.handles {net : Nat → Net} (F : FleetLife net) (n0 k : Nat) (a : Machine)
    (hk : (F.state n0).machines[k]? = some a) (hsize : 1 ≤ a.pool.threads)
    (hf : (F.workers n0 k a hk).Fair) (hl : (F.workers n0 k a hk).Settled)
    (t : PThread) (ht : t ∈ a.threads) (u : RMember) (hu : a.pool.members[t.member]? = some u)
    (hp : NoPanics u.listener) (hft : (F.workers n0 k a hk).FairTo t.member)
    (hst : (F.workers n0 k a hk).SmoothAt t.member)
    (dest : SocketAddr) (d : Datagram) (hr : (net k).reaches t.address dest = true)
    (harr : ∀ m, ∃ m' i, m ≤ m' ∧ F.label m' = some (.deliver i k) ∧ (F.state m').air[i]? = some (dest, d)) (n : Nat) :
    ∃ m handled, n0 ≤ m ∧ n ≤ handled.count d ∧
      (∃ queued ls s, u.listener.run (u.listener.init queued) ls = some s ∧ idle s.phase = true ∧
        queued ++ arrivals ls = handled ++ s.queue ∧
        s.trace = threadIn (history t.socket (processLog k (F.state m).log))) ∧
      ∀ r, r < u.listener.receivers.length →
        callsOf r (threadIn (history t.socket (processLog k (F.state m).log))) =
          handled.map (received u.listener.buffersize) := by
  obtain ⟨E, f1, f2, -, e4, e5⟩ := F.follow n0 k a hk hsize hf hl t ht u hu hp hft hst
  have hE : ∀ n, ∃ m, n ≤ m ∧ E.label m = some (.arrive d) := by
    intro j
    obtain ⟨m', i, c1, c2, c3⟩ := harr (max n0 j)
    exact ⟨m', by omega, e4 m' i dest d (by omega) c2 c3 hr⟩
  obtain ⟨m, handled, more, g0, g1, g2, g3, g4, g5, g6⟩ := E.again hp f1 f2 d hE n n0
  have hlog := (e5 m g0).trace
  refine ⟨m, handled, g0, g2, ⟨E.queued, E.upTo m, E.state m, E.run m, g4, by rw [g1, g3], hlog.symm⟩, ?_⟩
  intro r hr'
  rw [hlog]
  exact g6 r hr'

theorem fleet_step_log {net : Nat → Net} {f f' : Fleet} {x : FLabel} (h : f.step net x = some f') : f.log <+: f'.log := by
  cases x <;> simp only [Fleet.step] at h <;> (repeat' split at h) <;>
    simp only [Option.some.injEq, reduceCtorEq] at h <;> subst h <;> simp

theorem FleetLife.log_le {net : Nat → Net} (F : FleetLife net) {n m : Nat} (h : n ≤ m) :
    (F.state n).log <+: (F.state m).log := by
  induction h with
  | refl => exact List.prefix_refl _
  | @step m _ ih =>
    refine ih.trans ?_
    have hst := F.step m
    cases hx : F.label m with
    | none => rw [hx] at hst; simp only at hst; rw [hst]; exact List.prefix_refl _
    | some x => rw [hx] at hst; exact fleet_step_log hst

theorem FleetLife.arrived_le {net : Nat → Net} (F : FleetLife net) (k s : Nat) {n m : Nat} (h : n ≤ m) :
    arrivedIn (history s (processLog k (F.state n).log)) <+: arrivedIn (history s (processLog k (F.state m).log)) := by
  obtain ⟨w, hw⟩ := F.log_le h
  simp only [← hw, processLog_append, history_append, arrivedIn_append]
  exact List.prefix_append _ _

/-- Once the thread has taken `i + 1` datagrams, all receivers get number `i`. -/
theorem FleetLife.gets {net : Nat → Net} (F : FleetLife net) (n0 k s : Nat) (l : Listener) (hl : NoPanics l)
    (E : Execution l) (hf : E.Fair) (hs : E.Smooth)
    (hE : ∀ j, n0 ≤ j → Follows (l := l) (history s (processLog k (F.state j).log)) (E.state j))
    (n i : Nat) (d : Datagram) (hd : (arrivedIn (history s (processLog k (F.state n).log)))[i]? = some d)
    (j : Nat) (hj : i < (takenIn (E.state j).trace).length) :
    ∃ m, n ≤ m ∧ j ≤ m ∧ ∀ r, r < l.receivers.length →
      (callsOf r (threadIn (history s (processLog k (F.state m).log))))[i]? = some (received l.buffersize d) := by
  obtain ⟨m, h1, h2, h3⟩ := E.idles hl hf hs (max n0 (max n j))
  refine ⟨m, by omega, by omega, ?_⟩
  intro r hr
  obtain ⟨g0, taken, g1, g2⟩ := hE m (by omega)
  obtain ⟨handled, -, c2, c3⟩ := C43 _ _ _ _ (E.run m)
  have hlen : i < taken.length := by
    have : (takenIn (E.state j).trace).length ≤ (takenIn (E.state m).trace).length :=
      takenIn_le (E.trace_le (by omega))
    rw [g2, List.length_map] at this
    omega
  have harr : (arrivedIn (history s (processLog k (F.state m).log)))[i]? = some d := by
    obtain ⟨w, hw⟩ := F.arrived_le k s (show n ≤ m by omega)
    rw [← hw, List.getElem?_append_left (List.getElem?_eq_some_iff.mp hd).1]
    exact hd
  rw [g1, List.getElem?_append_left hlen] at harr
  rw [g0, c3 h2 r hr, ← c2, g2, List.getElem?_map, harr]
  rfl

/-! ## The theorems -/

/-- **C97.**  Hand a message to the network again and again; let the network lose, duplicate, delay and reorder as it
likes as long as it does not lose every copy, and let NAT boxes readdress it; let the process it is for have a fair pool
of one or more threads which not for ever new instances are started on, and let nothing fail and nobody panic at the
one listening thread in question.  Then every receiver of that thread is called with the message, cut to the buffer,
as often as you like if you wait long enough.  Nothing is assumed about the other processes, nor about the other
instances of this one: they may be as busy as they like, fail and panic. -/
theorem C97 (net : Nat → Net) (F : FleetLife net) (n0 k : Nat) (a : Machine)
    (hk : (F.state n0).machines[k]? = some a) (hsize : 1 ≤ a.pool.threads)
    (hf : (F.workers n0 k a hk).Fair) (hl : (F.workers n0 k a hk).Settled)
    (t : PThread) (ht : t ∈ a.threads) (u : RMember) (hu : a.pool.members[t.member]? = some u)
    (hp : NoPanics u.listener) (hft : (F.workers n0 k a hk).FairTo t.member)
    (hst : (F.workers n0 k a hk).SmoothAt t.member)
    (dest0 dest : SocketAddr) (d0 d : Datagram) (hrep : F.Repeats dest0 d0) (hnet : F.FairLossy dest0 d0 k dest d)
    (hr : (net k).reaches t.address dest = true) (n : Nat) :
    ∃ m, n0 ≤ m ∧ ∀ r, r < u.listener.receivers.length →
      n ≤ (callsOf r (threadIn (history t.socket (processLog k (F.state m).log)))).count
        (⟨d.bytes.take u.listener.buffersize⟩, ⟨d.source⟩) := by
  obtain ⟨m, handled, h1, h2, -, h4⟩ := F.handles n0 k a hk hsize hf hl t ht u hu hp hft hst dest d hr (hnet hrep) n
  refine ⟨m, h1, fun r hr => ?_⟩
  rw [h4 r hr]
  exact Nat.le_trans h2 (List.count_le_count_map (f := received u.listener.buffersize))

/-- **C97, communities.**  If that thread forwards to communities that do not panic, and the message has the header for
the mid of one of them, a type that is not reserved, and fits into the buffer, then that community is called with the
header, the whole message and the address the message arrived from, as often as you like. -/
theorem C97_community (net : Nat → Net) (F : FleetLife net) (n0 k : Nat) (a : Machine)
    (hk : (F.state n0).machines[k]? = some a) (hsize : 1 ≤ a.pool.threads)
    (hf : (F.workers n0 k a hk).Fair) (hl : (F.workers n0 k a hk).Settled)
    (t : PThread) (ht : t ∈ a.threads) (u : RMember) (hu : a.pool.members[t.member]? = some u)
    (cs : List Community) (size : Nat) (hnode : u.listener = node cs size)
    (hcs : ∀ c ∈ cs, ∀ h d a, c.onReceive h d a ≠ .panic)
    (hft : (F.workers n0 k a hk).FairTo t.member) (hst : (F.workers n0 k a hk).SmoothAt t.member)
    (dest0 dest : SocketAddr) (d0 d : Datagram) (hrep : F.Repeats dest0 d0) (hnet : F.FairLossy dest0 d0 k dest d)
    (hr : (net k).reaches t.address dest = true)
    (mid : FixedBytes 20) (ty : UInt8) (hh : HasHeader ⟨d.bytes⟩ mid.1 ty) (hty : reserved ty = false)
    (hfit : d.bytes.length ≤ size) (c : Community) (hc : lastWith mid.1 cs = some c) (n : Nat) :
    ∃ m, n0 ≤ m ∧
      n ≤ (u.listener.communityCalls (threadIn (history t.socket (processLog k (F.state m).log)))).count
        ⟨c.id, Header.pyIpv8Header mid ty, ⟨⟨d.bytes⟩, 0⟩, ⟨d.source⟩⟩ := by
  have hp : NoPanics u.listener := by rw [hnode]; exact C52_no_panics cs size hcs
  obtain ⟨m, handled, h1, h2, ⟨queued, ls, s, h3, h4, h5, h6⟩, -⟩ :=
    F.handles n0 k a hk hsize hf hl t ht u hu hp hft hst dest d hr (hnet hrep) n
  refine ⟨m, h1, ?_⟩
  rw [← h6]
  rw [hnode] at h3 ⊢
  obtain ⟨handled', g1, g2⟩ := C52_history cs size queued ls s h3 h4
  rw [h5] at g1
  have := List.append_cancel_right g1
  subst this
  rw [g2]
  refine Nat.le_trans h2 ?_
  clear g1 g2 h5 h2
  have one : ((registered cs).forwardMessage (received size d).1 (received size d).2).2 =
      [⟨c.id, Header.pyIpv8Header mid ty, ⟨⟨d.bytes⟩, 0⟩, ⟨d.source⟩⟩] := by
    simp only [received, List.take_of_length_le hfit]
    rw [C40 cs ⟨d.bytes⟩ ⟨d.source⟩ mid ty hh c hc hty]
  induction handled with
  | nil => simp
  | cons x ds ih =>
    simp only [callsFor, List.map_cons, List.flatMap_cons, List.count_append, List.count_cons] at ih ⊢
    by_cases hd : x = d
    · subst hd
      rw [one]
      simp only [List.count_cons_self, List.count_nil, BEq.rfl, if_true]
      omega
    · simp only [beq_iff_eq, hd, if_false]
      omega

/-- **C97.**  What calls to `send` do for `Repeats`: each one hands the packet to the network, with the address of the
sending socket. -/
theorem C97_sends (net : Nat → Net) (F : FleetLife net) (j : Nat) (address : Address) (packet : Packet)
    (source : SocketAddr)
    (h : ∀ m, ∃ m' i a x, m ≤ m' ∧ F.label m' = some (.proc j (.object (.send i address packet))) ∧
      (F.state m').machines[j]? = some a ∧ a.senders[i]? = some x ∧ x.address = source) :
    F.Repeats address.sock ⟨packet.bytes, source⟩ := by
  intro m
  obtain ⟨m', i, a, x, h1, h2, h3, h4, h5⟩ := h m
  refine ⟨m', h1, ?_⟩
  have hs := F.step m'
  rw [h2] at hs
  simp only [Fleet.step, h3, Machine.step, NLabel.ofObjects, if_true] at hs
  have hsend := (C66_send (net j) a.objects i x address packet).1 h4
  rw [hsend] at hs
  simp only [Option.some.injEq] at hs
  rw [← hs]
  simp [Machine.objects, emittedIn, h5]

/-- **C97, signed messages.**  A message of a header, the sender's authentication payload and self-delimiting payloads,
signed and handed to the network again and again: the community with its mid is called with it as often as you like,
and whenever it is, popping the header, `verify` and reading the payloads give the header, true and exactly the payloads
that were added; NAT boxes on the way do not matter. -/
theorem C97_signed (net : Nat → Net) (F : FleetLife net) (n0 k : Nat) (a : Machine)
    (hk : (F.state n0).machines[k]? = some a) (hsize : 1 ≤ a.pool.threads)
    (hf : (F.workers n0 k a hk).Fair) (hl : (F.workers n0 k a hk).Settled)
    (t : PThread) (ht : t ∈ a.threads) (u : RMember) (hu : a.pool.members[t.member]? = some u)
    (cs : List Community) (size : Nat) (hnode : u.listener = node cs size)
    (hcs : ∀ c ∈ cs, ∀ h d a, c.onReceive h d a ≠ .panic)
    (hft : (F.workers n0 k a hk).FairTo t.member) (hst : (F.workers n0 k a hk).SmoothAt t.member)
    (R : Ring) (hR : R.Correct) (kp : KeyPair R) (pk : Ed25519PublicKey) (hpk : kp.publicKey = .ok pk)
    (mid : FixedBytes 20) (ty : UInt8) (enc : FixedBytes 32) (vs : List AnyPayload)
    (hsd : ∀ x ∈ vs, x.1.SelfDelimiting) (hfits : ∀ x ∈ vs, x.1.Fits x.2) (p q message : Packet)
    (hp : Packet.new (Header.pyIpv8Header mid ty) = .ok p)
    (hq : addAll p (⟨.auth, BinMemberAuthenticationPayload.mk pk enc⟩ :: vs) = .ok q)
    (hsig : q.sign kp = .ok message) (hlen : message.bytes.length ≤ usizeMax)
    (hty : reserved ty = false) (hfit : message.bytes.length ≤ size)
    (c : Community) (hc : lastWith mid.1 cs = some c)
    (dest0 dest source0 source : SocketAddr) (hrep : F.Repeats dest0 ⟨message.bytes, source0⟩)
    (hnet : F.FairLossy dest0 ⟨message.bytes, source0⟩ k dest ⟨message.bytes, source⟩)
    (hr : (net k).reaches t.address dest = true) :
    ∃ call : Call, call.community = c.id ∧ call.header = Header.pyIpv8Header mid ty ∧ call.address = ⟨source⟩ ∧
      (∀ n, ∃ m, n0 ≤ m ∧
        n ≤ (u.listener.communityCalls (threadIn (history t.socket (processLog k (F.state m).log)))).count call) ∧
      ∃ d d', call.deserializer.popHeader = (.ok (Header.pyIpv8Header mid ty), d) ∧ d.verify R = (.ok true, d') ∧
        readAll d' (vs.map (·.1)) = .ok (vs, ⟨q, q.bytes.length⟩) := by
  obtain ⟨d, d', h1, h2, h3⟩ := C32 R hR kp pk hpk mid ty enc vs hsd hfits p q message hp hq hsig hlen
  have hh : HasHeader message mid.1 ty := by
    rw [C10_wire] at hp
    cases hp
    obtain ⟨w, hw⟩ := addAll_prefix hq
    rw [(C30 R hR kp q).1] at hsig
    cases hsig
    exact ⟨mid.2, w ++ R.sign kp.key q.bytes, by simp [hw]⟩
  exact ⟨⟨c.id, Header.pyIpv8Header mid ty, ⟨message, 0⟩, ⟨source⟩⟩, rfl, rfl, rfl,
    fun n => C97_community net F n0 k a hk hsize hf hl t ht u hu cs size hnode hcs hft hst dest0 dest _ _ hrep hnet hr
      mid ty hh hty hfit c hc n,
    d, d', h1, h2, h3⟩

/-- **C97, everything that arrives.**  As long as datagrams for the address of a listening thread keep being delivered
(any datagrams, from anywhere), every single one that ever arrived in its socket reaches every receiver: number `i` of
them is sooner or later what each receiver is called with for the `i`-th time. -/
theorem C97_arrived (net : Nat → Net) (F : FleetLife net) (n0 k : Nat) (a : Machine)
    (hk : (F.state n0).machines[k]? = some a) (hsize : 1 ≤ a.pool.threads)
    (hf : (F.workers n0 k a hk).Fair) (hl : (F.workers n0 k a hk).Settled)
    (t : PThread) (ht : t ∈ a.threads) (u : RMember) (hu : a.pool.members[t.member]? = some u)
    (hp : NoPanics u.listener) (hft : (F.workers n0 k a hk).FairTo t.member)
    (hst : (F.workers n0 k a hk).SmoothAt t.member)
    (hend : ∀ m, ∃ m' i dest d, m ≤ m' ∧ F.label m' = some (.deliver i k) ∧ (F.state m').air[i]? = some (dest, d) ∧
      (net k).reaches t.address dest = true)
    (n i : Nat) (d : Datagram) (hd : (arrivedIn (history t.socket (processLog k (F.state n).log)))[i]? = some d) :
    ∃ m, n ≤ m ∧ ∀ r, r < u.listener.receivers.length →
      (callsOf r (threadIn (history t.socket (processLog k (F.state m).log))))[i]? =
        some (⟨d.bytes.take u.listener.buffersize⟩, ⟨d.source⟩) := by
  obtain ⟨E, f1, f2, -, e4, e5⟩ := F.follow n0 k a hk hsize hf hl t ht u hu hp hft hst
  have key : ∀ c, ∃ n', c ≤ (takenIn (E.state n').trace).length := by
    intro c
    induction c with
    | zero => exact ⟨0, Nat.zero_le _⟩
    | succ c ih =>
      obtain ⟨n', hn'⟩ := ih
      obtain ⟨m, i, dest, d, h1, h2, h3, h4⟩ := hend (max n0 n')
      have hst := E.step m
      rw [e4 m i dest d (by omega) h2 h3 h4] at hst
      simp only [Listener.step, Option.some.injEq] at hst
      obtain ⟨m', h5, h6⟩ := E.takes hp f1 f2 (m + 1) (.inl (by rw [← hst]))
      have := takenIn_le (E.trace_le (show n' ≤ m + 1 by omega))
      exact ⟨m', by omega⟩
  obtain ⟨j, hj⟩ := key (i + 1)
  obtain ⟨m, g1, -, g2⟩ := F.gets n0 k t.socket u.listener hp E f1 f2 e5 n i d hd j (by omega)
  exact ⟨m, g1, g2⟩

/-- **C97, one message.**  A message that is delivered once, when everything that arrived before has been taken out of the
socket, reaches every receiver, whether or not anything comes after it. -/
theorem C97_alone (net : Nat → Net) (F : FleetLife net) (n0 k : Nat) (a : Machine)
    (hk : (F.state n0).machines[k]? = some a) (hsize : 1 ≤ a.pool.threads)
    (hf : (F.workers n0 k a hk).Fair) (hl : (F.workers n0 k a hk).Settled)
    (t : PThread) (ht : t ∈ a.threads) (u : RMember) (hu : a.pool.members[t.member]? = some u)
    (hp : NoPanics u.listener) (hft : (F.workers n0 k a hk).FairTo t.member)
    (hst : (F.workers n0 k a hk).SmoothAt t.member)
    (n i : Nat) (dest : SocketAddr) (d : Datagram) (hn : n0 ≤ n) (hx : F.label n = some (.deliver i k))
    (hair : (F.state n).air[i]? = some (dest, d)) (hr : (net k).reaches t.address dest = true)
    (hq : (arrivedIn (history t.socket (processLog k (F.state n).log))).length =
      (takenIn (threadIn (history t.socket (processLog k (F.state n).log)))).length) :
    ∃ m, n < m ∧ ∀ r, r < u.listener.receivers.length →
      (callsOf r (threadIn (history t.socket (processLog k (F.state m).log))))[
          (arrivedIn (history t.socket (processLog k (F.state n).log))).length]? =
        some (⟨d.bytes.take u.listener.buffersize⟩, ⟨d.source⟩) := by
  obtain ⟨E, f1, f2, -, e4, e5⟩ := F.follow n0 k a hk hsize hf hl t ht u hu hp hft hst
  obtain ⟨g0, taken, g1, g2⟩ := e5 n hn
  have hst := E.step n
  rw [e4 n i dest d hn hx hair hr] at hst
  simp only [Listener.step, Option.some.injEq] at hst
  have hlen : (takenIn (E.state n).trace).length = taken.length := by rw [g2, List.length_map]
  have hnil : (E.state n).queue = [] := by
    rw [g0, hlen, g1, List.length_append] at hq
    exact List.length_eq_zero_iff.mp (by omega)
  obtain ⟨m, h1, h2⟩ := E.takes hp f1 f2 (n + 1) (.inl (by rw [← hst]))
  obtain ⟨-, taken', g1', g2'⟩ := e5 (n + 1) (by omega)
  rw [← hst] at g1' g2' h2
  simp only [hnil, List.nil_append] at g1' g2' h2
  have hlen' : taken'.length = taken.length := by rw [← hlen, g2', List.length_map]
  have hd : (arrivedIn (history t.socket (processLog k (F.state (n + 1)).log)))[
      (arrivedIn (history t.socket (processLog k (F.state n).log))).length]? = some d := by
    rw [g1', g1, hnil, List.append_nil, ← hlen']
    simp
  obtain ⟨m', i1, i2, i3⟩ := F.gets n0 k t.socket u.listener hp E f1 f2 e5 (n + 1) _ d hd m (by
    rw [g1, hnil, List.append_nil]; omega)
  exact ⟨m', by omega, i3⟩

/-- **C97, it stays.**  The thread keeps its socket for ever, whatever the rest of the process and the system do. -/
theorem C97_lives (net : Nat → Net) (F : FleetLife net) (n0 k : Nat) (a : Machine)
    (hk : (F.state n0).machines[k]? = some a) (hsize : 1 ≤ a.pool.threads)
    (hf : (F.workers n0 k a hk).Fair) (hl : (F.workers n0 k a hk).Settled)
    (t : PThread) (ht : t ∈ a.threads) (u : RMember) (hu : a.pool.members[t.member]? = some u)
    (hp : NoPanics u.listener) (hft : (F.workers n0 k a hk).FairTo t.member)
    (hst : (F.workers n0 k a hk).SmoothAt t.member) (n : Nat) :
    .close ∉ history t.socket (processLog k (F.state n).log) := by
  obtain ⟨E, f1, f2, e3, -⟩ := F.follow n0 k a hk hsize hf hl t ht u hu hp hft hst
  obtain ⟨b, hb, htb⟩ := e3 (max n0 n) (by omega)
  obtain ⟨ls, hls⟩ := F.reached (max n0 n)
  obtain ⟨c, hc, hruns⟩ := fleet_reached net ls _ hls
  obtain ⟨nd, g1, g2⟩ := hc.machines k b hb
  obtain ⟨⟨lk, g3⟩, g4⟩ := hruns k nd g1
  obtain ⟨ti, hti⟩ := List.getElem?_of_mem htb
  obtain ⟨th, i1, i2, -⟩ := g2.thread ti t hti
  have := life_open ((node_run _ lk _ _ (Node.init_inv _) g3).fits _ (thread_mem_objs (List.mem_of_getElem? i1))).life
  rw [i2] at this
  rw [← g4, hc.log] at this
  intro hcl
  refine this ?_
  obtain ⟨w, hw⟩ := F.log_le (show n ≤ max n0 n by omega)
  rw [← hw, processLog_append, history_append]
  exact List.mem_append_left _ hcl

/-! ## A concrete case -/

/-- What the concrete case is about: a receiver, the size of its buffer, and what is sent to it. -/
class SoloCase where
  receiver : Receiver
  size : Nat
  bytes : Bytes

section
variable [C : SoloCase]

/-- A listening thread with one receiver. -/
def soloListener : Listener := ⟨[C.receiver], C.size⟩

/-- What it gets. -/
def soloDatagram : Datagram := ⟨C.bytes, .v4 1 1 1 1 1⟩

/-- What is in its buffer afterwards. -/
def soloBuffer : Bytes := (recvInto (List.replicate C.size 0) C.bytes).2

/-- What happens for each datagram. -/
def soloEvents : List Ev :=
  [.taken ⟨C.bytes.take C.size⟩ ⟨.v4 1 1 1 1 1⟩, .call 0 ⟨C.bytes.take C.size⟩ ⟨.v4 1 1 1 1 1⟩, .ret 0]

/-- The thread at step `j` of round `c`. -/
def soloState (c j : Nat) : RState :=
  let t := (List.replicate c soloEvents).flatten
  let s := RPhase.scope 0 ⟨C.bytes.take C.size⟩ ⟨.v4 1 1 1 1 1⟩
  let b := if c = 0 then List.replicate C.size 0 else soloBuffer
  match j with
  | 0 => ⟨[], false, b, .polling, t⟩
  | 1 => ⟨[soloDatagram], true, b, .polling, t⟩
  | 2 => ⟨[soloDatagram], false, b, .handling 1, t⟩
  | 3 => ⟨[], false, soloBuffer, s [.pending 0 1] false, t ++ soloEvents.take 1⟩
  | 4 => ⟨[], false, soloBuffer, s [.between 0 1] false, t ++ soloEvents.take 1⟩
  | 5 => ⟨[], false, soloBuffer, s [.inside 0 1] false, t ++ soloEvents.take 2⟩
  | 6 => ⟨[], false, soloBuffer, s [.between 1 1] false, t ++ soloEvents⟩
  | _ => ⟨[], false, soloBuffer, s [] false, t ++ soloEvents⟩

def soloLabels : Nat → RLabel
  | 0 => .arrive soloDatagram
  | 1 => .pollEvent
  | 2 => .recv
  | 3 => .begin 0 1
  | 4 => .call 0 1
  | 5 => .finish 0 1
  | 6 => .done 1
  | _ => .join

theorem solo_recv (c : Nat) :
    recvInto (if c = 0 then List.replicate C.size 0 else soloBuffer) C.bytes = (min C.bytes.length C.size, soloBuffer) ∧
      soloBuffer.take (min C.bytes.length C.size) = C.bytes.take C.size := by
  have hlen : soloBuffer.length = C.size := by
    simp only [soloBuffer, recvInto, List.length_replicate, List.length_append, List.length_take, List.length_drop]
    omega
  have h0 : soloBuffer = C.bytes.take (min C.bytes.length C.size) ++ (List.replicate C.size 0).drop (min C.bytes.length C.size) := by
    simp [soloBuffer, recvInto]
  have htake : C.bytes.take (min C.bytes.length C.size) = C.bytes.take C.size := by
    rw [Nat.min_comm, List.take_eq_take_iff]
    omega
  constructor
  · split
    · simp [recvInto, soloBuffer]
    · simp only [recvInto, hlen, Prod.mk.injEq, true_and]
      rw [h0, List.drop_append, List.drop_eq_nil_of_le (by simp), List.nil_append, List.length_take]
      rw [show min C.bytes.length C.size - min (min C.bytes.length C.size) C.bytes.length = 0 by omega, List.drop_zero]
  · rw [h0, List.take_append, List.take_take, Nat.min_self, List.length_take]
    rw [show min C.bytes.length C.size - min (min C.bytes.length C.size) C.bytes.length = 0 by omega, List.take_zero, List.append_nil, htake]

theorem rsolo_step (c j : Nat) (hj : j < 8) :
    soloListener.rstep (soloState c j) (soloLabels j) =
      some (if j = 7 then soloState (c + 1) 0 else soloState c (j + 1)) := by
  match j, hj with
  | 0, _ => simp [soloState, soloLabels, Listener.rstep]
  | 1, _ => simp [soloState, soloLabels, Listener.rstep]
  | 2, _ =>
    have h := solo_recv c
    simp only [soloState, soloLabels, Listener.rstep, soloDatagram, h.1, h.2]
    simp [soloListener, soloEvents]
  | 3, _ => simp [soloState, soloLabels, Listener.rstep, soloEvents]
  | 4, _ => simp [soloState, soloLabels, Listener.rstep, soloEvents]
  | 5, _ => simp [soloState, soloLabels, Listener.rstep, soloEvents]
  | 6, _ => simp [soloState, soloLabels, Listener.rstep, soloEvents]
  | 7, _ =>
    simp [soloState, soloLabels, Listener.rstep, rafterEvent, List.replicate_succ', List.flatten_append]

/-- One instance on a pool with one thread. -/
def solo (a : RState) (F : List Frame) : Workers := ⟨1, [⟨soloListener, a⟩], F.map fun f => (0, f)⟩

theorem solo_act {a a' : RState} {F : List Frame} {x : RLabel} (h : soloListener.rstep a x = some a') :
    (solo a F).act 0 x = some (solo a' F) := by
  simp [Workers.act, solo, h]

theorem solo_work {a a' : RState} {F new : List Frame} {f : Frame} {x : RLabel} (h : soloListener.rstep a x = some a') :
    (solo a (f :: F)).work 0 f 0 x new = some (solo a' (new ++ F)) := by
  unfold Workers.work
  rw [if_pos (by simp [Workers.top, solo]), solo_act h]
  simp [solo]

/-- A process with a sender, and one with a listening thread; the network between them. -/
def twin (l0 : List (Nat × NEv)) (a : RState) (F : List Frame) (l1 : List (Nat × NEv)) (air : List (SocketAddr × Datagram))
    (log : List CEv) : Fleet :=
  ⟨[⟨1, [⟨0, .v4 2 2 2 2 2⟩], [], [], [], ⟨1, [], []⟩, l0⟩, ⟨1, [], [], [], [⟨0, .v4 0 0 0 0 9, 0⟩], solo a F, l1⟩], air, log⟩

/-- What is sent, and what becomes of it on its way through a NAT box. -/
def twinSent : SocketAddr × Datagram := (.v4 5 5 5 5 5, ⟨C.bytes, .v4 2 2 2 2 2⟩)

def twinCame : SocketAddr × Datagram := (.v4 0 0 0 0 9, soloDatagram)

omit C in
theorem outgoing_net (s : Nat) (es : List Ev) : outgoing (es.map fun e => (s, NEv.net e)) = [] := by
  induction es with
  | nil => rfl
  | cons e es ih => simp [outgoing, ih]

theorem solo_trace (a : RState) (F : List Frame) : (solo a F).trace 0 = a.trace := rfl

theorem twin_work {l0 l1 : List (Nat × NEv)} {a a' : RState} {F F' : List Frame} {air : List (SocketAddr × Datagram)}
    {log : List CEv} {x : TLabel} (es : List Ev) (hx : x.ofThreads = true) (h : (solo a F).step x = some (solo a' F'))
    (ht : a'.trace = a.trace ++ es) :
    (twin l0 a F l1 air log).step (fun _ => plainNet) (.proc 1 (.work x)) =
      some (twin l0 a' F' (l1 ++ es.map fun e => (0, .net e)) air (log ++ es.map fun e => .at 1 0 (.net e))) := by
  simp only [twin, Fleet.step, List.getElem?_cons_succ, List.getElem?_cons_zero, Machine.step, hx, if_true, h, solo_trace,
    List.flatMap_cons, List.flatMap_nil, ht, List.drop_left, List.append_nil, outgoing_net, List.map_map,
    List.set_cons_succ, List.set_cons_zero]
  rfl

theorem twin_send {l0 l1 : List (Nat × NEv)} {a : RState} {F : List Frame} {air : List (SocketAddr × Datagram)}
    {log : List CEv} :
    (twin l0 a F l1 air log).step (fun _ => plainNet) (.proc 0 (.object (.send 0 ⟨.v4 5 5 5 5 5⟩ ⟨C.bytes⟩))) =
      some (twin (l0 ++ [(0, .send twinSent.1 twinSent.2)]) a F l1 (air ++ [twinSent])
        (log ++ [.at 0 0 (.send twinSent.1 twinSent.2)])) := by
  simp [twin, Fleet.step, Machine.step, NLabel.ofObjects, Node.step, Machine.objects, outgoing, twinSent, NetworkSender.send, Packet.raw]

theorem twin_deliver {l0 l1 : List (Nat × NEv)} {a a' : RState} {F : List Frame} {log : List CEv}
    (h : soloListener.rstep a (.arrive soloDatagram) = some a') :
    (twin l0 a F l1 [twinCame] log).step (fun _ => plainNet) (.deliver 0 1) =
      some (twin l0 a' F (l1 ++ [(0, .arrive soloDatagram)]) [] (log ++ [.at 1 0 (.arrive soloDatagram)])) := by
  have hs : (solo a F).step (.io 0 (.arrive soloDatagram)) = some (solo a' F) := by
    simp only [Workers.step, RLabel.outer, if_true]
    exact solo_act h
  simp [twin, Fleet.step, twinCame, Machine.arrive, plainNet, Machine.objects, Node.sockets, hs]

/-- Before the first round. -/
def twinSetup : List FLabel :=
  [.boot 1, .boot 1, .proc 0 (.object (.newSender ⟨.v4 2 2 2 2 2⟩ (.v4 2 2 2 2 2))),
   .proc 1 (.object (.newReceiver ⟨.v4 0 0 0 0 9⟩ (.v4 0 0 0 0 9))),
   .proc 1 (.object (.addReceiver 0 C.receiver)),
   .proc 1 (.startReceiver 0 { Config.default with buffersize := C.size })]

/-- In each round, the message is sent, lost, sent again, readdressed, delivered, and received. -/
def twinLabel : Nat → FLabel
  | 0 => .proc 0 (.object (.send 0 ⟨.v4 5 5 5 5 5⟩ ⟨C.bytes⟩))
  | 1 => .lose 0
  | 2 => .proc 0 (.object (.send 0 ⟨.v4 5 5 5 5 5⟩ ⟨C.bytes⟩))
  | 3 => .rewrite 0 (.v4 0 0 0 0 9) (.v4 1 1 1 1 1)
  | 4 => .deliver 0 1
  | 5 => .proc 1 (.work (.io 0 .pollEvent))
  | 6 => .proc 1 (.work (.io 0 .recv))
  | 7 => .proc 1 (.work (.enter 0 0))
  | 8 => .proc 1 (.work (.take 0 0 0 1))
  | 9 => .proc 1 (.work (.begin 0 0 0 1))
  | 10 => .proc 1 (.work (.call 0 0 0 1))
  | 11 => .proc 1 (.work (.finish 0 0 0 1))
  | 12 => .proc 1 (.work (.done 0 0 1))
  | _ => .proc 1 (.work (.exit 0 0))

/-- The log of the first process. -/
def twinLog0 (n : Nat) : List (Nat × NEv) :=
  [(0, .bind .sender (.v4 2 2 2 2 2))] ++ List.replicate n (0, .send twinSent.1 twinSent.2)

/-- One round in the log of the second. -/
def twinEvents : List (Nat × NEv) := (0, .arrive soloDatagram) :: soloEvents.map fun e => (0, .net e)

def twinLog1 (c n : Nat) : List (Nat × NEv) :=
  [(0, .bind .receiver (.v4 0 0 0 0 9)), (0, .register C.receiver), (0, .start C.size)] ++
    (List.replicate c twinEvents).flatten ++ twinEvents.take n

/-- One round in the log of all. -/
def twinAll : List CEv :=
  [.at 0 0 (.send twinSent.1 twinSent.2), .at 0 0 (.send twinSent.1 twinSent.2)] ++ twinEvents.map fun e => .at 1 e.1 e.2

def twinLog (c n : Nat) : List CEv :=
  [.at 0 0 (.bind .sender (.v4 2 2 2 2 2)), .at 1 0 (.bind .receiver (.v4 0 0 0 0 9)),
    .at 1 0 (.register C.receiver), .at 1 0 (.start C.size)] ++
    (List.replicate c twinAll).flatten ++ twinAll.take n

/-- The state at step `j` of round `c`. -/
def twinState (c j : Nat) : Fleet :=
  match j with
  | 0 => twin (twinLog0 (2 * c)) (soloState c 0) [] (twinLog1 c 0) [] (twinLog c 0)
  | 1 => twin (twinLog0 (2 * c + 1)) (soloState c 0) [] (twinLog1 c 0) [twinSent] (twinLog c 1)
  | 2 => twin (twinLog0 (2 * c + 1)) (soloState c 0) [] (twinLog1 c 0) [] (twinLog c 1)
  | 3 => twin (twinLog0 (2 * c + 2)) (soloState c 0) [] (twinLog1 c 0) [twinSent] (twinLog c 2)
  | 4 => twin (twinLog0 (2 * c + 2)) (soloState c 0) [] (twinLog1 c 0) [twinCame] (twinLog c 2)
  | 5 => twin (twinLog0 (2 * c + 2)) (soloState c 1) [] (twinLog1 c 1) [] (twinLog c 3)
  | 6 => twin (twinLog0 (2 * c + 2)) (soloState c 2) [] (twinLog1 c 1) [] (twinLog c 3)
  | 7 => twin (twinLog0 (2 * c + 2)) (soloState c 3) [] (twinLog1 c 2) [] (twinLog c 4)
  | 8 => twin (twinLog0 (2 * c + 2)) (soloState c 3) [.scope 0] (twinLog1 c 2) [] (twinLog c 4)
  | 9 => twin (twinLog0 (2 * c + 2)) (soloState c 3) [.hand 0 0 1, .scope 0] (twinLog1 c 2) [] (twinLog c 4)
  | 10 => twin (twinLog0 (2 * c + 2)) (soloState c 4) [.leaf 0 1, .scope 0] (twinLog1 c 2) [] (twinLog c 4)
  | 11 => twin (twinLog0 (2 * c + 2)) (soloState c 5) [.leaf 0 1, .scope 0] (twinLog1 c 3) [] (twinLog c 5)
  | 12 => twin (twinLog0 (2 * c + 2)) (soloState c 6) [.leaf 0 1, .scope 0] (twinLog1 c 4) [] (twinLog c 6)
  | _ => twin (twinLog0 (2 * c + 2)) (soloState c 7) [.scope 0] (twinLog1 c 4) [] (twinLog c 6)

theorem twinLog0_succ (n : Nat) : twinLog0 n ++ [(0, .send twinSent.1 twinSent.2)] = twinLog0 (n + 1) := by
  simp [twinLog0, List.replicate_succ']

theorem twinLog1_succ (c : Nat) : twinLog1 c 4 = twinLog1 (c + 1) 0 := by
  simp [twinLog1, twinEvents, soloEvents, List.replicate_succ', List.flatten_append]

theorem twinLog_succ (c : Nat) : twinLog c 6 = twinLog (c + 1) 0 := by
  simp [twinLog, twinAll, twinEvents, soloEvents, List.replicate_succ', List.flatten_append]

theorem twin_step (c j : Nat) (hj : j < 14) :
    (twinState c j).step (fun _ => plainNet) (twinLabel j) =
      some (if j = 13 then twinState (c + 1) 0 else twinState c (j + 1)) := by
  have h := fun c j (hj : j < 8) => rsolo_step c j hj
  have quiet : ∀ {l0 l1 : List (Nat × NEv)} {a a' : RState} {F F' : List Frame} {air : List (SocketAddr × Datagram)}
      {log : List CEv} {x : TLabel}, x.ofThreads = true → (solo a F).step x = some (solo a' F') → a'.trace = a.trace →
      (twin l0 a F l1 air log).step (fun _ => plainNet) (.proc 1 (.work x)) = some (twin l0 a' F' l1 air log) := by
    intro l0 l1 a a' F F' air log x h1 h2 h3
    have := twin_work (l0 := l0) (l1 := l1) (air := air) (log := log) [] h1 h2 (by simp [h3])
    simpa using this
  match j, hj with
  | 0, _ =>
    show (twin _ _ _ _ _ _).step _ _ = some (twin _ _ _ _ _ _)
    rw [twinLabel, twin_send, twinLog0_succ]
    simp [twinLog, twinAll]
  | 1, _ => rfl
  | 2, _ =>
    show (twin _ _ _ _ _ _).step _ _ = some (twin _ _ _ _ _ _)
    rw [twinLabel, twin_send, twinLog0_succ]
    simp [twinLog, twinAll]
  | 3, _ => rfl
  | 4, _ =>
    show (twin _ _ _ _ _ _).step _ _ = some (twin _ _ _ _ _ _)
    rw [twinLabel, twin_deliver (h c 0 (by omega))]
    simp [twinLog, twinAll, twinLog1, twinEvents]
  | 5, _ => exact quiet rfl (solo_act (h c 1 (by omega))) rfl
  | 6, _ =>
    show (twin _ _ _ _ _ _).step _ _ = some (twin _ _ _ _ _ _)
    refine (twin_work (a' := soloState c 3) (F' := []) (x := .io 0 .recv) (soloEvents.take 1) rfl
      (solo_act (h c 2 (by omega))) (by simp [soloState])).trans ?_
    simp [twinLog, twinAll, twinLog1, twinEvents, soloEvents]
  | 7, _ => exact quiet rfl rfl rfl
  | 8, _ => exact quiet rfl rfl rfl
  | 9, _ => exact quiet rfl (solo_work (new := [.leaf 0 1]) (h c 3 (by omega))) rfl
  | 10, _ =>
    show (twin _ _ _ _ _ _).step _ _ = some (twin _ _ _ _ _ _)
    refine (twin_work (a' := soloState c 5) (F' := [.leaf 0 1, .scope 0]) (x := .call 0 0 0 1)
      [.call 0 ⟨C.bytes.take C.size⟩ ⟨.v4 1 1 1 1 1⟩] rfl (solo_work (new := [.leaf 0 1]) (h c 4 (by omega)))
      (by simp [soloState, soloEvents])).trans ?_
    simp [twinLog, twinAll, twinLog1, twinEvents, soloEvents]
  | 11, _ =>
    show (twin _ _ _ _ _ _).step _ _ = some (twin _ _ _ _ _ _)
    refine (twin_work (a' := soloState c 6) (F' := [.leaf 0 1, .scope 0]) (x := .finish 0 0 0 1) [.ret 0] rfl
      (solo_work (new := [.leaf 0 1]) (h c 5 (by omega))) (by simp [soloState, soloEvents])).trans ?_
    simp [twinLog, twinAll, twinLog1, twinEvents, soloEvents]
  | 12, _ => exact quiet rfl (solo_work (new := []) (h c 6 (by omega))) rfl
  | 13, _ =>
    have hs : (solo (soloState c 7) [.scope 0]).step (.exit 0 0) = some (solo (soloState (c + 1) 0) []) := by
      have : (solo (soloState c 7) [.scope 0]).over (.scope 0) = true := rfl
      simp only [Workers.step, this, if_true]
      exact solo_work (new := []) (h c 7 (by omega))
    show (twin _ _ _ _ _ _).step _ _ = some (twin _ _ _ _ _ _)
    rw [twinLabel, quiet rfl hs (by simp [soloState, List.replicate_succ', List.flatten_append]),
      twinLog1_succ, twinLog_succ]
    rfl
    all_goals simp
  | j + 14, hj => exact absurd hj (by omega)

/-- The state during the setup. -/
def twinBefore (j : Nat) : Fleet := (Fleet.init.run (fun _ => plainNet) (twinSetup.take j)).getD Fleet.init

/-- Both processes live for ever. -/
def twinLife : FleetLife fun _ => plainNet where
  state m := if m < 6 then twinBefore m else twinState ((m - 6) / 14) ((m - 6) % 14)
  label m := if m < 6 then twinSetup[m]? else some (twinLabel ((m - 6) % 14))
  start := rfl
  step m := by
    match m with
    | 0 => rfl
    | 1 => rfl
    | 2 => rfl
    | 3 => rfl
    | 4 => rfl
    | 5 => rfl
    | m + 6 =>
      simp only [show ¬ m + 6 < 6 by omega, show ¬ m + 6 + 1 < 6 by omega, if_false, Nat.add_sub_cancel,
        show m + 6 + 1 - 6 = m + 1 by omega]
      rw [twin_step _ _ (Nat.mod_lt _ (by omega))]
      by_cases h : m % 14 = 13
      · rw [if_pos h, show (m + 1) / 14 = m / 14 + 1 by omega, show (m + 1) % 14 = 0 by omega]
      · rw [if_neg h, show (m + 1) / 14 = m / 14 by omega, show (m + 1) % 14 = m % 14 + 1 by omega]

/-- The second process when both are set up. -/
def twinMachine : Machine := ⟨1, [], [], [], [⟨0, .v4 0 0 0 0 9, 0⟩], solo (soloState 0 0) [], twinLog1 0 0⟩

/-- Its pool. -/
def twinPool : WorkersLife 1 := twinLife.workers 6 1 twinMachine rfl

theorem twin_label (c j : Nat) (hj : j < 14) : twinLife.label (14 * c + j + 6) = some (twinLabel j) := by
  simp only [twinLife]
  rw [if_neg (by omega), show (14 * c + j + 6 - 6) % 14 = j by omega]

theorem twin_state (c j : Nat) (hj : j < 14) : twinLife.state (14 * c + j + 6) = twinState c j := by
  simp only [twinLife]
  rw [if_neg (by omega), show (14 * c + j + 6 - 6) % 14 = j by omega, show (14 * c + j + 6 - 6) / 14 = c by omega]

def soloLabel : Nat → Option TLabel
  | 4 => some (.io 0 (.arrive soloDatagram))
  | 5 => some (.io 0 .pollEvent)
  | 6 => some (.io 0 .recv)
  | 7 => some (.enter 0 0)
  | 8 => some (.take 0 0 0 1)
  | 9 => some (.begin 0 0 0 1)
  | 10 => some (.call 0 0 0 1)
  | 11 => some (.finish 0 0 0 1)
  | 12 => some (.done 0 0 1)
  | 13 => some (.exit 0 0)
  | _ => none

theorem solo_label (c j : Nat) (hj : j < 14) : twinPool.label (14 * c + j + 6) = soloLabel j := by
  show (twinLife.label (14 * c + j + 6)).bind ((twinLife.state (14 * c + j + 6)).poolLabel (fun _ => plainNet) 1) = _
  rw [twin_label c j hj, twin_state c j hj]
  match j, hj with
  | 0, _ => rfl
  | 1, _ => rfl
  | 2, _ => rfl
  | 3, _ => rfl
  | 4, _ => rfl
  | 5, _ => rfl
  | 6, _ => rfl
  | 7, _ => rfl
  | 8, _ => rfl
  | 9, _ => rfl
  | 10, _ => rfl
  | 11, _ => rfl
  | 12, _ => rfl
  | 13, _ => rfl
  | j + 14, hj => exact absurd hj (by omega)

/-- What never happens in it: a wait for a second half, a range other than that of the only receiver. -/
theorem solo_facts (m : Nat) :
    (∀ x ∈ (twinPool.state m).frames, x.2.joins = false) ∧
    ∀ k ts, (twinPool.state m).jobs k = some ts → k = 0 ∧ ∀ lo hi, .pending lo hi ∈ ts → lo = 0 ∧ hi = 1 := by
  have htask : ∀ c j ts, (soloState c j).jobs = some ts → ∀ lo hi, Task.pending lo hi ∈ ts → lo = 0 ∧ hi = 1 := by
    intro c j ts h lo hi hm
    match j with
    | 0 => cases h
    | 1 => cases h
    | 2 => cases h
    | 3 => cases h; simpa using hm
    | 4 => cases h; simp at hm
    | 5 => cases h; simp at hm
    | 6 => cases h; simp at hm
    | j + 7 => cases h; simp at hm
  have hjobs : ∀ c i F k ts, (solo (soloState c i) F).jobs k = some ts →
      k = 0 ∧ ∀ lo hi, .pending lo hi ∈ ts → lo = 0 ∧ hi = 1 := by
    intro c i F k ts h
    match k with
    | 0 => exact ⟨rfl, htask c i ts h⟩
    | k + 1 => simp [solo, Workers.jobs] at h
  have hframes : ∀ a F, (∀ f ∈ F, Frame.joins f = false) → ∀ x ∈ (solo a F).frames, x.2.joins = false := by
    intro a F hF x hx
    obtain ⟨f, hf, rfl⟩ := List.mem_map.mp hx
    exact hF f hf
  have hnone : ∀ k ts, (Workers.mk 1 [] []).jobs k = some ts →
      k = 0 ∧ ∀ lo hi, .pending lo hi ∈ ts → lo = 0 ∧ hi = 1 := fun k ts h => by simp [Workers.jobs] at h
  match m with
  | 0 => exact ⟨(by intro x hx; cases hx), hnone⟩
  | 1 => exact ⟨(by intro x hx; cases hx), hnone⟩
  | 2 => exact ⟨(by intro x hx; cases hx), hnone⟩
  | 3 => exact ⟨(by intro x hx; cases hx), hnone⟩
  | 4 => exact ⟨(by intro x hx; cases hx), hnone⟩
  | 5 => exact ⟨(by intro x hx; cases hx), hnone⟩
  | m + 6 =>
    have hs : twinPool.state (m + 6) = (twinState (m / 14) (m % 14)).pool 1 1 := by
      show (twinLife.state (m + 6)).pool 1 1 = _
      have := twin_state (m / 14) (m % 14) (Nat.mod_lt _ (by omega))
      rw [show 14 * (m / 14) + m % 14 + 6 = m + 6 by omega] at this
      rw [this]
    rw [hs]
    have hlt : m % 14 < 14 := Nat.mod_lt _ (by omega)
    generalize m / 14 = c
    match m % 14, hlt with
    | 0, _ => exact ⟨hframes _ _ (by decide), hjobs _ _ _⟩
    | 1, _ => exact ⟨hframes _ _ (by decide), hjobs _ _ _⟩
    | 2, _ => exact ⟨hframes _ _ (by decide), hjobs _ _ _⟩
    | 3, _ => exact ⟨hframes _ _ (by decide), hjobs _ _ _⟩
    | 4, _ => exact ⟨hframes _ _ (by decide), hjobs _ _ _⟩
    | 5, _ => exact ⟨hframes _ _ (by decide), hjobs _ _ _⟩
    | 6, _ => exact ⟨hframes _ _ (by decide), hjobs _ _ _⟩
    | 7, _ => exact ⟨hframes _ _ (by decide), hjobs _ _ _⟩
    | 8, _ => exact ⟨hframes _ _ (by decide), hjobs _ _ _⟩
    | 9, _ => exact ⟨hframes _ _ (by decide), hjobs _ _ _⟩
    | 10, _ => exact ⟨hframes _ _ (by decide), hjobs _ _ _⟩
    | 11, _ => exact ⟨hframes _ _ (by decide), hjobs _ _ _⟩
    | 12, _ => exact ⟨hframes _ _ (by decide), hjobs _ _ _⟩
    | 13, _ => exact ⟨hframes _ _ (by decide), hjobs _ _ _⟩
    | j + 14, hj => exact absurd hj (by omega)

theorem solo_fair : twinPool.Fair where
  works m w f h _ := by
    have hw : w < 1 := (twinPool.good m).stacks.owner _ (Workers.top_mem h)
    exact ⟨14 * m + 7 + 6, _, by omega, solo_label m 7 (by omega), by simp [TLabel.thread]; omega⟩
  resumes w k mid hi m h := by
    exfalso
    obtain ⟨m2, x, _, rfl, h2⟩ := h m (Nat.le_refl _)
    simp only [Workers.step] at h2
    split at h2
    · rename_i hc
      exact absurd ((solo_facts m2).1 _ (Workers.top_mem hc.1)) (by simp [Frame.joins])
    · cases h2
  exits w k m h := by
    obtain ⟨m2, x, _, rfl, h2⟩ := h m (Nat.le_refl _)
    obtain ⟨s', hs⟩ := Option.isSome_iff_exists.mp h2
    have hmem := Workers.top_mem (Workers.exit_frames hs).1
    have hw : w < 1 := (twinPool.good m2).stacks.owner _ hmem
    obtain ⟨ts, hts⟩ := Option.isSome_iff_exists.mp (twinPool.member hmem)
    obtain rfl := ((solo_facts m2).2 k ts hts).1
    obtain rfl : w = 0 := by omega
    exact ⟨14 * m + 13 + 6, _, by omega, rfl, solo_label m 13 (by omega)⟩
  takes k lo hi m h := by
    obtain ⟨m2, x, _, ⟨w, rfl⟩, h2⟩ := h m (Nat.le_refl _)
    simp only [Workers.step] at h2
    split at h2
    · cases h2
    · rename_i ts hts
      split at h2
      · rename_i hc
        obtain ⟨rfl, ht⟩ := (solo_facts m2).2 k ts hts
        obtain ⟨rfl, rfl⟩ := ht lo hi hc.2.2.1
        exact ⟨14 * m + 8 + 6, _, by omega, ⟨0, rfl⟩, solo_label m 8 (by omega)⟩
      · cases h2
  enters k m h := by
    obtain ⟨m2, x, _, ⟨w, rfl⟩, h2⟩ := h m (Nat.le_refl _)
    simp only [Workers.step] at h2
    split at h2
    · rename_i hc
      obtain ⟨ts, hts⟩ := Option.isSome_iff_exists.mp hc.2.1
      obtain rfl := ((solo_facts m2).2 k ts hts).1
      exact ⟨14 * m + 7 + 6, _, by omega, ⟨0, rfl⟩, solo_label m 7 (by omega)⟩
    · cases h2

/-- What `C97` asks of processes and network; every other copy is lost. -/
theorem twin_hypotheses : ∃ hk : (twinLife.state 6).machines[1]? = some twinMachine, 1 ≤ twinMachine.pool.threads ∧
    (twinLife.workers 6 1 twinMachine hk).Fair ∧ (twinLife.workers 6 1 twinMachine hk).Settled ∧
    ∃ t u, t ∈ twinMachine.threads ∧ twinMachine.pool.members[t.member]? = some u ∧ u.listener = soloListener ∧
      (twinLife.workers 6 1 twinMachine hk).FairTo t.member ∧
      (twinLife.workers 6 1 twinMachine hk).SmoothAt t.member ∧
      twinLife.Repeats twinSent.1 twinSent.2 ∧ twinLife.FairLossy twinSent.1 twinSent.2 1 twinCame.1 twinCame.2 ∧
      plainNet.reaches t.address twinCame.1 = true := by
  have label : ∀ m x, twinPool.label (m + 6) = some x → soloLabel (m % 14) = some x := by
    intro m x h
    have := solo_label (m / 14) (m % 14) (Nat.mod_lt _ (by omega))
    rw [show 14 * (m / 14) + m % 14 + 6 = m + 6 by omega] at this
    rw [← this]
    exact h
  refine ⟨rfl, Nat.le_refl _, solo_fair, ⟨6, ?_⟩, ⟨0, .v4 0 0 0 0 9, 0⟩, ⟨soloListener, soloState 0 0⟩,
    List.mem_singleton.mpr rfl, rfl, rfl, ?_, ?_, ?_, ?_, rfl⟩
  · intro m l q hm hx
    have := label (m - 6) _ (by rw [show m - 6 + 6 = m by omega]; exact hx)
    unfold soloLabel at this
    split at this <;> cases this
  · intro m _
    exact ⟨14 * m + 5 + 6, _, by omega, .inl rfl, solo_label m 5 (by omega)⟩
  · intro m x hx
    match m with
    | 0 => cases hx
    | 1 => cases hx
    | 2 => cases hx
    | 3 => cases hx
    | 4 => cases hx
    | 5 => cases hx
    | m + 6 =>
      have := label m _ hx
      unfold soloLabel at this
      split at this <;> cases this <;> simp
  · refine C97_sends _ twinLife 0 ⟨.v4 5 5 5 5 5⟩ ⟨C.bytes⟩ (.v4 2 2 2 2 2) ?_
    intro m
    exact ⟨14 * m + 0 + 6, 0, ⟨1, [⟨0, .v4 2 2 2 2 2⟩], [], [], [], ⟨1, [], []⟩, twinLog0 (2 * m)⟩, ⟨0, .v4 2 2 2 2 2⟩, by omega,
      twin_label m 0 (by omega), by rw [twin_state m 0 (by omega)]; rfl, rfl, rfl⟩
  · intro _ m
    exact ⟨14 * m + 4 + 6, 0, by omega, twin_label m 4 (by omega), by rw [twin_state m 4 (by omega)]; rfl⟩

end

/-- The hypotheses of `C97` can be met. -/
example (r : Receiver) (h : ∀ p a, r.mayPanic p a = false) (size : Nat) (w : Bytes) :
    ∃ (F : FleetLife fun _ => plainNet) (a : Machine) (hk : (F.state 6).machines[1]? = some a), 1 ≤ a.pool.threads ∧
    (F.workers 6 1 a hk).Fair ∧ (F.workers 6 1 a hk).Settled ∧
    ∃ t u, t ∈ a.threads ∧ a.pool.members[t.member]? = some u ∧ u.listener = ⟨[r], size⟩ ∧ NoPanics u.listener ∧
      (F.workers 6 1 a hk).FairTo t.member ∧ (F.workers 6 1 a hk).SmoothAt t.member ∧
      F.Repeats (.v4 5 5 5 5 5) ⟨w, .v4 2 2 2 2 2⟩ ∧
      F.FairLossy (.v4 5 5 5 5 5) ⟨w, .v4 2 2 2 2 2⟩ 1 (.v4 0 0 0 0 9) ⟨w, .v4 1 1 1 1 1⟩ ∧
      plainNet.reaches t.address (.v4 0 0 0 0 9) = true := by
  obtain ⟨h1, h2, h3, h4, t, u, h5, h6, h7, h8, h9, h10, h11, h12⟩ := @twin_hypotheses ⟨r, size, w⟩
  refine ⟨_, _, h1, h2, h3, h4, t, u, h5, h6, h7, ?_, h8, h9, h10, h11, h12⟩
  rw [h7]
  simpa [NoPanics, soloListener] using h

/-- So can those of `C97_arrived`, `C97_alone` and `C97_lives`: the first message is delivered at moment 10, when nothing
has arrived before it. -/
example (r : Receiver) (h : ∀ p a, r.mayPanic p a = false) (size : Nat) (w : Bytes) :
    ∃ (F : FleetLife fun _ => plainNet) (a : Machine) (hk : (F.state 6).machines[1]? = some a), 1 ≤ a.pool.threads ∧
    (F.workers 6 1 a hk).Fair ∧ (F.workers 6 1 a hk).Settled ∧
    ∃ t u, t ∈ a.threads ∧ a.pool.members[t.member]? = some u ∧ u.listener = ⟨[r], size⟩ ∧ NoPanics u.listener ∧
      (F.workers 6 1 a hk).FairTo t.member ∧ (F.workers 6 1 a hk).SmoothAt t.member ∧
      (∀ m, ∃ m' i dest d, m ≤ m' ∧ F.label m' = some (.deliver i 1) ∧ (F.state m').air[i]? = some (dest, d) ∧
        plainNet.reaches t.address dest = true) ∧
      (F.label 10 = some (.deliver 0 1) ∧ (F.state 10).air[0]? = some (.v4 0 0 0 0 9, ⟨w, .v4 1 1 1 1 1⟩) ∧
        (arrivedIn (history 0 (processLog 1 (F.state 10).log))).length =
          (takenIn (threadIn (history 0 (processLog 1 (F.state 10).log)))).length) ∧
      (arrivedIn (history 0 (processLog 1 (F.state 11).log)))[0]? = some ⟨w, .v4 1 1 1 1 1⟩ := by
  obtain ⟨h1, h2, h3, h4, t, u, h5, h6, h7, h8, h9, h10, h11, h12⟩ := @twin_hypotheses ⟨r, size, w⟩
  refine ⟨_, _, h1, h2, h3, h4, t, u, h5, h6, h7, ?_, h8, h9, ?_, ⟨rfl, rfl, rfl⟩, rfl⟩
  · rw [h7]
    simpa [NoPanics, soloListener] using h
  · intro m
    obtain ⟨m', i, g1, g2, g3⟩ := h11 h10 m
    exact ⟨m', i, _, _, g1, g2, g3, h12⟩

/-- The hypotheses of `C97_community` can be met: the node with two communities of `Props/System.lean` and the packet
for the second one. -/
example :
    ∃ (F : FleetLife fun _ => plainNet) (a : Machine) (hk : (F.state 6).machines[1]? = some a), 1 ≤ a.pool.threads ∧
    (F.workers 6 1 a hk).Fair ∧ (F.workers 6 1 a hk).Settled ∧
    (∃ t u, t ∈ a.threads ∧ a.pool.members[t.member]? = some u ∧ u.listener = node exampleNode 2048 ∧
      (F.workers 6 1 a hk).FairTo t.member ∧ (F.workers 6 1 a hk).SmoothAt t.member ∧
      F.Repeats (.v4 5 5 5 5 5) ⟨examplePacket.bytes, .v4 2 2 2 2 2⟩ ∧
      F.FairLossy (.v4 5 5 5 5 5) ⟨examplePacket.bytes, .v4 2 2 2 2 2⟩ 1 (.v4 0 0 0 0 9)
        ⟨examplePacket.bytes, .v4 1 1 1 1 1⟩ ∧
      plainNet.reaches t.address (.v4 0 0 0 0 9) = true) ∧
    (∀ c ∈ exampleNode, ∀ h d a, c.onReceive h d a ≠ .panic) ∧
    HasHeader examplePacket (List.replicate 20 8) 246 ∧ reserved 246 = false ∧
    examplePacket.bytes.length ≤ 2048 ∧ (lastWith (List.replicate 20 8) exampleNode).map (·.id) = some 2 := by
  obtain ⟨h1, h2, h3, h4, t, u, h5, h6, h7, h8, h9, h10, h11, h12⟩ :=
    @twin_hypotheses ⟨registryReceiver (registered exampleNode), 2048, examplePacket.bytes⟩
  refine ⟨_, _, h1, h2, h3, h4, ⟨t, u, h5, h6, h7, h8, h9, h10, h11, h12⟩, ?_, ⟨rfl, [0, 0, 0, 0, 0, 0, 0, 3], by decide⟩,
    by decide, by decide, by decide +kernel⟩
  intro c hc h d a
  simp only [exampleNode, List.mem_cons, List.not_mem_nil, or_false] at hc
  rcases hc with rfl | rfl <;> simp [exampleCommunity]

/-- The hypotheses of `C97_signed` can be met: with the toy signature scheme and the signed message of
`Props/Authentic.lean`. -/
example :
    ∃ (F : FleetLife fun _ => plainNet) (a : Machine) (hk : (F.state 6).machines[1]? = some a), 1 ≤ a.pool.threads ∧
    (F.workers 6 1 a hk).Fair ∧ (F.workers 6 1 a hk).Settled ∧
    (∃ t u, t ∈ a.threads ∧ a.pool.members[t.member]? = some u ∧ u.listener = node exampleNode 2048 ∧
      (F.workers 6 1 a hk).FairTo t.member ∧ (F.workers 6 1 a hk).SmoothAt t.member ∧
      F.Repeats (.v4 5 5 5 5 5) ⟨exampleSigned.bytes, .v4 2 2 2 2 2⟩ ∧
      F.FairLossy (.v4 5 5 5 5 5) ⟨exampleSigned.bytes, .v4 2 2 2 2 2⟩ 1 (.v4 0 0 0 0 9)
        ⟨exampleSigned.bytes, .v4 1 1 1 1 1⟩ ∧
      plainNet.reaches t.address (.v4 0 0 0 0 9) = true) ∧
    ∃ (kp : KeyPair toyRing) (pk : Ed25519PublicKey) (p q : Packet) (v : TimeDistributionPayload),
      kp.publicKey = .ok pk ∧ Packet.new (Header.pyIpv8Header (FixedBytes.replicate 20 8) 246) = .ok p ∧
      addAll p [⟨.auth, BinMemberAuthenticationPayload.mk pk (FixedBytes.replicate 32 2)⟩, ⟨.time, v⟩] = .ok q ∧
      q.sign kp = .ok exampleSigned := by
  obtain ⟨h1, h2, h3, h4, t, u, h5, h6, h7, h8, h9, h10, h11, h12⟩ :=
    @twin_hypotheses ⟨registryReceiver (registered exampleNode), 2048, exampleSigned.bytes⟩
  exact ⟨_, _, h1, h2, h3, h4, ⟨t, u, h5, h6, h7, h8, h9, h10, h11, h12⟩, ⟨FixedBytes.replicate 32 9⟩,
    FixedBytes.replicate 32 9, ⟨Spec.header (List.replicate 20 8) 246⟩, ⟨exampleBody⟩, ⟨3⟩,
    rfl, by decide +kernel, by decide +kernel, by decide +kernel⟩

end Ipv8
