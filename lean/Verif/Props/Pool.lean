import Verif.Model.Pool
import Verif.Props.Network
import Verif.Props.Process
/-!
# C61: instances share the thread pool, and nothing else
-/

namespace Ipv8

open Spec

/-! ## Specification -/

/-- The instances started in an execution. -/
def launched : List PoolLabel → List (Listener × List Datagram)
  | [] => []
  | .launch l q :: ls => (l, q) :: launched ls
  | .at _ _ :: ls => launched ls

/-- What happens at instance `k` in an execution. -/
def labelsAt (k : Nat) : List PoolLabel → List Label
  | [] => []
  | .at k' x :: ls => if k' = k then x :: labelsAt k ls else labelsAt k ls
  | .launch _ _ :: ls => labelsAt k ls

/-- Calls a receiver makes return. -/
def PoolLabel.frees : PoolLabel → Bool
  | .at _ (.finish _) => true
  | .at _ (.crash _) => true
  | _ => false

/-- Work of the threads on what is already there. -/
def PoolLabel.internal : PoolLabel → Bool
  | .at _ x => Spec.internal x
  | .launch _ _ => false

/-! ## Lemmas -/

theorem launched_append (a b : List PoolLabel) : launched (a ++ b) = launched a ++ launched b := by
  induction a with
  | nil => rfl
  | cons x a ih => cases x <;> simp [launched, ih]

theorem labelsAt_append (k : Nat) (a b : List PoolLabel) :
    labelsAt k (a ++ b) = labelsAt k a ++ labelsAt k b := by
  induction a with
  | nil => rfl
  | cons x a ih =>
    cases x with
    | launch => simp [labelsAt, ih]
    | «at» k' x => by_cases h : k' = k <;> simp [labelsAt, ih, h]

theorem Pool.run_append (p : Pool) (a b : List PoolLabel) :
    p.run (a ++ b) = (p.run a).bind (fun p' => p'.run b) := by
  induction a generalizing p with
  | nil => rfl
  | cons x a ih =>
    simp only [List.cons_append, Pool.run]
    cases p.step x with
    | none => rfl
    | some p' => exact ih p'

/-- Induction over executions, from the end. -/
theorem Pool.run_induction (p0 : Pool) (P : List PoolLabel → Pool → Prop)
    (h0 : P [] p0)
    (hs : ∀ ls p x p', p0.run ls = some p → P ls p → p.step x = some p' → P (ls ++ [x]) p') :
    ∀ ls p, p0.run ls = some p → P ls p := by
  intro ls
  induction hn : ls.length generalizing ls with
  | zero =>
    intro p h
    have : ls = [] := List.length_eq_zero_iff.mp hn
    subst this
    simp only [Pool.run, Option.some.injEq] at h
    subst h
    exact h0
  | succ n ih =>
    intro p h
    have hne : ls ≠ [] := by rintro rfl; simp at hn
    have hsplit := (List.dropLast_concat_getLast hne).symm
    rw [hsplit, Pool.run_append] at h
    cases hm : p0.run ls.dropLast with
    | none => simp [hm] at h
    | some m =>
      simp only [hm, Option.bind_some, Pool.run] at h
      cases hx : m.step (ls.getLast hne) with
      | none => simp [hx] at h
      | some p' =>
        simp only [hx, Option.some.injEq] at h
        subst h
        rw [hsplit]
        exact hs _ m _ p' hm (ih ls.dropLast (by simp [hn]) m hm) hx

/-- Inversion of a step at an instance. -/
theorem Pool.step_at {p p' : Pool} {k : Nat} {x : Label} (h : p.step (.at k x) = some p') :
    ∃ m s', p.members[k]? = some m ∧ m.listener.step m.state x = some s' ∧
      (x.needsThread = true → p.running < p.threads) ∧
      p' = { p with members := p.members.set k ⟨m.listener, s'⟩ } := by
  simp only [Pool.step] at h
  split at h
  · simp at h
  · next m hm =>
    split at h
    · simp at h
    · next hc =>
      split at h
      · simp at h
      · next s' hs =>
        simp only [Option.some.injEq] at h
        refine ⟨m, s', hm, hs, ?_, h.symm⟩
        intro hx
        simp only [hx, true_and] at hc
        omega

/-! ## C61 -/

/-- **C61, isolation.**  Run any number of instances in one process, on a pool of any size, in any
interleaving.  What happens at an instance is an execution of that instance alone.  So everything proved
about one listening thread (C43 to C47) holds for each of them, whatever the other instances receive and
whichever of their receivers panic. -/
theorem C61 (n : Nat) (ls : List PoolLabel) (p : Pool) (h : (Pool.mk n []).run ls = some p)
    (k : Nat) (m : Member) (hm : p.members[k]? = some m) :
    ∃ queued, (launched ls)[k]? = some (m.listener, queued) ∧
      m.listener.run (m.listener.init queued) (labelsAt k ls) = some m.state := by
  have key : ∀ ls p, (Pool.mk n []).run ls = some p →
      (p.members.length = (launched ls).length ∧
        (∀ k, p.members[k]? = none → labelsAt k ls = []) ∧
        ∀ (k : Nat) (m : Member), p.members[k]? = some m → ∃ queued, (launched ls)[k]? = some (m.listener, queued) ∧
          m.listener.run (m.listener.init queued) (labelsAt k ls) = some m.state) := by
    apply Pool.run_induction (Pool.mk n [])
    · exact ⟨rfl, by simp [labelsAt], by simp⟩
    · intro ls p x p' _ ⟨hlen, hnone, hall⟩ hx
      cases x with
      | launch l q =>
        simp only [Pool.step, Option.some.injEq] at hx
        subst hx
        refine ⟨by simp [launched_append, launched, hlen], ?_, ?_⟩
        · intro k hk
          rw [labelsAt_append]
          simp only [List.getElem?_eq_none_iff, List.length_append, List.length_singleton] at hk
          simp [labelsAt, hnone k (List.getElem?_eq_none_iff.mpr (by omega))]
        · intro k m hk
          rw [labelsAt_append, launched_append]
          simp only [labelsAt, List.append_nil, launched]
          by_cases hlt : k < p.members.length
          · rw [List.getElem?_append_left hlt] at hk
            rw [List.getElem?_append_left (by omega)]
            exact hall k m hk
          · rw [List.getElem?_append_right (by omega)] at hk
            rw [List.getElem?_append_right (by omega)]
            have hk0 : k - p.members.length = 0 := by
              by_cases h0 : k - p.members.length = 0
              · exact h0
              · simp [h0] at hk
            have heq : k = p.members.length := by omega
            rw [hk0] at hk
            simp only [List.getElem?_cons_zero, Option.some.injEq] at hk
            subst hk
            refine ⟨q, by rw [← hlen, hk0]; rfl, ?_⟩
            rw [hnone k (List.getElem?_eq_none_iff.mpr (by omega))]
            rfl
      | «at» k' x =>
        obtain ⟨m', s', hm', hs', -, rfl⟩ := Pool.step_at hx
        refine ⟨by simp [launched_append, launched, hlen], ?_, ?_⟩
        · intro k hk
          rw [labelsAt_append]
          simp only [List.getElem?_eq_none_iff, List.length_set] at hk
          have hne : k' ≠ k := by
            rintro rfl
            have := (List.getElem?_eq_some_iff.mp hm').1
            omega
          simp [labelsAt, hne, hnone k (List.getElem?_eq_none_iff.mpr hk)]
        · intro k m hk
          rw [labelsAt_append, launched_append]
          simp only [labelsAt, launched, List.append_nil]
          by_cases hkk : k' = k
          · subst hkk
            obtain ⟨q, h1, h2⟩ := hall k' m' hm'
            rw [List.getElem?_set_self (List.getElem?_eq_some_iff.mp hm').1] at hk
            simp only [Option.some.injEq] at hk
            subst hk
            refine ⟨q, h1, ?_⟩
            simp only [if_true]
            exact (run_snoc _ _ _ _ _).mpr ⟨_, h2, hs'⟩
          · rw [List.getElem?_set_ne hkk] at hk
            simpa [hkk] using hall k m hk
  exact (key ls p h).2.2 k m hm

/-- What a step does to the running calls and to the calls made. -/
theorem running_step (l : Listener) (s s' : NetState) (x : Label) (h : l.step s x = some s') :
    s'.running ≤ s.running + (if x.needsThread then 1 else 0) ∧
    ((∀ r, x ≠ .finish r ∧ x ≠ .crash r) → s.running ≤ s'.running) ∧
    (x.needsThread = false → ∀ r, callsOf r s'.trace = callsOf r s.trace) := by
  rcases s with ⟨queue, ready, buffer, phase, trace⟩
  cases x with
  | arrive d =>
    simp only [Listener.step, Option.some.injEq] at h
    subst h
    exact ⟨by simp [NetState.running], fun _ => by simp [NetState.running], fun _ _ => rfl⟩
  | pollEvent =>
    simp only [Listener.step] at h
    split at h
    · simp only [Option.some.injEq] at h
      subst h
      exact ⟨by simp [NetState.running], fun _ => by simp [NetState.running], fun _ _ => rfl⟩
    · simp at h
  | pollTimeout =>
    simp only [Listener.step] at h
    split at h
    · simp only [Option.some.injEq] at h
      subst h
      exact ⟨by simp [NetState.running], fun _ => by simp [NetState.running], fun _ _ => rfl⟩
    · simp at h
  | pollSpurious =>
    simp only [Listener.step] at h
    split at h
    · simp only [Option.some.injEq] at h
      subst h
      exact ⟨by simp [NetState.running], fun _ => by simp [NetState.running], fun _ _ => rfl⟩
    · simp at h
  | pollError =>
    simp only [Listener.step] at h
    split at h
    · simp only [Option.some.injEq] at h
      subst h
      exact ⟨by simp [NetState.running], fun _ => by simp [NetState.running], fun _ _ => rfl⟩
    · simp at h
  | recv =>
    simp only [Listener.step] at h
    split at h
    · split at h
      · simp only [Option.some.injEq] at h
        subst h
        exact ⟨by simp [NetState.running], fun _ => by simp [NetState.running], fun _ _ => rfl⟩
      · simp only [Option.some.injEq] at h
        subst h
        refine ⟨by simp [NetState.running], fun _ => by simp [NetState.running], fun _ _ => ?_⟩
        simp [callsOf]
    · simp at h
  | recvError =>
    simp only [Listener.step] at h
    split at h
    · simp only [Option.some.injEq] at h
      subst h
      exact ⟨by simp [NetState.running], fun _ => by simp [NetState.running], fun _ _ => rfl⟩
    · simp at h
  | start r =>
    simp only [Listener.step] at h
    split at h
    · split at h
      · simp only [Option.some.injEq] at h
        subst h
        exact ⟨by simp [NetState.running, Label.needsThread], fun _ => by simp [NetState.running],
          fun hn => by simp [Label.needsThread] at hn⟩
      · simp at h
    · simp at h
  | finish r =>
    simp only [Listener.step] at h
    split at h
    · split at h
      · simp only [Option.some.injEq] at h
        subst h
        refine ⟨?_, fun hn => absurd rfl (hn r).1, fun _ _ => by simp [callsOf]⟩
        simp only [NetState.running]
        have := (List.erase_sublist (a := r) (l := ‹List Nat›)).length_le
        exact Nat.le_add_right_of_le (List.length_erase_le)
      · simp at h
    · simp at h
  | crash r =>
    simp only [Listener.step] at h
    split at h
    · split at h
      · simp only [Option.some.injEq] at h
        subst h
        refine ⟨?_, fun hn => absurd rfl (hn r).2, fun _ _ => by simp [callsOf]⟩
        simp only [NetState.running]
        exact Nat.le_add_right_of_le (List.length_erase_le)
      · simp at h
    · simp at h
  | join =>
    simp only [Listener.step] at h
    split at h
    · split at h
      · next hc =>
        simp only [Option.some.injEq] at h
        subst h
        refine ⟨?_, fun _ => ?_, fun _ _ => rfl⟩
        · simp only [NetState.running, afterEvent]
          split
          · next he =>
            split at he
            · simp at he
            · split at he <;> simp at he
          · simp
        · simp [NetState.running, hc.1]
      · simp at h
    · simp at h

theorem sum_set {α : Type} (f : α → Nat) {l : List α} {k : Nat} {x : α} (h : l[k]? = some x) (y : α) :
    ((l.set k y).map f).sum + f x = (l.map f).sum + f y := by
  obtain ⟨p, q, he, hset, -, -⟩ := split_at h
  rw [hset, he]
  simp
  omega

theorem Pool.threads_run (p p' : Pool) (ls : List PoolLabel) (h : p.run ls = some p') :
    p'.threads = p.threads := by
  induction ls generalizing p with
  | nil => simp only [Pool.run, Option.some.injEq] at h; exact h ▸ rfl
  | cons x ls ih =>
    simp only [Pool.run] at h
    cases hx : p.step x with
    | none => simp [hx] at h
    | some m =>
      simp only [hx] at h
      rw [ih m h]
      cases x with
      | launch l q => simp only [Pool.step, Option.some.injEq] at hx; exact hx ▸ rfl
      | «at» k x => obtain ⟨_, _, _, _, _, rfl⟩ := Pool.step_at hx; rfl

/-- **C61, bound.**  Never are more receiver calls in progress, over all instances, than the pool has
threads. -/
theorem C61_bound (n : Nat) (ls : List PoolLabel) (p : Pool) (h : (Pool.mk n []).run ls = some p) :
    p.running ≤ n := by
  refine (Pool.run_induction (Pool.mk n []) (fun _ p => p.running ≤ n) (by simp [Pool.running]) ?_) ls p h
  intro ls p x p' hr hp hx
  have ht := Pool.threads_run _ _ _ hr
  cases x with
  | launch l q =>
    simp only [Pool.step, Option.some.injEq] at hx
    subst hx
    simpa [Pool.running, NetState.running, Listener.init] using hp
  | «at» k x =>
    obtain ⟨m, s', hm, hs, hthread, rfl⟩ := Pool.step_at hx
    have h1 := (running_step m.listener m.state s' x hs).1
    have h2 := sum_set (fun m : Member => m.state.running) hm ⟨m.listener, s'⟩
    simp only [Pool.running] at hp hthread ⊢
    simp only at h2 ht
    split at h1
    · next hn =>
      have := hthread hn
      omega
    · omega

/-- **C61, a blocked pool.**  If receiver calls occupy all pool threads and do not return, no receiver of
any instance is called any more, whatever arrives: a receiver that blocks affects the instances of others.
With `threadcount = 1` one such call is enough. -/
theorem C61_blocked (p p' : Pool) (ls : List PoolLabel) (h : p.run ls = some p')
    (hfull : p.threads ≤ p.running) (hb : ∀ x ∈ ls, x.frees = false) (k : Nat) (m' : Member)
    (hm' : p'.members[k]? = some m') (r : Nat) :
    callsOf r m'.state.trace =
      match p.members[k]? with
      | some m => callsOf r m.state.trace
      | none => [] := by
  induction ls generalizing p with
  | nil =>
    simp only [Pool.run, Option.some.injEq] at h
    subst h
    rw [hm']
  | cons x ls ih =>
    simp only [Pool.run] at h
    cases hx : p.step x with
    | none => simp [hx] at h
    | some q =>
      simp only [hx] at h
      have hb' : ∀ y ∈ ls, y.frees = false := fun y hy => hb y (by simp [hy])
      have hbx := hb x (by simp)
      cases x with
      | launch l qd =>
        simp only [Pool.step, Option.some.injEq] at hx
        subst hx
        rw [ih _ h (by simpa [Pool.running, NetState.running, Listener.init] using hfull) hb']
        by_cases hlt : k < p.members.length
        · simp [List.getElem?_append_left hlt]
        · have hnone : p.members[k]? = none := List.getElem?_eq_none_iff.mpr (by omega)
          rw [List.getElem?_append_right (by omega), hnone]
          cases hk : k - p.members.length with
          | zero => simp [Listener.init, callsOf]
          | succ j => simp
      | «at» j x =>
        obtain ⟨m, s', hm, hs, hthread, rfl⟩ := Pool.step_at hx
        have hnt : x.needsThread = false := by
          cases hn : x.needsThread with
          | false => rfl
          | true => have := hthread hn; omega
        obtain ⟨-, h2, h3⟩ := running_step m.listener m.state s' x hs
        have h2 := h2 (by
          intro r'
          constructor <;> rintro rfl <;> simp [PoolLabel.frees] at hbx)
        have h4 := sum_set (fun m : Member => m.state.running) hm ⟨m.listener, s'⟩
        rw [ih _ h (by simp only [Pool.running] at hfull ⊢; simp only at h4; omega) hb']
        by_cases hjk : j = k
        · subst hjk
          simp only [List.getElem?_set_self (List.getElem?_eq_some_iff.mp hm).1, hm]
          exact h3 hnt r
        · simp only [List.getElem?_set_ne hjk]

/-- The listening thread waits, and nothing is notified. -/
def Member.quiet (m : Member) : Prop := m.state.phase = .polling ∧ m.state.ready = false

/-- An execution of the whole process without failures: at every instance only arrivals, timeouts and
work. -/
def PoolLabel.smooth : PoolLabel → Prop
  | .launch l _ => NoPanics l
  | .at _ x => Spec.internal x = true ∨ x = .pollTimeout ∨ ∃ d, x = .arrive d

theorem mem_labelsAt {k : Nat} {ls : List PoolLabel} {x : Label} (h : x ∈ labelsAt k ls) :
    .at k x ∈ ls := by
  induction ls with
  | nil => simp [labelsAt] at h
  | cons y ls ih =>
    cases y with
    | launch l q => simp only [labelsAt] at h; simp [ih h]
    | «at» j y =>
      simp only [labelsAt] at h
      split at h
      · next hj =>
        simp only [List.mem_cons] at h
        rcases h with rfl | h
        · simp [hj]
        · simp [ih h]
      · simp [ih h]

theorem mem_launched {l : Listener} {q : List Datagram} {ls : List PoolLabel}
    (h : (l, q) ∈ launched ls) : .launch l q ∈ ls := by
  induction ls with
  | nil => simp [launched] at h
  | cons y ls ih =>
    cases y with
    | launch l' q' =>
      simp only [launched, List.mem_cons, Prod.mk.injEq] at h
      rcases h with ⟨rfl, rfl⟩ | h
      · simp
      · simp [ih h]
    | «at» j y => simp only [launched] at h; simp [ih h]

theorem pool_healthy {n : Nat} {ls : List PoolLabel} {p : Pool} (h : (Pool.mk n []).run ls = some p)
    (hs : ∀ x ∈ ls, x.smooth) {k : Nat} {m : Member} (hm : p.members[k]? = some m) :
    Healthy m.state ∧ NoPanics m.listener := by
  obtain ⟨queued, h1, h2⟩ := C61 n ls p h k m hm
  have hl : NoPanics m.listener := hs _ (mem_launched (List.mem_of_getElem? h1))
  exact ⟨healthy_run _ hl _ _ _ (healthy_init _ _) h2
    (fun x hx => by simpa [PoolLabel.smooth] using hs _ (mem_labelsAt hx)), hl⟩

/-- **C61, no deadlock.**  On a pool with at least one thread, if no receiver panics and nothing fails: an
instance that has something to do can do it, or the pool is full and some receiver call can return. -/
theorem C61_progress (n : Nat) (hn : 1 ≤ n) (ls : List PoolLabel) (p : Pool)
    (h : (Pool.mk n []).run ls = some p) (hs : ∀ x ∈ ls, x.smooth) (k : Nat) (m : Member)
    (hm : p.members[k]? = some m) (hq : ¬ m.quiet) :
    (∃ x, Spec.internal x = true ∧ (p.step (.at k x)).isSome = true) ∨
    (p.running = n ∧ ∃ j r, (p.step (.at j (.finish r))).isSome = true) := by
  have ht : p.threads = n := Pool.threads_run _ _ _ h
  have hb := C61_bound n ls p h
  rcases C47_progress m.listener m.state (pool_healthy h hs hm).1 with hq' | ⟨x, s', hi, hx⟩
  · exact absurd hq' hq
  · by_cases hfull : x.needsThread = true ∧ p.threads ≤ p.running
    · right
      refine ⟨by omega, ?_⟩
      have hpos : 0 < (p.members.map fun m => m.state.running).sum := by
        have := hfull.2
        simp only [Pool.running] at this
        omega
      have : ∃ m' ∈ p.members, 0 < m'.state.running := by
        refine Classical.byContradiction fun hne => ?_
        have : (p.members.map fun m => m.state.running).sum = 0 := by
          rw [List.sum_eq_zero_iff_forall_eq_nat]
          intro x hx
          obtain ⟨m', hm', rfl⟩ := List.mem_map.mp hx
          exact Nat.eq_zero_of_not_pos fun h => hne ⟨m', hm', h⟩
        omega
      obtain ⟨m', hmem, hr⟩ := this
      obtain ⟨j, hj⟩ := List.getElem?_of_mem hmem
      unfold NetState.running at hr
      split at hr
      · next e pk a todo running panicked hph =>
        cases running with
        | nil => simp at hr
        | cons r running =>
          exact ⟨j, r, by simp [Pool.step, hj, Label.needsThread, Listener.step, hph]⟩
      · simp at hr
    · left
      exact ⟨x, hi, by simp [Pool.step, hm, hfull, hx]⟩

theorem pool_project {p p' : Pool} {ls : List PoolLabel} (h : p.run ls = some p') {k : Nat} {m : Member}
    (hm : p.members[k]? = some m) :
    ∃ s', p'.members[k]? = some ⟨m.listener, s'⟩ ∧ m.listener.run m.state (labelsAt k ls) = some s' := by
  induction ls generalizing p m with
  | nil =>
    simp only [Pool.run, Option.some.injEq] at h
    subst h
    exact ⟨m.state, hm, rfl⟩
  | cons x ls ih =>
    simp only [Pool.run] at h
    cases hx : p.step x with
    | none => simp [hx] at h
    | some q =>
      simp only [hx] at h
      cases x with
      | launch l qd =>
        simp only [Pool.step, Option.some.injEq] at hx
        subst hx
        exact ih h (by rw [List.getElem?_append_left (List.getElem?_eq_some_iff.mp hm).1]; exact hm)
      | «at» j x =>
        obtain ⟨m', s', hm', hs, -, rfl⟩ := Pool.step_at hx
        by_cases hjk : j = k
        · subst hjk
          rw [hm] at hm'
          cases hm'
          obtain ⟨s'', h1, h2⟩ := ih h (m := ⟨m.listener, s'⟩)
            (by simp [(List.getElem?_eq_some_iff.mp hm).1])
          exact ⟨s'', h1, by simp [labelsAt, Listener.run, hs, h2]⟩
        · obtain ⟨s'', h1, h2⟩ := ih h (m := m) (by simp [List.getElem?_set_ne hjk, hm])
          exact ⟨s'', h1, by simp [labelsAt, hjk, h2]⟩

/-- **C61, delivery.**  On a pool with at least one thread, in a process in which nothing fails: however
threads and pool are scheduled, only finitely many steps are possible without a new arrival; and when
none is possible any more, every instance has handed the datagrams it was notified of to all of its
receivers, in order, whatever the load on the other instances. -/
theorem C61_delivery (n : Nat) (hn : 1 ≤ n) (ls more : List PoolLabel) (p p' : Pool)
    (h : (Pool.mk n []).run ls = some p) (hs : ∀ x ∈ ls, x.smooth)
    (h' : p.run more = some p') (hi : ∀ x ∈ more, x.internal = true) :
    more.length ≤ (p.members.map fun m => work m.listener m.state).sum ∧
    ((∀ x, x.internal = true → p'.step x = none) → ∀ (k : Nat) (m : Member), p.members[k]? = some m →
      ∃ s', p'.members[k]? = some ⟨m.listener, s'⟩ ∧
        s'.queue = m.state.queue.drop (promised m.state) ∧
        takenIn s'.trace = takenIn m.state.trace ++
          (m.state.queue.take (promised m.state)).map (received m.listener.buffersize) ∧
        ∀ r, r < m.listener.receivers.length → callsOf r s'.trace = takenIn s'.trace) := by
  constructor
  · clear hn
    induction more generalizing p ls with
    | nil => simp
    | cons x more ih =>
      simp only [Pool.run] at h'
      cases hx : p.step x with
      | none => simp [hx] at h'
      | some q =>
        simp only [hx] at h'
        have hix := hi x (by simp)
        cases x with
        | launch => simp [PoolLabel.internal] at hix
        | «at» k x =>
          have hrun : (Pool.mk n []).run (ls ++ [.at k x]) = some q := by
            rw [Pool.run_append, h]
            simp [Pool.run, hx]
          have := ih (ls ++ [.at k x]) q hrun
            (by
              intro y hy
              rcases List.mem_append.mp hy with hy | hy
              · exact hs y hy
              · simp only [List.mem_singleton] at hy
                subst hy
                exact .inl hix) h' (fun y hy => hi y (by simp [hy]))
          obtain ⟨m, s', hm, hst, -, rfl⟩ := Pool.step_at hx
          have hw := (internal_step m.listener m.state s' x (pool_healthy h hs hm).1 hst hix).1
          have h4 := sum_set (fun m : Member => work m.listener m.state) hm ⟨m.listener, s'⟩
          simp only at h4 this
          simp only [List.length_cons]
          omega
  · intro hstuck k m hm
    obtain ⟨s', h1, h2⟩ := pool_project h' hm
    refine ⟨s', h1, ?_⟩
    obtain ⟨queued, g1, g2⟩ := C61 n ls p h k m hm
    have hl := (pool_healthy h hs hm).2
    have hrun : (Pool.mk n []).run (ls ++ more) = some p' := by
      rw [Pool.run_append, h]; exact h'
    have hs' : ∀ x ∈ ls ++ more, x.smooth := by
      intro y hy
      rcases List.mem_append.mp hy with hy | hy
      · exact hs y hy
      · have := hi y hy
        cases y with
        | launch => simp [PoolLabel.internal] at this
        | «at» j y => exact .inl this
    have hquiet : (Member.mk m.listener s').quiet := by
      refine Classical.byContradiction fun hq => ?_
      rcases C61_progress n hn _ p' hrun hs' k _ h1 hq with ⟨x, hx, hsome⟩ | ⟨-, j, r, hsome⟩
      · rw [hstuck (.at k x) hx] at hsome
        simp at hsome
      · rw [hstuck (.at j (.finish r)) rfl] at hsome
        simp at hsome
    have hexact := (C47_exact_partial m.listener hl queued (labelsAt k ls) m.state g2
      (fun x hx => by simpa [PoolLabel.smooth] using hs _ (mem_labelsAt hx))
      (labelsAt k more) s' (fun x hx => hi _ (mem_labelsAt hx)) h2).2
    apply hexact
    intro x hx
    obtain ⟨hp, hr⟩ := hquiet
    simp only at hp hr
    cases x <;> simp_all [Spec.internal, Listener.step]

/-- Receiver calls begun in these steps. -/
def starts : List Label → Nat
  | [] => 0
  | .start _ :: ls => starts ls + 1
  | _ :: ls => starts ls

/-- **C61, unhindered.**  Only beginning a receiver call ever waits for a pool thread.  While it hands over a packet and
until it has, an instance can do whatever it could do alone, if at each receiver call it begins a pool thread is
still free; and if it begins none, however full the pool is: it takes arrivals, polls, receives, and returns from
receivers.  (That the listening thread then goes on to its next packet, `.join`, is left out: in rayon that step can be
held up by a receiver of another instance, see `C89_buried`.) -/
theorem C61_unhindered (p : Pool) (k : Nat) (m : Member) (hm : p.members[k]? = some m) (ls : List Label)
    (s' : NetState) (h : m.listener.run m.state ls = some s') (hjoin : .join ∉ ls)
    (hfree : ∀ pre r post, ls = pre ++ .start r :: post → p.running + starts pre < p.threads) :
    p.run (ls.map (.at k)) = some { p with members := p.members.set k ⟨m.listener, s'⟩ } := by
  induction ls generalizing p m with
  | nil =>
    simp only [Listener.run, Option.some.injEq] at h
    subst h
    obtain ⟨hk, he⟩ := List.getElem?_eq_some_iff.mp hm
    simp only [List.map_nil, Pool.run, Option.some.injEq]
    have : p.members.set k ⟨m.listener, m.state⟩ = p.members := by
      rw [← he]
      exact List.set_getElem_self hk
    rw [this]
  | cons x ls ih =>
    simp only [Listener.run] at h
    cases hx : m.listener.step m.state x with
    | none => rw [hx] at h; simp at h
    | some s1 =>
      rw [hx] at h
      have hstep : p.step (.at k x) = some { p with members := p.members.set k ⟨m.listener, s1⟩ } := by
        simp only [Pool.step, hm, hx]
        have : ¬ (x.needsThread = true ∧ p.threads ≤ p.running) := by
          rintro ⟨h1, h2⟩
          cases x with
          | start r =>
            have := hfree [] r ls rfl
            simp only [starts] at this
            omega
          | _ => simp [Label.needsThread] at h1
        simp [this]
      simp only [List.map_cons, Pool.run, hstep]
      obtain ⟨hk, _⟩ := List.getElem?_eq_some_iff.mp hm
      have := ih { p with members := p.members.set k ⟨m.listener, s1⟩ } ⟨m.listener, s1⟩
        (by simp [List.getElem?_set_self hk]) h (fun hx => hjoin (List.mem_cons_of_mem _ hx)) (by
          intro pre r post he
          have h1 := hfree (x :: pre) r post (by rw [he]; rfl)
          have h2 := (running_step m.listener m.state s1 x hx).1
          have h3 := sum_set (fun m : Member => m.state.running) hm ⟨m.listener, s1⟩
          simp only [Pool.running] at h1 h2 h3 ⊢
          cases x <;> simp only [starts, Label.needsThread, if_true] at h1 h2 <;> simp_all <;> omega)
      rw [this]
      simp

/-! ## Concrete executions -/

/-- A receiver that never panics. -/
def quietReceiver : Receiver := ⟨fun _ _ => false, fun _ _ => []⟩

/-- Two instances on a pool with one thread: the receiver of the first occupies it. -/
def sharedPool : List PoolLabel :=
  [.launch ⟨[quietReceiver], 16⟩ [], .launch ⟨[quietReceiver], 16⟩ [],
   .at 0 (.arrive ⟨[1], .v4 1 1 1 1 1⟩), .at 1 (.arrive ⟨[2], .v4 1 1 1 1 1⟩),
   .at 0 .pollEvent, .at 0 .recv, .at 1 .pollEvent, .at 1 .recv, .at 0 (.start 0)]

example : ((Pool.mk 1 []).run sharedPool).isSome = true := by decide +kernel
example : ∀ x ∈ sharedPool, x.smooth := by
  have hq : NoPanics ⟨[quietReceiver], 16⟩ := by
    intro x hx p a
    simp only [List.mem_singleton] at hx
    subst hx
    rfl
  intro x hx
  simp only [sharedPool, List.mem_cons, List.not_mem_nil, or_false] at hx
  rcases hx with rfl | rfl | rfl | rfl | rfl | rfl | rfl | rfl | rfl
  · exact hq
  · exact hq
  all_goals simp [PoolLabel.smooth, Spec.internal]
/-- the second instance has to wait -/
example : ((Pool.mk 1 []).run (sharedPool ++ [.at 1 (.start 0)])).isNone = true := by decide +kernel
/-- with two threads it does not -/
example : ((Pool.mk 2 []).run (sharedPool ++ [.at 1 (.start 0)])).isSome = true := by decide +kernel
/-- and with one thread it goes on after the first call returned -/
example : ((Pool.mk 1 []).run (sharedPool ++ [.at 0 (.finish 0), .at 1 (.start 0)])).isSome = true := by
  decide +kernel

/-- While the first instance occupies the only thread, the second one can still be sent something. -/
example : ∃ p, (Pool.mk 1 []).run (sharedPool ++ [.at 1 (.arrive ⟨[3], .v4 1 1 1 1 1⟩)]) = some p := by
  rw [Pool.run_append]
  cases h : (Pool.mk 1 []).run sharedPool with
  | none => exact absurd h (by decide +kernel)
  | some p =>
    have hk : p.members[1]?.isSome = true := by
      have : (((Pool.mk 1 []).run sharedPool).bind fun p => p.members[1]?).isSome = true := by decide +kernel
      rw [h] at this
      exact this
    obtain ⟨m, hm⟩ := Option.isSome_iff_exists.mp hk
    exact ⟨_, C61_unhindered p 1 m hm [.arrive ⟨[3], .v4 1 1 1 1 1⟩] _ rfl (by simp) (by
      intro pre r post he
      match pre with
      | [] => simp at he
      | x :: pre => simp at he)⟩

/-! ## Cases for the theorems above -/

/-- `C61_delivery`: the rest of `sharedPool` on one thread. -/
example (p p' : Pool) (h : (Pool.mk 1 []).run sharedPool = some p)
    (h' : p.run [.at 0 (.finish 0), .at 0 .join, .at 1 (.start 0), .at 1 (.finish 0), .at 1 .join] = some p') :
    5 ≤ (p.members.map fun m => work m.listener m.state).sum :=
  (C61_delivery 1 (by decide) sharedPool _ p p' h (by
    have hq : NoPanics ⟨[quietReceiver], 16⟩ := by
      intro x hx p a
      simp only [List.mem_singleton] at hx
      subst hx
      rfl
    simp [sharedPool, PoolLabel.smooth, hq, internal]) h' (by simp [PoolLabel.internal, internal])).1

/-- `C61`, `C61_blocked`, `C61_progress`: the second instance of `sharedPool`, on one thread. -/
example (p : Pool) (h : (Pool.mk 1 []).run sharedPool = some p) (m : Member) (hm : p.members[1]? = some m) :=
  C61 1 sharedPool p h 1 m hm
example (p p' : Pool) (h : (Pool.mk 1 []).run sharedPool = some p)
    (h' : p.run [.at 1 (.arrive ⟨[3], .v4 1 1 1 1 1⟩)] = some p') (m' : Member) (hm' : p'.members[1]? = some m') :=
  C61_blocked p p' _ h' (by cases h; decide) (by simp [PoolLabel.frees]) 1 m' hm' 0
example (p : Pool) (h : (Pool.mk 1 []).run sharedPool = some p) (m : Member) (hm : p.members[1]? = some m) :=
  C61_progress 1 (by decide) sharedPool p h
    (by
      have hq : NoPanics ⟨[quietReceiver], 16⟩ := by
        intro x hx p a
        simp only [List.mem_singleton] at hx
        subst hx
        rfl
      intro x hx
      simp only [sharedPool, List.mem_cons, List.not_mem_nil, or_false] at hx
      rcases hx with rfl | rfl | rfl | rfl | rfl | rfl | rfl | rfl | rfl
      all_goals first | exact hq | trivial | (simp [PoolLabel.smooth, internal]))
    1 m hm (by cases h; cases hm; simp [Member.quiet])

end Ipv8
