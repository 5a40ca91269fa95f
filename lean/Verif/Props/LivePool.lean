import Verif.Props.Live
import Verif.Props.Pool
/-!
# C82: one thread pool for all instances, liveness

C79 assumes that the machine is fair to the listening thread and the pool for it.  Here the pool is shared by
all instances of the process and has a fixed number of threads; what is assumed is that receiver calls
return.
-/

namespace Ipv8
open Spec

/-! ## Specification -/

/-- The endless life of all instances of a process on a pool with `n` threads.  At each moment something
happens at one of them, or (`none`) nothing does. -/
structure PoolLife (n : Nat) where
  state : Nat → Pool
  label : Nat → Option PoolLabel
  start : state 0 = ⟨n, []⟩
  step : ∀ m, match label m with
    | some x => (state m).step x = some (state (m + 1))
    | none => state (m + 1) = state m

/-- What happened up to a moment. -/
def PoolLife.upTo {n : Nat} (P : PoolLife n) (m : Nat) : List PoolLabel :=
  (List.range m).filterMap P.label

/-- Every receiver call returns or panics: whenever a call could return, it sooner or later does. -/
def PoolLife.Returns {n : Nat} (P : PoolLife n) : Prop :=
  ∀ m k r, ((P.state m).step (.at k (.finish r))).isSome = true →
    ∃ m', m ≤ m' ∧ (P.label m' = some (.at k (.finish r)) ∨ P.label m' = some (.at k (.crash r)))

/-- The pool and the machine do not pass over instance `k` for ever: if again and again it could do
something, then it does something. -/
def PoolLife.FairTo {n : Nat} (P : PoolLife n) (k : Nat) : Prop :=
  ∀ m, (∀ m1, m ≤ m1 → ∃ m2 x, m1 ≤ m2 ∧ internal x = true ∧ ((P.state m2).step (.at k x)).isSome = true) →
    ∃ m' x, m ≤ m' ∧ internal x = true ∧ P.label m' = some (.at k x)

/-- At instance `k` nothing fails, no receiver panics and no notification comes without a datagram. -/
def PoolLife.SmoothAt {n : Nat} (P : PoolLife n) (k : Nat) : Prop :=
  ∀ m x, P.label m = some (.at k x) → internal x = true ∨ x = .pollTimeout ∨ ∃ d, x = .arrive d

/-- Datagrams for instance `k` never stop coming. -/
def PoolLife.EndlessAt {n : Nat} (P : PoolLife n) (k : Nat) : Prop :=
  ∀ m, ∃ m' d, m ≤ m' ∧ P.label m' = some (.at k (.arrive d))

/-- What there was for instance `k` to read up to a moment: what was in its socket when it was started, and
what arrived since. -/
def PoolLife.incoming {n : Nat} (P : PoolLife n) (k m : Nat) : List Datagram :=
  (((launched (P.upTo m))[k]?).map Prod.snd).getD [] ++ arrivals (labelsAt k (P.upTo m))

/-! ## Proofs -/

theorem PoolLife.upTo_succ {n : Nat} (P : PoolLife n) (m : Nat) :
    P.upTo (m + 1) = P.upTo m ++ (P.label m).toList := by
  unfold PoolLife.upTo
  rw [List.range_succ, List.filterMap_append]
  cases h : P.label m <;> simp [h]

theorem PoolLife.upTo_le {n : Nat} (P : PoolLife n) {a b : Nat} (h : a ≤ b) : P.upTo a <+: P.upTo b := by
  induction h with
  | refl => exact List.prefix_refl _
  | step _ ih => rw [P.upTo_succ]; exact ih.trans (List.prefix_append _ _)

theorem PoolLife.run {n : Nat} (P : PoolLife n) (m : Nat) :
    (Pool.mk n []).run (P.upTo m) = some (P.state m) := by
  induction m with
  | zero => simp [PoolLife.upTo, Pool.run, P.start]
  | succ m ih =>
    have hs := P.step m
    rw [P.upTo_succ, Pool.run_append, ih]
    cases hx : P.label m with
    | none => rw [hx] at hs; simp only at hs; simp [Pool.run, hs]
    | some x => rw [hx] at hs; simp only at hs; simp [Pool.run, hs]

theorem PoolLife.threads {n : Nat} (P : PoolLife n) (m : Nat) : (P.state m).threads = n :=
  Pool.threads_run _ _ _ (P.run m)

theorem PoolLife.bound {n : Nat} (P : PoolLife n) (m : Nat) : (P.state m).running ≤ n :=
  C61_bound n _ _ (P.run m)

/-- The next state of a member. -/
theorem PoolLife.member_step {n : Nat} (P : PoolLife n) (m k : Nat) (u : Member)
    (hu : (P.state m).members[k]? = some u) :
    (∃ x s', P.label m = some (.at k x) ∧ u.listener.step u.state x = some s' ∧
      (P.state (m + 1)).members[k]? = some ⟨u.listener, s'⟩) ∨
    ((∀ x, P.label m ≠ some (.at k x)) ∧ (P.state (m + 1)).members[k]? = some u) := by
  have hs := P.step m
  cases hx : P.label m with
  | none => rw [hx] at hs; simp only at hs; right; exact ⟨by simp, by rw [hs]; exact hu⟩
  | some y =>
    rw [hx] at hs
    cases y with
    | launch l q =>
      right
      simp only [Pool.step, Option.some.injEq] at hs
      rw [← hs]
      exact ⟨by simp, by rw [List.getElem?_append_left (List.getElem?_eq_some_iff.mp hu).1]; exact hu⟩
    | «at» j y =>
      obtain ⟨w, s', hw, hy, -, he⟩ := Pool.step_at hs
      rw [he]
      by_cases hjk : j = k
      · subst hjk
        rw [hu] at hw
        cases hw
        exact .inl ⟨y, s', rfl, hy, by simp [(List.getElem?_eq_some_iff.mp hu).1]⟩
      · exact .inr ⟨by simp [hjk], by simp [List.getElem?_set_ne hjk, hu]⟩

theorem PoolLife.member_le {n : Nat} (P : PoolLife n) (m k j : Nat) (u : Member)
    (hu : (P.state m).members[k]? = some u) :
    ∃ s, (P.state (m + j)).members[k]? = some ⟨u.listener, s⟩ := by
  induction j with
  | zero => exact ⟨u.state, hu⟩
  | succ j ih =>
    obtain ⟨s, hs⟩ := ih
    rcases P.member_step (m + j) k _ hs with ⟨x, s', -, -, h⟩ | ⟨-, h⟩
    · exact ⟨s', h⟩
    · exact ⟨s, h⟩

/-- Every member was started at some moment. -/
theorem PoolLife.launchedAt {n : Nat} (P : PoolLife n) (m k : Nat) (u : Member)
    (hu : (P.state m).members[k]? = some u) :
    ∃ m1 q, m1 ≤ m ∧ (P.state m1).members[k]? = some ⟨u.listener, u.listener.init q⟩ := by
  induction m generalizing u with
  | zero => rw [P.start] at hu; simp at hu
  | succ m ih =>
    cases hv : (P.state m).members[k]? with
    | some v =>
      obtain ⟨m1, q, h1, h2⟩ := ih v hv
      obtain ⟨s, hs⟩ := P.member_le m k 1 v hv
      rw [hu] at hs
      cases hs
      exact ⟨m1, q, by omega, h2⟩
    | none =>
      have hs := P.step m
      cases hx : P.label m with
      | none => rw [hx] at hs; simp only at hs; rw [hs, hv] at hu; cases hu
      | some y =>
        rw [hx] at hs
        cases y with
        | launch l q =>
          simp only [Pool.step, Option.some.injEq] at hs
          have hk := hu
          rw [← hs] at hk
          simp only at hk
          rw [List.getElem?_append_right (List.getElem?_eq_none_iff.mp hv)] at hk
          have h0 : k - (P.state m).members.length = 0 := by
            have := (List.getElem?_eq_some_iff.mp hk).1
            simp only [List.length_singleton] at this
            omega
          rw [h0] at hk
          simp only [List.getElem?_cons_zero, Option.some.injEq] at hk
          subst hk
          exact ⟨m + 1, q, Nat.le_refl _, hu⟩
        | «at» j y =>
          obtain ⟨w, s', hw, hy, -, he⟩ := Pool.step_at hs
          rw [he] at hu
          simp only at hu
          by_cases hjk : j = k
          · subst hjk; rw [hv] at hw; cases hw
          · rw [List.getElem?_set_ne hjk, hv] at hu; cases hu

/-- If an instance can do something from some moment on, the shared pool lets it again and again: a full pool
gets a free thread when a call returns. -/
theorem PoolLife.let {n : Nat} (P : PoolLife n) (hn : 1 ≤ n) (hret : P.Returns) (k m : Nat)
    (hen : ∀ j, m ≤ j → ∃ u x s', (P.state j).members[k]? = some u ∧ internal x = true ∧
      u.listener.step u.state x = some s') (m1 : Nat) (hm : m ≤ m1) :
    ∃ m2 x, m1 ≤ m2 ∧ internal x = true ∧ ((P.state m2).step (.at k x)).isSome = true := by
  have free : ∀ j, m ≤ j → (P.state j).running < n →
      ∃ x, internal x = true ∧ ((P.state j).step (.at k x)).isSome = true := by
    intro j hj hf
    obtain ⟨u, x, s', hu, hi, hx⟩ := hen j hj
    have ht := P.threads j
    exact ⟨x, hi, by simp only [Pool.step, hu]; rw [if_neg (by omega), hx]; rfl⟩
  by_cases hf : (P.state m1).running < n
  · obtain ⟨x, h1, h2⟩ := free m1 hm hf
    exact ⟨m1, x, Nat.le_refl _, h1, h2⟩
  · -- some call is in progress
    have hpos : 0 < ((P.state m1).members.map fun m => m.state.running).sum := by
      have : (P.state m1).running = ((P.state m1).members.map fun m => m.state.running).sum := rfl
      omega
    have : ∃ w ∈ (P.state m1).members, 0 < w.state.running := by
      refine Classical.byContradiction fun hne => ?_
      have : ((P.state m1).members.map fun m => m.state.running).sum = 0 := by
        rw [List.sum_eq_zero_iff_forall_eq_nat]
        intro x hx
        obtain ⟨w, hw, rfl⟩ := List.mem_map.mp hx
        exact Nat.eq_zero_of_not_pos fun h => hne ⟨w, hw, h⟩
      omega
    obtain ⟨w, hmem, hr⟩ := this
    obtain ⟨j, hj⟩ := List.getElem?_of_mem hmem
    have hfin : ∃ r, ((P.state m1).step (.at j (.finish r))).isSome = true := by
      unfold NetState.running at hr
      split at hr
      · next e pk a todo running panicked hph =>
        cases running with
        | nil => simp at hr
        | cons r running =>
          exact ⟨r, by simp [Pool.step, hj, Label.needsThread, Listener.step, hph]⟩
      · simp at hr
    obtain ⟨r, hfin⟩ := hfin
    obtain ⟨m', h1, h2⟩ := hret m1 j r hfin
    have hless : (P.state (m' + 1)).running < n := by
      have hst := P.step m'
      have hb := P.bound m'
      have hlt : ∀ x, x = .finish r ∨ x = .crash r → (P.state m').step (.at j x) = some (P.state (m' + 1)) →
          (P.state (m' + 1)).running < (P.state m').running := by
        intro x hx hs
        obtain ⟨v, s', hv, hvs, -, he⟩ := Pool.step_at hs
        have hsum := sum_set (fun m : Member => m.state.running) hv ⟨v.listener, s'⟩
        have hdec : s'.running < v.state.running := by
          rcases hx with rfl | rfl <;> simp only [Listener.step] at hvs <;> split at hvs
          · rename_i hph
            split at hvs
            · rename_i hmr
              simp only [Option.some.injEq] at hvs
              have := List.length_erase_of_mem hmr
              have := List.length_pos_of_mem hmr
              rw [← hvs]
              simp only [NetState.running, hph]
              omega
            · cases hvs
          · cases hvs
          · rename_i hph
            split at hvs
            · rename_i hmr
              simp only [Option.some.injEq] at hvs
              have := List.length_erase_of_mem hmr.1
              have := List.length_pos_of_mem hmr.1
              rw [← hvs]
              simp only [NetState.running, hph]
              omega
            · cases hvs
          · cases hvs
        rw [he]
        simp only [Pool.running] at *
        omega
      rcases h2 with h2 | h2 <;> rw [h2] at hst <;> simp only at hst
      · have := hlt _ (.inl rfl) hst; omega
      · have := hlt _ (.inr rfl) hst; omega
    obtain ⟨x, g1, g2⟩ := free (m' + 1) (by omega) hless
    exact ⟨m' + 1, x, by omega, g1, g2⟩

/-- What a step of the process is for instance `k`. -/
def atMember (k : Nat) : PoolLabel → Option Label
  | .at j x => if j = k then some x else none
  | .launch _ _ => none

/-- The life of the process, seen from instance `k`. -/
theorem PoolLife.view {n : Nat} (P : PoolLife n) (hn : 1 ≤ n) (hret : P.Returns) (m1 k : Nat) (l : Listener)
    (q : List Datagram) (h1 : (P.state m1).members[k]? = some ⟨l, l.init q⟩) (hf : P.FairTo k)
    (hs : P.SmoothAt k) :
    ∃ E : Execution l, E.Fair ∧ E.Smooth ∧
      (∀ j, (P.state (m1 + j)).members[k]? = some ⟨l, E.state j⟩) ∧
      (∀ j, E.label j = (P.label (m1 + j)).bind (atMember k)) := by
  have hmem : ∀ j, ∃ s, (P.state (m1 + j)).members[k]? = some ⟨l, s⟩ := fun j => P.member_le m1 k j _ h1
  let st : Nat → NetState := fun j => Classical.choose (hmem j)
  have hst : ∀ j, (P.state (m1 + j)).members[k]? = some ⟨l, st j⟩ := fun j => Classical.choose_spec (hmem j)
  let lab : Nat → Option Label := fun j => (P.label (m1 + j)).bind (atMember k)
  have hat : ∀ j x, lab j = some x ↔ P.label (m1 + j) = some (.at k x) := by
    intro j x
    simp only [lab]
    cases hx : P.label (m1 + j) with
    | none => simp
    | some y =>
      cases y with
      | launch l q => simp [atMember]
      | «at» i y =>
        by_cases hik : i = k
        · simp [atMember, hik]
        · simp [atMember, hik]
  have hstep : ∀ j, match lab j with
      | some x => l.step (st j) x = some (st (j + 1))
      | none => st (j + 1) = st j := by
    intro j
    have hj1 := hst (j + 1)
    rcases P.member_step (m1 + j) k _ (hst j) with ⟨x, s', g1, g2, g3⟩ | ⟨g1, g2⟩
    · rw [(hat j x).mpr g1]
      show l.step (st j) x = some (st (j + 1))
      rw [← Nat.add_assoc, g3] at hj1
      simp only [Option.some.injEq, Member.mk.injEq, true_and] at hj1
      rw [← hj1]
      exact g2
    · have : lab j = none := by
        cases hl : lab j with
        | none => rfl
        | some x => exact absurd ((hat j x).mp hl) (g1 x)
      rw [this]
      show st (j + 1) = st j
      rw [← Nat.add_assoc, g2] at hj1
      simp only [Option.some.injEq, Member.mk.injEq, true_and] at hj1
      exact hj1.symm
  have h0 : st 0 = l.init q := by
    have := hst 0
    rw [Nat.add_zero, h1] at this
    simp only [Option.some.injEq, Member.mk.injEq, true_and] at this
    exact this.symm
  refine ⟨⟨q, st, lab, h0, hstep⟩, ?_, ?_, hst, fun _ => rfl⟩
  · intro j hj
    obtain ⟨m', x, a1, a2, a3⟩ := hf (m1 + j) (P.let hn hret k (m1 + j) (by
      intro i hi
      obtain ⟨x, b1, b2⟩ := hj (i - m1) (by omega)
      obtain ⟨s', b2⟩ := Option.isSome_iff_exists.mp b2
      have := hst (i - m1)
      rw [show m1 + (i - m1) = i by omega] at this
      exact ⟨_, x, s', this, b1, b2⟩))
    exact ⟨m' - m1, x, by omega, a2, (hat _ _).mpr (by rw [show m1 + (m' - m1) = m' by omega]; exact a3)⟩
  · intro j x hx
    exact hs _ x ((hat j x).mp hx)

theorem PoolLife.incoming_le {n : Nat} (P : PoolLife n) (k : Nat) {a b : Nat} (h : a ≤ b)
    (u : Member) (hu : (P.state a).members[k]? = some u) : P.incoming k a <+: P.incoming k b := by
  obtain ⟨w, hw⟩ := P.upTo_le h
  obtain ⟨q, h1, -⟩ := C61 n _ _ (P.run a) k u hu
  unfold PoolLife.incoming
  rw [← hw, launched_append, labelsAt_append, arrivals_append,
    List.getElem?_append_left (List.getElem?_eq_some_iff.mp h1).1, ← List.append_assoc]
  exact List.prefix_append _ _

/-- What a member has done with its input. -/
theorem PoolLife.facts {n : Nat} (P : PoolLife n) (m k : Nat) (u : Member)
    (hu : (P.state m).members[k]? = some u) :
    ∃ handled, P.incoming k m = handled ++ u.state.queue ∧
      takenIn u.state.trace = handled.map (received u.listener.buffersize) ∧
      (idle u.state.phase = true → ∀ r, r < u.listener.receivers.length →
        callsOf r u.state.trace = handled.map (received u.listener.buffersize)) := by
  obtain ⟨q, h1, h2⟩ := C61 n _ _ (P.run m) k u hu
  obtain ⟨handled, g1, g2, g3⟩ := C43 _ _ _ _ h2
  exact ⟨handled, by simp only [PoolLife.incoming, h1]; exact g1, g2, g3⟩

theorem PoolLife.gets {n : Nat} (P : PoolLife n) (m1 k : Nat) (l : Listener) (hl : NoPanics l)
    (E : Execution l) (hf : E.Fair) (hs : E.Smooth)
    (hE : ∀ j, (P.state (m1 + j)).members[k]? = some ⟨l, E.state j⟩)
    (m i : Nat) (u : Member) (hu : (P.state m).members[k]? = some u) (d : Datagram)
    (hd : (P.incoming k m)[i]? = some d)
    (j : Nat) (hj : i < (takenIn (E.state j).trace).length) :
    ∃ m' s, m ≤ m' ∧ m1 + j ≤ m' ∧ (P.state m').members[k]? = some ⟨l, s⟩ ∧
      ∀ r, r < l.receivers.length → (callsOf r s.trace)[i]? = some (received l.buffersize d) := by
  obtain ⟨m', h1, h2, h3⟩ := E.idles hl hf hs (max m j)
  refine ⟨m1 + m', E.state m', by omega, by omega, hE m', ?_⟩
  intro r hr
  obtain ⟨handled, g1, g2, g3⟩ := P.facts _ k _ (hE m')
  simp only at g1 g2 g3
  have hlen : i < handled.length := by
    have : (takenIn (E.state j).trace).length ≤ (takenIn (E.state m').trace).length :=
      takenIn_le (E.trace_le (by omega))
    rw [g2, List.length_map] at this
    omega
  have harr : (P.incoming k (m1 + m'))[i]? = some d := by
    obtain ⟨w, hw⟩ := P.incoming_le k (show m ≤ m1 + m' by omega) u hu
    rw [← hw, List.getElem?_append_left (List.getElem?_eq_some_iff.mp hd).1]
    exact hd
  rw [g1, List.getElem?_append_left hlen] at harr
  rw [g3 h2 r hr, List.getElem?_map, harr]
  rfl

/-! ## The theorems -/

/-- C82. One thread pool with a single thread is enough for any number of instances: if receiver calls
return (or panic) and the pool does not pass over an instance for ever, then, as long as datagrams for that
instance keep coming, every single one of them sooner or later reaches every one of its receivers, in order.
The other instances may be as busy as they like, fail and panic. -/
theorem C82 (n : Nat) (hn : 1 ≤ n) (P : PoolLife n) (hret : P.Returns) (m k : Nat) (u : Member)
    (hu : (P.state m).members[k]? = some u) (hl : NoPanics u.listener) (hf : P.FairTo k)
    (hs : P.SmoothAt k) (he : P.EndlessAt k) (i : Nat) (d : Datagram)
    (hd : (P.incoming k m)[i]? = some d) :
    ∃ m' s, m ≤ m' ∧ (P.state m').members[k]? = some ⟨u.listener, s⟩ ∧
      ∀ r, r < u.listener.receivers.length →
        (callsOf r s.trace)[i]? = some (received u.listener.buffersize d) := by
  obtain ⟨m1, q, h1, h2⟩ := P.launchedAt m k u hu
  obtain ⟨E, e1, e2, e3, e4⟩ := P.view hn hret m1 k u.listener q h2 hf hs
  have hend : E.Endless := by
    intro j
    obtain ⟨m', d', g1, g2⟩ := he (m1 + j)
    exact ⟨m' - m1, d', by omega, by rw [e4, show m1 + (m' - m1) = m' by omega, g2]; simp [atMember]⟩
  have key : ∀ j, ∃ n', j ≤ (takenIn (E.state n').trace).length := by
    intro j
    induction j with
    | zero => exact ⟨0, Nat.zero_le _⟩
    | succ j ih =>
      obtain ⟨n', hn'⟩ := ih
      obtain ⟨a, d, h1, h2⟩ := hend n'
      have hst := E.step a
      rw [h2] at hst
      simp only [Listener.step, Option.some.injEq] at hst
      obtain ⟨m', h3, h4⟩ := E.takes hl e1 e2 (a + 1) (.inl (by rw [← hst]))
      have := takenIn_le (E.trace_le (show n' ≤ a + 1 by omega))
      exact ⟨m', by omega⟩
  obtain ⟨j, hj⟩ := key (i + 1)
  obtain ⟨m', s, g1, -, g2, g3⟩ := P.gets m1 k _ hl E e1 e2 e3 m i u hu d hd j (by omega)
  exact ⟨m', s, g1, g2, g3⟩

/-- C82. A datagram that arrives at an instance whose socket is empty reaches all its receivers, whether or not
anything arrives after it, and whatever the load on the pool. -/
theorem C82_alone (n : Nat) (hn : 1 ≤ n) (P : PoolLife n) (hret : P.Returns) (m k : Nat) (u : Member)
    (hu : (P.state m).members[k]? = some u) (hl : NoPanics u.listener) (hf : P.FairTo k)
    (hs : P.SmoothAt k) (d : Datagram) (ha : P.label m = some (.at k (.arrive d)))
    (hq : u.state.queue = []) :
    ∃ m' s, m < m' ∧ (P.state m').members[k]? = some ⟨u.listener, s⟩ ∧
      ∀ r, r < u.listener.receivers.length →
        (callsOf r s.trace)[(P.incoming k m).length]? = some (received u.listener.buffersize d) := by
  obtain ⟨m1, q, h1, h2⟩ := P.launchedAt m k u hu
  obtain ⟨E, e1, e2, e3, e4⟩ := P.view hn hret m1 k u.listener q h2 hf hs
  obtain ⟨j, rfl⟩ : ∃ j, m = m1 + j := ⟨m - m1, by omega⟩
  have hlab : E.label j = some (.arrive d) := by rw [e4, ha]; simp [atMember]
  have hst := E.step j
  rw [hlab] at hst
  simp only [Listener.step, Option.some.injEq] at hst
  obtain ⟨m', g1, g2⟩ := E.takes hl e1 e2 (j + 1) (.inl (by rw [← hst]))
  have huE : u.state = E.state j := congrArg Member.state (Option.some.inj (hu.symm.trans (e3 j)))
  obtain ⟨handled, c1, c2, -⟩ := P.facts _ k _ hu
  rw [huE] at c1 c2 hq
  rw [hq, List.append_nil] at c1
  have hlen : (P.incoming k (m1 + j)).length = (takenIn (E.state (j + 1)).trace).length := by
    rw [c1, ← hst]
    simp only
    rw [c2, List.length_map]
  have hd : (P.incoming k (m1 + j + 1))[(P.incoming k (m1 + j)).length]? = some d := by
    have : P.incoming k (m1 + j + 1) = P.incoming k (m1 + j) ++ [d] := by
      unfold PoolLife.incoming
      rw [P.upTo_succ, ha, launched_append, labelsAt_append, arrivals_append]
      simp [launched, labelsAt, arrivals]
    rw [this]
    simp
  obtain ⟨m'', s, a1, a2, a3, a4⟩ := P.gets m1 k _ hl E e1 e2 e3 (m1 + j + 1) _ _ (e3 (j + 1)) d hd m' (by omega)
  exact ⟨m'', s, by omega, a3, a4⟩

/-- C82. What an instance took out of its socket is handed to all its receivers. -/
theorem C82_taken (n : Nat) (hn : 1 ≤ n) (P : PoolLife n) (hret : P.Returns) (m k : Nat) (u : Member)
    (hu : (P.state m).members[k]? = some u) (hl : NoPanics u.listener) (hf : P.FairTo k)
    (hs : P.SmoothAt k) :
    ∃ m' s, m ≤ m' ∧ (P.state m').members[k]? = some ⟨u.listener, s⟩ ∧
      ∀ r, r < u.listener.receivers.length → callsOf r s.trace = takenIn u.state.trace := by
  obtain ⟨m1, q, h1, h2⟩ := P.launchedAt m k u hu
  obtain ⟨E, e1, e2, e3, e4⟩ := P.view hn hret m1 k u.listener q h2 hf hs
  obtain ⟨j, rfl⟩ : ∃ j, m = m1 + j := ⟨m - m1, by omega⟩
  have huE : u.state = E.state j := congrArg Member.state (Option.some.inj (hu.symm.trans (e3 j)))
  rw [huE]
  obtain ⟨m', a1, a2, a3⟩ := E.idles hl e1 e2 j
  refine ⟨m1 + m', _, by omega, e3 m', ?_⟩
  intro r hr
  obtain ⟨handled, -, c2, c3⟩ := P.facts _ k _ (e3 m')
  simp only at c2 c3
  rw [c3 a2 r hr, ← c2, a3]

/-! ## A concrete case -/

/-- Two instances on a pool with one thread, at step `a` and step `b` of their rounds. -/
def duo (a b : NetState) : Pool := ⟨1, [⟨liveListener, a⟩, ⟨liveListener, b⟩]⟩

/-- A round: both get a datagram; the second has to wait for the pool while the receiver of the first runs. -/
def duoState (k j : Nat) : Pool :=
  match j with
  | 0 => duo (liveState k 0) (liveState k 0)
  | 1 => duo (liveState k 1) (liveState k 0)
  | 2 => duo (liveState k 1) (liveState k 1)
  | 3 => duo (liveState k 2) (liveState k 1)
  | 4 => duo (liveState k 2) (liveState k 2)
  | 5 => duo (liveState k 3) (liveState k 2)
  | 6 => duo (liveState k 3) (liveState k 3)
  | 7 => duo (liveState k 4) (liveState k 3)
  | 8 => duo (liveState k 5) (liveState k 3)
  | 9 => duo (liveState k 5) (liveState k 4)
  | 10 => duo (liveState k 5) (liveState k 5)
  | _ => duo (liveState (k + 1) 0) (liveState k 5)

def duoLabel : Nat → PoolLabel
  | 0 => .at 0 (.arrive liveDatagram)
  | 1 => .at 1 (.arrive liveDatagram)
  | 2 => .at 0 .pollEvent
  | 3 => .at 1 .pollEvent
  | 4 => .at 0 .recv
  | 5 => .at 1 .recv
  | 6 => .at 0 (.start 0)
  | 7 => .at 0 (.finish 0)
  | 8 => .at 1 (.start 0)
  | 9 => .at 1 (.finish 0)
  | 10 => .at 0 .join
  | _ => .at 1 .join

theorem duo_first {a b a' : NetState} {x : Label} (h : liveListener.step a x = some a')
    (hf : x.needsThread = false ∨ a.running + b.running = 0) : (duo a b).step (.at 0 x) = some (duo a' b) := by
  simp only [Pool.step, duo, List.getElem?_cons_zero, Pool.running, List.map_cons, List.map_nil,
    List.sum_cons, List.sum_nil]
  rw [if_neg, h]
  · rfl
  · rcases hf with hf | hf
    · simp [hf]
    · omega

theorem duo_second {a b b' : NetState} {x : Label} (h : liveListener.step b x = some b')
    (hf : x.needsThread = false ∨ a.running + b.running = 0) : (duo a b).step (.at 1 x) = some (duo a b') := by
  simp only [Pool.step, duo, List.getElem?_cons_succ, List.getElem?_cons_zero, Pool.running, List.map_cons,
    List.map_nil, List.sum_cons, List.sum_nil]
  rw [if_neg, h]
  · rfl
  · rcases hf with hf | hf
    · simp [hf]
    · omega

theorem duo_step (k j : Nat) (hj : j < 12) :
    (duoState k j).step (duoLabel j) = some (if j = 11 then duoState (k + 1) 0 else duoState k (j + 1)) := by
  have h := live_step k
  match j, hj with
  | 0, _ => exact duo_first (h 0 (by omega)) (.inl rfl)
  | 1, _ => exact duo_second (h 0 (by omega)) (.inl rfl)
  | 2, _ => exact duo_first (h 1 (by omega)) (.inl rfl)
  | 3, _ => exact duo_second (h 1 (by omega)) (.inl rfl)
  | 4, _ => exact duo_first (h 2 (by omega)) (.inl rfl)
  | 5, _ => exact duo_second (h 2 (by omega)) (.inl rfl)
  | 6, _ => exact duo_first (h 3 (by omega)) (.inr rfl)
  | 7, _ => exact duo_first (h 4 (by omega)) (.inl rfl)
  | 8, _ => exact duo_second (h 3 (by omega)) (.inr rfl)
  | 9, _ => exact duo_second (h 4 (by omega)) (.inl rfl)
  | 10, _ => exact duo_first (h 5 (by omega)) (.inl rfl)
  | 11, _ => exact duo_second (h 5 (by omega)) (.inl rfl)

/-- Both instances live for ever on one pool thread. -/
def duoLife : PoolLife 1 where
  state m := match m with
    | 0 => ⟨1, []⟩
    | 1 => ⟨1, [⟨liveListener, liveListener.init []⟩]⟩
    | m + 2 => duoState (m / 12) (m % 12)
  label m := match m with
    | 0 => some (.launch liveListener [])
    | 1 => some (.launch liveListener [])
    | m + 2 => some (duoLabel (m % 12))
  start := rfl
  step m := by
    match m with
    | 0 => rfl
    | 1 => rfl
    | m + 2 =>
      show (duoState (m / 12) (m % 12)).step (duoLabel (m % 12)) = some (duoState ((m + 1) / 12) ((m + 1) % 12))
      rw [duo_step _ _ (Nat.mod_lt _ (by omega))]
      by_cases h : m % 12 = 11
      · rw [if_pos h, show (m + 1) / 12 = m / 12 + 1 by omega, show (m + 1) % 12 = 0 by omega]
      · rw [if_neg h, show (m + 1) / 12 = m / 12 by omega, show (m + 1) % 12 = m % 12 + 1 by omega]

theorem duo_label (k j : Nat) (hj : j < 12) : duoLife.label (12 * k + j + 2) = some (duoLabel j) := by
  show some (duoLabel ((12 * k + j) % 12)) = _
  rw [show (12 * k + j) % 12 = j by omega]

/-- The hypotheses of `C82` and `C82_taken` can be met for both instances, and so can those of `C82_alone`. -/
example : duoLife.Returns ∧ ∀ k, k < 2 → duoLife.FairTo k ∧ duoLife.SmoothAt k ∧ duoLife.EndlessAt k ∧
    (∃ u, (duoLife.state 2).members[k]? = some u ∧ NoPanics u.listener ∧ u.listener.receivers.length = 1 ∧
      u.state.queue = []) ∧ (duoLife.incoming k 30)[1]? = some liveDatagram := by
  refine ⟨?_, ?_⟩
  · intro m k r h
    have hr : k < 2 ∧ r = 0 := by
      obtain ⟨p', hp⟩ := Option.isSome_iff_exists.mp h
      obtain ⟨u, s', hu, hs, -⟩ := Pool.step_at hp
      have hphase : ∃ e pk a t run pn, u.state.phase = .dispatch e pk a t run pn ∧ r ∈ run := by
        simp only [Listener.step] at hs
        split at hs
        · rename_i hph
          split at hs
          · rename_i hm; exact ⟨_, _, _, _, _, _, hph, hm⟩
          · cases hs
        · cases hs
      obtain ⟨e, pk, a, t, run, pn, hph, hm⟩ := hphase
      have hlive : ∃ i j, u.state = liveState i j ∧ k < 2 := by
        match m with
        | 0 => simp [duoLife] at hu
        | 1 =>
          have hk : k = 0 := by
            have := (List.getElem?_eq_some_iff.mp hu).1
            simp only [duoLife, List.length_singleton] at this
            omega
          subst hk
          have hu : some (Member.mk liveListener (liveListener.init [])) = some u := hu
          cases hu
          exact ⟨0, 0, rfl, by omega⟩
        | m + 2 =>
          have hu : (duoState (m / 12) (m % 12)).members[k]? = some u := hu
          have hlt : m % 12 < 12 := Nat.mod_lt _ (by omega)
          have hd : ∃ i j i' j', duoState (m / 12) (m % 12) = duo (liveState i j) (liveState i' j') := by
            generalize m / 12 = c at *
            match m % 12, hlt with
            | 0, _ => exact ⟨_, _, _, _, rfl⟩
            | 1, _ => exact ⟨_, _, _, _, rfl⟩
            | 2, _ => exact ⟨_, _, _, _, rfl⟩
            | 3, _ => exact ⟨_, _, _, _, rfl⟩
            | 4, _ => exact ⟨_, _, _, _, rfl⟩
            | 5, _ => exact ⟨_, _, _, _, rfl⟩
            | 6, _ => exact ⟨_, _, _, _, rfl⟩
            | 7, _ => exact ⟨_, _, _, _, rfl⟩
            | 8, _ => exact ⟨_, _, _, _, rfl⟩
            | 9, _ => exact ⟨_, _, _, _, rfl⟩
            | 10, _ => exact ⟨_, _, _, _, rfl⟩
            | 11, _ => exact ⟨_, _, _, _, rfl⟩
          obtain ⟨i, j, i', j', hd⟩ := hd
          rw [hd] at hu
          match k with
          | 0 => cases hu; exact ⟨i, j, rfl, by omega⟩
          | 1 => cases hu; exact ⟨i', j', rfl, by omega⟩
          | k + 2 => simp [duo] at hu
      obtain ⟨i, j, hj, hk⟩ := hlive
      refine ⟨hk, ?_⟩
      rw [hj] at hph
      unfold liveState at hph
      simp only at hph
      split at hph <;> cases hph <;> simp_all
    obtain ⟨hk, rfl⟩ := hr
    match k, hk with
    | 0, _ => exact ⟨12 * m + 7 + 2, by omega, .inl (duo_label m 7 (by omega))⟩
    | 1, _ => exact ⟨12 * m + 9 + 2, by omega, .inl (duo_label m 9 (by omega))⟩
  · intro k hk
    refine ⟨?_, ?_, ?_, ?_, ?_⟩
    · intro m _
      match k, hk with
      | 0, _ => exact ⟨12 * m + 2 + 2, .pollEvent, by omega, rfl, duo_label m 2 (by omega)⟩
      | 1, _ => exact ⟨12 * m + 3 + 2, .pollEvent, by omega, rfl, duo_label m 3 (by omega)⟩
    · intro m x hx
      match m with
      | 0 => cases hx
      | 1 => cases hx
      | m + 2 =>
        have hx : duoLabel (m % 12) = .at k x := Option.some.inj hx
        have hlt : m % 12 < 12 := Nat.mod_lt _ (by omega)
        match hm : m % 12, hlt with
        | 0, _ => rw [hm] at hx; cases hx; exact .inr (.inr ⟨_, rfl⟩)
        | 1, _ => rw [hm] at hx; cases hx; exact .inr (.inr ⟨_, rfl⟩)
        | 2, _ => rw [hm] at hx; cases hx; exact .inl rfl
        | 3, _ => rw [hm] at hx; cases hx; exact .inl rfl
        | 4, _ => rw [hm] at hx; cases hx; exact .inl rfl
        | 5, _ => rw [hm] at hx; cases hx; exact .inl rfl
        | 6, _ => rw [hm] at hx; cases hx; exact .inl rfl
        | 7, _ => rw [hm] at hx; cases hx; exact .inl rfl
        | 8, _ => rw [hm] at hx; cases hx; exact .inl rfl
        | 9, _ => rw [hm] at hx; cases hx; exact .inl rfl
        | 10, _ => rw [hm] at hx; cases hx; exact .inl rfl
        | 11, _ => rw [hm] at hx; cases hx; exact .inl rfl
    · intro m
      match k, hk with
      | 0, _ => exact ⟨12 * m + 0 + 2, liveDatagram, by omega, duo_label m 0 (by omega)⟩
      | 1, _ => exact ⟨12 * m + 1 + 2, liveDatagram, by omega, duo_label m 1 (by omega)⟩
    · match k, hk with
      | 0, _ => exact ⟨_, rfl, by simp [NoPanics, liveListener], rfl, rfl⟩
      | 1, _ => exact ⟨_, rfl, by simp [NoPanics, liveListener], rfl, rfl⟩
    · match k, hk with
      | 0, _ => rfl
      | 1, _ => rfl

end Ipv8
