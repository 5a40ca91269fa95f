import Verif.Props.Live
import Verif.Props.Workers
/-!
# C90: the threads of the pool, liveness

C89 shows that the pool is never stuck and that what it does is finite for every packet.  But waits get buried, and other
instances keep the pool busy: does every packet get through?
-/

namespace Ipv8
open Spec

/-! ## Specification -/

/-- The endless life of all instances of a process on a pool with `n` threads.  At each moment one thread makes a step,
or (`none`) nothing happens. -/
structure WorkersLife (n : Nat) where
  state : Nat → Workers
  label : Nat → Option TLabel
  start : state 0 = ⟨n, [], []⟩
  step : ∀ m, match label m with
    | some x => (state m).step x = some (state (m + 1))
    | none => state (m + 1) = state m

/-- What happened up to a moment. -/
def WorkersLife.upTo {n : Nat} (L : WorkersLife n) (m : Nat) : List TLabel := (List.range m).filterMap L.label

/-- The pool thread that makes a step. -/
def TLabel.thread : TLabel → Option Nat
  | .launch _ _ => none
  | .io _ _ => none
  | .enter w _ => some w
  | .take w _ _ _ => some w
  | .split w _ _ _ => some w
  | .begin w _ _ _ => some w
  | .call w _ _ _ => some w
  | .finish w _ _ _ => some w
  | .crash w _ _ _ => some w
  | .done w _ _ => some w
  | .resume w _ _ _ => some w
  | .exit w _ => some w

/-- If again and again such a step could be made, then one is made. -/
def WorkersLife.Served {n : Nat} (L : WorkersLife n) (such : TLabel → Prop) : Prop :=
  ∀ m, (∀ m1, m ≤ m1 → ∃ m2 x, m1 ≤ m2 ∧ such x ∧ ((L.state m2).step x).isSome = true) →
    ∃ m' x, m ≤ m' ∧ such x ∧ L.label m' = some x

/-- The pool is fair. -/
structure WorkersLife.Fair {n : Nat} (L : WorkersLife n) : Prop where
  /-- a thread that works on a range of receivers goes on; if it is inside of a receiver call, the call returns or
  panics -/
  works : ∀ m w f, (L.state m).top w = some f → f.waits = false →
    ∃ m' x, m ≤ m' ∧ L.label m' = some x ∧ x.thread = some w
  /-- a thread does not wait for ever for something that is done, if again and again it looks (rayon looks whenever it
  has executed another job during the wait) -/
  resumes : ∀ w k mid hi, L.Served (· = .resume w k mid hi)
  exits : ∀ w k, L.Served (· = .exit w k)
  /-- a job is not passed over for ever -/
  takes : ∀ k lo hi, L.Served fun x => ∃ w, x = .take w k lo hi
  enters : ∀ k, L.Served fun x => ∃ w, x = .enter w k

/-- From some moment on no instance is started any more. -/
def WorkersLife.Settled {n : Nat} (L : WorkersLife n) : Prop :=
  ∃ m0, ∀ m l q, m0 ≤ m → L.label m ≠ some (.launch l q)

/-- The machine does not pass over listening thread `k` for ever when it could go on. -/
def WorkersLife.FairTo {n : Nat} (L : WorkersLife n) (k : Nat) : Prop :=
  L.Served fun x => x = .io k .pollEvent ∨ x = .io k .recv

/-- At instance `k` nothing fails and no notification comes without a datagram. -/
def WorkersLife.SmoothAt {n : Nat} (L : WorkersLife n) (k : Nat) : Prop :=
  ∀ m x, L.label m = some (.io k x) → x = .pollEvent ∨ x = .recv ∨ x = .pollTimeout ∨ ∃ d, x = .arrive d

/-- Datagrams for instance `k` never stop coming. -/
def WorkersLife.EndlessAt {n : Nat} (L : WorkersLife n) (k : Nat) : Prop :=
  ∀ m, ∃ m' d, m ≤ m' ∧ L.label m' = some (.io k (.arrive d))

/-- What there was for instance `k` to read up to a moment: what was in its socket when it was started, and
what arrived since. -/
def WorkersLife.incoming {n : Nat} (L : WorkersLife n) (k m : Nat) : List Datagram :=
  (((launches (L.upTo m))[k]?).map Prod.snd).getD [] ++ rarrivals (jobsAt k (L.upTo m))

/-! ## Sequences -/

theorem comes_to_rest (f : Nat → Nat) (m0 : Nat) (h : ∀ m, m0 ≤ m → f (m + 1) ≤ f m) :
    ∃ m1, m0 ≤ m1 ∧ ∀ m, m1 ≤ m → f m = f m1 := by
  have key : ∀ c m0, f m0 ≤ c → (∀ m, m0 ≤ m → f (m + 1) ≤ f m) → ∃ m1, m0 ≤ m1 ∧ ∀ m, m1 ≤ m → f m = f m1 := by
    intro c
    induction c with
    | zero =>
      intro m0 h0 h
      refine ⟨m0, Nat.le_refl _, fun m hm => ?_⟩
      have : f m ≤ f m0 := by
        induction hm with
        | refl => exact Nat.le_refl _
        | step hm ih => exact Nat.le_trans (h _ hm) ih
      omega
    | succ c ih =>
      intro m0 h0 h
      by_cases hall : ∀ m, m0 ≤ m → f m = f m0
      · exact ⟨m0, Nat.le_refl _, hall⟩
      · obtain ⟨m, hm, hne⟩ : ∃ m, m0 ≤ m ∧ f m ≠ f m0 := Classical.byContradiction fun hc =>
          hall fun m hm => Classical.byContradiction fun hn => hc ⟨m, hm, hn⟩
        have hle : f m ≤ f m0 := by
          clear hne
          induction hm with
          | refl => exact Nat.le_refl _
          | step hm ih => exact Nat.le_trans (h _ hm) ih
        obtain ⟨m1, h1, h2⟩ := ih m (by omega) (fun m' hm' => h m' (by omega))
        exact ⟨m1, by omega, h2⟩
  exact key (f m0) m0 (Nat.le_refl _) h

/-! ## Executions -/

theorem WorkersLife.upTo_succ {n : Nat} (L : WorkersLife n) (m : Nat) :
    L.upTo (m + 1) = L.upTo m ++ (L.label m).toList := by
  unfold WorkersLife.upTo
  rw [List.range_succ, List.filterMap_append]
  cases h : L.label m <;> simp [h]

theorem WorkersLife.run {n : Nat} (L : WorkersLife n) (m : Nat) :
    (Workers.mk n [] []).run (L.upTo m) = some (L.state m) := by
  induction m with
  | zero => simp [WorkersLife.upTo, Workers.run, L.start]
  | succ m ih =>
    have hs := L.step m
    rw [L.upTo_succ, Workers.run_append, ih]
    cases hx : L.label m with
    | none => rw [hx] at hs; simp only at hs; simp [Workers.run, hs]
    | some x => rw [hx] at hs; simp only at hs; simp [Workers.run, hs]

theorem WorkersLife.good {n : Nat} (L : WorkersLife n) (m : Nat) :
    WInv n (L.state m).frames (L.state m).jobs := by
  obtain ⟨h1, h2⟩ := Workers.good n _ _ (L.run m)
  unfold Workers.Good at h2
  rw [h1] at h2
  exact h2

theorem WorkersLife.threads {n : Nat} (L : WorkersLife n) (m : Nat) : (L.state m).threads = n :=
  (Workers.good n _ _ (L.run m)).1

/-! ## What a step does to the stacks -/

/-- The step by which a wait ends (for others this has no meaning). -/
def Frame.leave (w : Nat) : Frame → TLabel
  | .scope k => .exit w k
  | .join k mid hi => .resume w k mid hi
  | .hand k lo hi => .take w k lo hi
  | .leaf k hi => .done w k hi

/-- Stacks change at the top only. -/
theorem Workers.step_frames {s s' : Workers} {x : TLabel} (h : s.step x = some s') :
    (x.thread = none ∧ s'.frames = s.frames) ∨
    (∃ w f, x.thread = some w ∧ s.free w = true ∧ s'.frames = (w, f) :: s.frames ∧
      ((∃ k, x = .enter w k ∧ f = .scope k) ∨ ∃ k lo hi, x = .take w k lo hi ∧ f = .hand k lo hi)) ∨
    (∃ w f, x.thread = some w ∧ s.top w = some f ∧ f.waits = true ∧ x = f.leave w ∧ s.over f = true ∧
      s'.frames = s.frames.erase (w, f)) ∨
    (∃ w f new y, x.thread = some w ∧ s.top w = some f ∧ f.waits = false ∧ jobsAt f.inst [x] = [y] ∧ y.pool = true ∧
      s'.frames = new.map (fun g => (w, g)) ++ s.frames.erase (w, f) ∧ (∀ g ∈ new, g.inst = f.inst) ∧
      (new = [] ∨ ∃ g rest, new = g :: rest ∧ g.waits = false)) := by
  cases x with
  | launch l q => simp only [Workers.step, Option.some.injEq] at h; subst h; exact .inl ⟨rfl, rfl⟩
  | io k y =>
    simp only [Workers.step] at h
    split at h
    · obtain ⟨m, t, hm, ht, rfl⟩ := Workers.act_eq h
      exact .inl ⟨rfl, rfl⟩
    · cases h
  | enter w k =>
    simp only [Workers.step] at h
    split at h
    · rename_i hc
      cases h
      exact .inr (.inl ⟨w, _, rfl, hc.1, rfl, .inl ⟨k, rfl, rfl⟩⟩)
    · cases h
  | take w k lo hi =>
    simp only [Workers.step] at h
    split at h
    · cases h
    · split at h
      · rename_i hc
        cases h
        exact .inr (.inl ⟨w, _, rfl, hc.1, rfl, .inr ⟨k, lo, hi, rfl, rfl⟩⟩)
      · cases h
  | resume w k mid hi =>
    simp only [Workers.step] at h
    split at h
    · rename_i hc
      cases h
      exact .inr (.inr (.inl ⟨w, _, rfl, hc.1, rfl, rfl, hc.2, rfl⟩))
    · cases h
  | exit w k =>
    simp only [Workers.step] at h
    split at h
    · rename_i ho
      obtain ⟨m, t, h1, h2, h3, rfl⟩ := Workers.work_eq h
      exact .inr (.inr (.inl ⟨w, _, rfl, h1, rfl, rfl, ho, rfl⟩))
    · cases h
  | split w k lo hi =>
    obtain ⟨m, t, h1, h2, h3, rfl⟩ := Workers.work_eq (by simpa only [Workers.step] using h)
    exact .inr (.inr (.inr ⟨w, _, _, .split lo hi, rfl, h1, rfl, by simp [jobsAt, Frame.inst], rfl, rfl,
      by simp [Frame.inst], .inr ⟨_, _, rfl, rfl⟩⟩))
  | begin w k lo hi =>
    obtain ⟨m, t, h1, h2, h3, rfl⟩ := Workers.work_eq (by simpa only [Workers.step] using h)
    exact .inr (.inr (.inr ⟨w, _, _, .begin lo hi, rfl, h1, rfl, by simp [jobsAt, Frame.inst], rfl, rfl,
      by simp [Frame.inst], .inr ⟨_, _, rfl, rfl⟩⟩))
  | call w k r hi =>
    obtain ⟨m, t, h1, h2, h3, rfl⟩ := Workers.work_eq (by simpa only [Workers.step] using h)
    exact .inr (.inr (.inr ⟨w, _, _, .call r hi, rfl, h1, rfl, by simp [jobsAt, Frame.inst], rfl, rfl,
      by simp [Frame.inst], .inr ⟨_, _, rfl, rfl⟩⟩))
  | finish w k r hi =>
    obtain ⟨m, t, h1, h2, h3, rfl⟩ := Workers.work_eq (by simpa only [Workers.step] using h)
    exact .inr (.inr (.inr ⟨w, _, _, .finish r hi, rfl, h1, rfl, by simp [jobsAt, Frame.inst], rfl, rfl,
      by simp [Frame.inst], .inr ⟨_, _, rfl, rfl⟩⟩))
  | crash w k r hi =>
    obtain ⟨m, t, h1, h2, h3, rfl⟩ := Workers.work_eq (by simpa only [Workers.step] using h)
    exact .inr (.inr (.inr ⟨w, _, _, .crash r hi, rfl, h1, rfl, by simp [jobsAt, Frame.inst], rfl, rfl,
      by simp, .inl rfl⟩))
  | done w k hi =>
    obtain ⟨m, t, h1, h2, h3, rfl⟩ := Workers.work_eq (by simpa only [Workers.step] using h)
    exact .inr (.inr (.inr ⟨w, _, _, .done hi, rfl, h1, rfl, by simp [jobsAt, Frame.inst], rfl, rfl,
      by simp, .inl rfl⟩))

/-- The stack of a thread, newest first. -/
def Workers.stack (s : Workers) (w : Nat) : List (Nat × Frame) := s.frames.filter fun x => x.1 == w

theorem Workers.top_stack (s : Workers) (w : Nat) : s.top w = (s.stack w).head?.map (·.2) := by
  unfold Workers.top Workers.stack
  rw [List.head?_filter]

theorem Workers.mem_stack {s : Workers} {w : Nat} {x : Nat × Frame} : x ∈ s.stack w ↔ x ∈ s.frames ∧ x.1 = w := by
  simp [Workers.stack]

theorem filter_erase_ne {F : List (Nat × Frame)} {w w' : Nat} {f : Frame} (h : w' ≠ w) :
    (F.erase (w', f)).filter (fun x => x.1 == w) = F.filter fun x => x.1 == w := by
  induction F with
  | nil => rfl
  | cons a F ih =>
    rw [List.erase_cons]
    split
    · rename_i he
      simp only [beq_iff_eq] at he
      subst he
      simp [h]
    · simp only [List.filter_cons, ih]

theorem filter_erase_eq {F : List (Nat × Frame)} {w : Nat} {f : Frame} :
    (F.erase (w, f)).filter (fun x => x.1 == w) = (F.filter fun x => x.1 == w).erase (w, f) := by
  induction F with
  | nil => rfl
  | cons a F ih =>
    rw [List.erase_cons]
    split
    · rename_i he
      simp only [beq_iff_eq] at he
      subst he
      simp
    · rename_i he
      simp only [List.filter_cons, ih]
      split
      · rw [List.erase_cons, if_neg he]
      · rfl

/-- What a step does to the stack of a thread. -/
theorem Workers.step_stack {s s' : Workers} {x : TLabel} (h : s.step x = some s') (w : Nat) :
    (x.thread ≠ some w ∧ s'.stack w = s.stack w) ∨
    (x.thread = some w ∧ s.free w = true ∧ ∃ f, s'.stack w = (w, f) :: s.stack w) ∨
    (x.thread = some w ∧ ∃ f, s.top w = some f ∧ f.waits = true ∧ x = f.leave w ∧ s.stack w = (w, f) :: s'.stack w) ∨
    (x.thread = some w ∧ ∃ f new y rest, s.top w = some f ∧ f.waits = false ∧ jobsAt f.inst [x] = [y] ∧
      y.pool = true ∧ s.stack w = (w, f) :: rest ∧ s'.stack w = new.map (fun g => (w, g)) ++ rest ∧
      (∀ g ∈ new, g.inst = f.inst) ∧ (new = [] ∨ ∃ g rest, new = g :: rest ∧ g.waits = false)) := by
  have htop : ∀ f, s.top w = some f → ∃ rest, s.stack w = (w, f) :: rest := by
    intro f hf
    rw [Workers.top_stack] at hf
    cases hs : s.stack w with
    | nil => rw [hs] at hf; cases hf
    | cons a rest =>
      rw [hs] at hf
      simp only [List.head?_cons, Option.map_some, Option.some.injEq] at hf
      have : a.1 = w := (Workers.mem_stack.mp (by rw [hs]; simp)).2
      exact ⟨rest, by rw [← hf, ← this]⟩
  rcases Workers.step_frames h with ⟨h1, h2⟩ | ⟨w', f, h1, h2, h3, _⟩ | ⟨w', f, h1, h2, h3, h4, _, h5⟩ |
    ⟨w', f, new, y, h1, h2, h3, h4, h5, h6, h7, h8⟩
  · exact .inl ⟨by simp [h1], by unfold Workers.stack; rw [h2]⟩
  · by_cases he : w' = w
    · subst he
      exact .inr (.inl ⟨h1, h2, f, by unfold Workers.stack; rw [h3]; simp⟩)
    · exact .inl ⟨by simp [h1, he], by unfold Workers.stack; rw [h3]; simp [he]⟩
  · by_cases he : w' = w
    · subst he
      obtain ⟨rest, hr⟩ := htop f h2
      refine .inr (.inr (.inl ⟨h1, f, h2, h3, h4, ?_⟩))
      have : s'.stack w' = (s.stack w').erase (w', f) := by unfold Workers.stack; rw [h5, filter_erase_eq]
      rw [this, hr, List.erase_cons_head]
    · exact .inl ⟨by simp [h1, he], by unfold Workers.stack; rw [h5, filter_erase_ne he]⟩
  · by_cases he : w' = w
    · subst he
      obtain ⟨rest, hr⟩ := htop f h2
      refine .inr (.inr (.inr ⟨h1, f, new, y, rest, h2, h3, h4, h5, hr, ?_, h7, h8⟩))
      have : s'.stack w' = new.map (fun g => (w', g)) ++ (s.stack w').erase (w', f) := by
        unfold Workers.stack
        rw [h6, List.filter_append, filter_erase_eq]
        congr 1
        rw [List.filter_eq_self]
        intro a ha
        obtain ⟨g, _, rfl⟩ := List.mem_map.mp ha
        simp
      rw [this, hr, List.erase_cons_head]
    · refine .inl ⟨by simp [h1, he], ?_⟩
      unfold Workers.stack
      rw [h6, List.filter_append, filter_erase_ne he]
      have : (new.map fun g => (w', g)).filter (fun x => x.1 == w) = [] := by
        rw [List.filter_eq_nil_iff]
        intro a ha
        obtain ⟨g, _, rfl⟩ := List.mem_map.mp ha
        simp [he]
      rw [this, List.nil_append]

/-- Waits stay where they are until they end. -/
theorem Workers.step_keeps {s s' : Workers} {x : TLabel} (h : s.step x = some s') (A : List (Nat × Frame))
    (hA : A.Sublist s.frames) (hw : ∀ a ∈ A, a.2.waits = true ∧ x ≠ a.2.leave a.1) : A.Sublist s'.frames := by
  have herase : ∀ b, b ∉ A → A.Sublist (s.frames.erase b) := by
    intro b hb
    have := hA.erase b
    rwa [List.erase_of_not_mem hb] at this
  rcases Workers.step_frames h with ⟨h1, h2⟩ | ⟨w', f, h1, h2, h3, _⟩ | ⟨w', f, h1, h2, h3, h4, _, h5⟩ |
    ⟨w', f, new, y, h1, h2, h3, h4, h5, h6, h7, h8⟩
  · rw [h2]; exact hA
  · rw [h3]; exact hA.cons _
  · rw [h5]
    exact herase _ fun hm => (hw _ hm).2 h4
  · rw [h6]
    refine (herase (w', f) fun hm => ?_).trans (List.sublist_append_right _ _)
    have := (hw _ hm).1
    rw [h3] at this
    cases this

/-! ## What a step does to the jobs of a packet -/

/-- What the jobs of listening thread `k` have left to do. -/
def Workers.left (s : Workers) (k : Nat) : Nat :=
  match s.jobs k with
  | some ts => (ts.map Task.work).sum
  | none => 0

theorem Workers.left_of {s : Workers} {k : Nat} {m : RMember} (hm : s.members[k]? = some m) :
    s.left k = m.state.work := by
  unfold Workers.left
  rw [Workers.jobs_of hm, RState.work_eq]
  rfl

theorem Workers.step_jobs {s s' : Workers} {x : TLabel} (h : s.step x = some s') (k : Nat)
    (hk : (s.jobs k).isSome = true) :
    (s'.jobs k = s.jobs k ∧ ∀ y, jobsAt k [x] = [y] → y.pool = false) ∨
    (∃ y, jobsAt k [x] = [y] ∧ y.pool = true ∧ (s'.jobs k).isSome = true ∧ s'.left k < s.left k) ∨
    ∃ w, x = .exit w k := by
  obtain ⟨ts, hts⟩ := Option.isSome_iff_exists.mp hk
  obtain ⟨mk, _, _, _, _, hmk, _⟩ := Workers.jobs_some hts
  have hlt : k < s.members.length := (List.getElem?_eq_some_iff.mp hmk).1
  obtain ⟨_, ⟨l, q, rfl, e⟩ | ⟨hl, e, hj⟩ | ⟨hl, j, y, m, t, e1, e2, e, hj, hother⟩⟩ := Workers.step_members h
  · refine .inl ⟨?_, by simp [jobsAt]⟩
    unfold Workers.jobs
    rw [e, List.getElem?_append_left hlt]
  · refine .inl ⟨?_, by simp [hj]⟩
    unfold Workers.jobs
    rw [e]
  · by_cases hjk : j = k
    · subst hjk
      rw [hmk] at e1
      cases e1
      have h1 : s'.jobs j = t.jobs := Workers.jobs_of (by rw [e, List.getElem?_set_self hlt])
      have h1' : s'.left j = t.work := Workers.left_of (m := ⟨mk.listener, t⟩) (by rw [e, List.getElem?_set_self hlt])
      have h2 := Workers.jobs_of hmk
      cases hp : y.pool with
      | true =>
        right; left
        obtain ⟨p1, p2⟩ := pool_step _ _ _ _ hp e2
        refine ⟨y, hj, hp, ?_, ?_⟩
        · rw [h1]
          unfold RState.jobs
          cases ht : t.phase <;> rw [ht] at p2 <;> simp [RPhase.outside] at p2 ⊢
        · rw [Workers.left_of hmk, h1']
          omega
      | false =>
        by_cases hout : y.outer = true
        · left
          refine ⟨?_, fun z hz => by rw [hj] at hz; cases hz; exact hp⟩
          rcases RState.jobs_outer hout e2 with he | ⟨he, _⟩
          · rw [h1, h2, he]
          · rw [h2, he] at hk; cases hk
        · right; right
          have : y = .join := by cases y <;> simp_all [RLabel.outer, RLabel.pool]
          subst this
          cases x <;> simp only [jobsAt, reduceCtorEq] at hj <;> try (split at hj <;> simp at hj)
          · subst hj
            simp only [Workers.step, RLabel.outer, Bool.false_eq_true, if_false, reduceCtorEq] at h
          · rename_i w _ he; subst he; exact ⟨w, rfl⟩
    · refine .inl ⟨?_, by simp [hother k (Ne.symm hjk)]⟩
      unfold Workers.jobs
      rw [e, List.getElem?_set_ne hjk]

/-- Leaving the scope takes the closure off the stack. -/
theorem Workers.exit_frames {s s' : Workers} {w k : Nat} (h : s.step (.exit w k) = some s') :
    s.top w = some (.scope k) ∧ s'.frames = s.frames.erase (w, .scope k) ∧ s'.jobs k = none := by
  simp only [Workers.step] at h
  split at h
  · obtain ⟨m, t, h1, h2, h3, rfl⟩ := Workers.work_eq h
    refine ⟨h1, rfl, ?_⟩
    rw [Workers.jobs_set h2, setJobs_self]
    exact (RState.jobs_join h3).2
  · cases h

section
variable {n : Nat} (L : WorkersLife n)

/-- While somebody works for listening thread `k`, it stays in the scope. -/
theorem WorkersLife.member {m : Nat} {x : Nat × Frame} (hx : x ∈ (L.state m).frames) :
    ((L.state m).jobs x.2.inst).isSome = true := ((L.good m).scope x hx).1

/-- Who works on a range is at the top of its stack. -/
theorem Workers.top_of_mem {n : Nat} {s : Workers} (hs : Stacks n s.frames) {w : Nat} {f : Frame}
    (h : (w, f) ∈ s.frames) (hf : f.waits = false) : s.top w = some f := by
  cases ht : s.top w with
  | none =>
    unfold Workers.top at ht
    rw [Option.map_eq_none_iff, List.find?_eq_none] at ht
    exact absurd (by simp) (ht _ h)
  | some g =>
    by_cases he : f = g
    · rw [he]
    · have := hs.below ht h he
      rw [hf] at this
      cases this

/-- The next step of a thread that works on a range. -/
theorem WorkersLife.next (hf : L.Fair) {m w : Nat} {f : Frame} (ht : (L.state m).top w = some f)
    (hw : f.waits = false) :
    ∃ m' x y, m ≤ m' ∧ L.label m' = some x ∧ (L.state m').top w = some f ∧ jobsAt f.inst [x] = [y] ∧ y.pool = true ∧
      (L.state (m' + 1)).left f.inst < (L.state m').left f.inst ∧
      (L.state m').left f.inst ≤ (L.state m).left f.inst ∧
      ((L.state (m' + 1)).free w = true ∨ ∃ g, (L.state (m' + 1)).top w = some g ∧ g.waits = false ∧ g.inst = f.inst) := by
  obtain ⟨m1, x1, h1, h2, h3⟩ := hf.works m w f ht hw
  obtain ⟨m', ⟨hm, x, hx, hxw⟩, hleast⟩ :=
    least (P := fun j => m ≤ j ∧ ∃ x, L.label j = some x ∧ x.thread = some w) m1 ⟨h1, x1, h2, h3⟩
  -- until then the stack stays, and the jobs do not become more
  have key : ∀ j, m ≤ j → j ≤ m' → (L.state j).top w = some f ∧ (L.state j).left f.inst ≤ (L.state m).left f.inst := by
    intro j hj
    induction hj with
    | refl => intro _; exact ⟨ht, Nat.le_refl _⟩
    | @step j hj ih =>
      intro hle
      obtain ⟨i1, i2⟩ := ih (Nat.le_of_succ_le hle)
      have hs := L.step j
      cases hy : L.label j with
      | none => rw [hy] at hs; simp only at hs; rw [hs]; exact ⟨i1, i2⟩
      | some y =>
        rw [hy] at hs
        simp only at hs
        have hne : y.thread ≠ some w := fun he => hleast j (by omega) ⟨hj, y, hy, he⟩
        have ht' : (L.state (j + 1)).top w = some f := by
          rcases Workers.step_stack hs w with ⟨_, h⟩ | ⟨h, _⟩ | ⟨h, _⟩ | ⟨h, _⟩
          · rw [Workers.top_stack, h, ← Workers.top_stack]; exact i1
          · exact absurd h hne
          · exact absurd h hne
          · exact absurd h hne
        refine ⟨ht', ?_⟩
        rcases Workers.step_jobs hs f.inst (L.member (Workers.top_mem i1)) with ⟨h, _⟩ | ⟨_, _, _, _, h⟩ | ⟨w', rfl⟩
        · unfold Workers.left at i2 ⊢; rw [h]; exact i2
        · exact Nat.le_trans (Nat.le_of_lt h) i2
        · have := L.member (Workers.top_mem ht')
          rw [(Workers.exit_frames hs).2.2] at this
          cases this
  obtain ⟨k1, k2⟩ := key m' hm (Nat.le_refl _)
  have hs := L.step m'
  rw [hx] at hs
  simp only at hs
  have hmem := L.member (Workers.top_mem k1)
  have hlt : w < n := (L.good m').stacks.owner _ (Workers.top_mem k1)
  rcases Workers.step_stack hs w with ⟨h, _⟩ | ⟨_, h, _⟩ | ⟨_, g, hg, h, _⟩ | ⟨_, g, new, y, rest, g1, g2, g3, g4, g5, g6, g7, g8⟩
  · exact absurd hxw h
  · unfold Workers.free at h
    rw [k1] at h
    simp [hw] at h
  · rw [k1] at hg
    cases hg
    rw [hw] at h
    cases h
  · rw [k1] at g1
    cases g1
    refine ⟨m', x, y, hm, hx, k1, g3, g4, ?_, k2, ?_⟩
    · rcases Workers.step_jobs hs f.inst hmem with ⟨_, h⟩ | ⟨_, _, _, _, h⟩ | ⟨w', rfl⟩
      · rw [h y g3] at g4; cases g4
      · exact h
      · simp only [jobsAt, if_true, List.cons.injEq, and_true] at g3
        subst g3
        cases g4
    · rcases g8 with rfl | ⟨g, rest', rfl, hg⟩
      · left
        have hst := (L.good m').stacks
        unfold Workers.free
        rw [L.threads, Workers.top_stack, g6]
        simp only [List.map_nil, List.nil_append, Bool.and_eq_true, decide_eq_true_eq]
        refine ⟨hlt, ?_⟩
        cases rest with
        | nil => rfl
        | cons b rest =>
          simp only [List.head?_cons, Option.map_some]
          have hb : b ∈ (L.state m').frames ∧ b.1 = w := Workers.mem_stack.mp (by rw [g5]; simp)
          refine hst.below (w := w) k1 (by rw [← hb.2]; exact hb.1) ?_
          intro he
          have hnd := hst.nodup
          have : ((L.state m').stack w).Pairwise fun a b => a.2 ≠ b.2 := by
            unfold Workers.stack
            exact (List.pairwise_map.mp hnd).sublist List.filter_sublist
          rw [g5] at this
          exact (List.pairwise_cons.mp this).1 b (by simp) he.symm
      · right
        refine ⟨g, ?_, hg, g7 g (by simp)⟩
        rw [Workers.top_stack, g6]
        rfl

/-- Every thread is free again and again. -/
theorem WorkersLife.frees (hf : L.Fair) {w : Nat} (hw : w < n) (m : Nat) :
    ∃ m', m ≤ m' ∧ (L.state m').free w = true := by
  have key : ∀ c m f, (L.state m).top w = some f → f.waits = false → (L.state m).left f.inst ≤ c →
      ∃ m', m ≤ m' ∧ (L.state m').free w = true := by
    intro c
    induction c with
    | zero =>
      intro m f h1 h2 h3
      obtain ⟨m', x, y, e1, _, _, _, _, e2, e3, _⟩ := L.next hf h1 h2
      omega
    | succ c ih =>
      intro m f h1 h2 h3
      obtain ⟨m', x, y, e1, _, _, _, _, e2, e3, e4 | ⟨g, e4, e5, e6⟩⟩ := L.next hf h1 h2
      · exact ⟨m' + 1, by omega, e4⟩
      · obtain ⟨m'', d1, d2⟩ := ih (m' + 1) g e4 e5 (by rw [e6]; omega)
        exact ⟨m'', by omega, d2⟩
  cases hfree : (L.state m).free w with
  | true => exact ⟨m, Nat.le_refl _, hfree⟩
  | false =>
    unfold Workers.free at hfree
    rw [L.threads] at hfree
    cases ht : (L.state m).top w with
    | none => rw [ht] at hfree; simp [hw] at hfree
    | some f =>
      rw [ht] at hfree
      simp only [hw, decide_true, Bool.true_and] at hfree
      exact key _ m f ht hfree (Nat.le_refl _)

/-! ## Waits that never end -/

/-- A wait that is there from some moment on. -/
def WorkersLife.Eternal (m : Nat) (x : Nat × Frame) : Prop :=
  x.2.waits = true ∧ ∀ m', m ≤ m' → x ∈ (L.state m').frames

theorem Stacks.nodup' {n : Nat} {F : List (Nat × Frame)} (h : Stacks n F) : F.Nodup :=
  List.Pairwise.of_map (·.2) (fun a b hab he => hab (by rw [he])) h.nodup

theorem Workers.leave_frames {n : Nat} {s s' : Workers} (hs : Stacks n s.frames) {w : Nat} {f : Frame}
    (hf : f.waits = true) (h : s.step (f.leave w) = some s') : s.top w = some f ∧ (w, f) ∉ s'.frames := by
  cases f with
  | hand => cases hf
  | leaf => cases hf
  | scope k =>
    obtain ⟨h1, h2, _⟩ := Workers.exit_frames h
    exact ⟨h1, by rw [h2]; exact hs.nodup'.not_mem_erase⟩
  | join k mid hi =>
    simp only [Frame.leave, Workers.step] at h
    split at h
    · rename_i hc
      cases h
      exact ⟨hc.1, hs.nodup'.not_mem_erase⟩
    · cases h

theorem WorkersLife.Eternal.stays {L : WorkersLife n} {m : Nat} {x : Nat × Frame} (h : L.Eternal m x) {m' : Nat}
    (hm : m ≤ m') : L.label m' ≠ some (x.2.leave x.1) := by
  intro hx
  have hs := L.step m'
  rw [hx] at hs
  exact (Workers.leave_frames (L.good m').stacks h.1 hs).2 (h.2 (m' + 1) (by omega))

theorem WorkersLife.keeps (A : List (Nat × Frame)) {m m' m'' : Nat} (hA : ∀ a ∈ A, L.Eternal m a) (h1 : m ≤ m')
    (h2 : m' ≤ m'') (hs : A.Sublist (L.state m').frames) : A.Sublist (L.state m'').frames := by
  induction h2 with
  | refl => exact hs
  | @step j hj ih =>
    have hst := L.step j
    cases hx : L.label j with
    | none => rw [hx] at hst; simp only at hst; rw [hst]; exact ih
    | some x =>
      rw [hx] at hst
      simp only at hst
      refine Workers.step_keeps hst A ih fun a ha => ⟨(hA a ha).1, fun he => ?_⟩
      exact (hA a ha).stays (m' := j) (by simp only [Nat.le_eq] at hj; omega) (by rw [hx, he])

open Classical in
/-- The waits that never end. -/
noncomputable def WorkersLife.eternals (m : Nat) : List (Nat × Frame) :=
  (L.state m).frames.filter fun x => decide (L.Eternal m x)

open Classical in
theorem WorkersLife.eternals_mono (m : Nat) : (L.eternals m).Sublist (L.eternals (m + 1)) := by
  have hall : ∀ x ∈ L.eternals m, L.Eternal m x := by
    intro x hx
    simpa using (List.mem_filter.mp hx).2
  have h := L.keeps (L.eternals m) (m' := m) (m'' := m + 1) hall (Nat.le_refl _) (by omega) List.filter_sublist
  have h' := h.filter (fun x => decide (L.Eternal (m + 1) x))
  rw [List.filter_eq_self.mpr] at h'
  · exact h'
  · intro x hx
    have := hall x hx
    exact decide_eq_true ⟨this.1, fun m' hm' => this.2 m' (by omega)⟩

/-- What instances there are and how many receivers they have. -/
def Workers.size (s : Workers) : Nat := (s.members.map fun m => max 1 m.listener.receivers.length).sum

theorem Workers.step_size {s s' : Workers} {x : TLabel} (h : s.step x = some s') (hx : ∀ l q, x ≠ .launch l q) :
    s'.size = s.size := by
  unfold Workers.size
  obtain ⟨_, ⟨l, q, rfl, e⟩ | ⟨hl, e, hj⟩ | ⟨hl, j, y, m, t, e1, e2, e, hj, hother⟩⟩ := Workers.step_members h
  · exact absurd rfl (hx l q)
  · rw [e]
  · have := sum_set (fun m : RMember => max 1 m.listener.receivers.length) e1 ⟨m.listener, t⟩
    rw [e]
    simp only at this
    omega

open Classical in
theorem WorkersLife.rest (hl : L.Settled) : ∃ m0, ∀ m, m0 ≤ m → L.eternals m = L.eternals m0 := by
  obtain ⟨m0, hm0⟩ := hl
  have hsize : ∀ m, m0 ≤ m → (L.state m).size = (L.state m0).size := by
    intro m hm
    induction hm with
    | refl => rfl
    | @step j hj ih =>
      have hst := L.step j
      cases hx : L.label j with
      | none => rw [hx] at hst; simp only at hst; rw [hst]; exact ih
      | some x =>
        rw [hx] at hst
        simp only at hst
        rw [Workers.step_size hst fun l q he => hm0 j l q hj (by rw [hx, he])]
        exact ih
  have hbound : ∀ m, m0 ≤ m → (L.eternals m).length ≤ (L.state m0).size := by
    intro m hm
    have h1 := Workers.waits_le n _ _ (L.run m)
    have h2 := hsize m hm
    unfold Workers.size at h2 ⊢
    rw [← h2]
    refine Nat.le_trans ?_ h1
    unfold WorkersLife.eternals Workers.count
    rw [← List.countP_eq_length_filter, List.countP_map]
    refine List.countP_mono_left fun x _ hx => ?_
    have := of_decide_eq_true hx
    exact this.1
  obtain ⟨m1, h1, h2⟩ := comes_to_rest (fun m => (L.state m0).size - (L.eternals m).length) m0 (by
    intro m _
    have := (L.eternals_mono m).length_le
    omega)
  refine ⟨m1, fun m hm => ?_⟩
  induction hm with
  | refl => rfl
  | @step j hj ih =>
    simp only [Nat.le_eq] at hj
    have h3 := h2 (j + 1) (by omega)
    have h4 := h2 j hj
    have h5 := hbound (j + 1) (by omega)
    have h6 := hbound j (by omega)
    rw [← ih]
    exact ((L.eternals_mono j).eq_of_length (by omega)).symm

/-- Suppose a wait never ends.  Then there is one that is newer than all others. -/
structure WorkersLife.Newest (m : Nat) (x : Nat × Frame) : Prop where
  eternal : L.Eternal m x
  newest : ∀ m' y, m ≤ m' → L.Eternal m' y → ¬ [y, x].Sublist (L.state m').frames

open Classical in
theorem WorkersLife.newest (hl : L.Settled) {m : Nat} {x : Nat × Frame} (h : L.Eternal m x) :
    ∃ m' y, m ≤ m' ∧ L.Newest m' y := by
  obtain ⟨m0, hm0⟩ := L.rest hl
  have hmem : ∀ m x, x ∈ L.eternals m ↔ L.Eternal m x := by
    intro m x
    unfold WorkersLife.eternals
    rw [List.mem_filter]
    exact ⟨fun h => of_decide_eq_true h.2, fun h => ⟨h.2 m (Nat.le_refl _), decide_eq_true h⟩⟩
  have hx : x ∈ L.eternals (max m m0) := (hmem _ x).mpr ⟨h.1, fun m' hm' => h.2 m' (by omega)⟩
  cases hE : L.eternals (max m m0) with
  | nil => rw [hE] at hx; cases hx
  | cons y rest =>
    refine ⟨max m m0, y, by omega, (hmem _ y).mp (by rw [hE]; simp), ?_⟩
    intro m' z hm' hz hs
    have hy : L.Eternal m' y := by
      have := (hmem _ y).mp (by rw [hE]; simp : y ∈ L.eternals (max m m0))
      exact ⟨this.1, fun j hj => this.2 j (by omega)⟩
    have hf := hs.filter (fun x => decide (L.Eternal m' x))
    rw [List.filter_eq_self.mpr (by
      intro a ha
      simp only [List.mem_cons, List.not_mem_nil, or_false] at ha
      rcases ha with rfl | rfl
      · exact decide_eq_true hz
      · exact decide_eq_true hy)] at hf
    have he : L.eternals m' = y :: rest := by
      rw [hm0 m' (by omega), ← hm0 (max m m0) (by omega)]; exact hE
    have hnd : (L.eternals m').Nodup := (L.good m').stacks.nodup'.sublist List.filter_sublist
    have hf : [z, y].Sublist (L.eternals m') := hf
    rw [he] at hf hnd
    have hny := (List.nodup_cons.mp hnd).1
    cases hf with
    | cons _ h => exact hny (h.subset (by simp))
    | cons_cons _ h => exact hny (h.subset (by simp))

/-- The newest one is again and again at the top of its stack: what is above it comes and goes. -/
theorem WorkersLife.tops (hf : L.Fair) {m : Nat} {w : Nat} {f : Frame} (h : L.Newest m (w, f)) (m1 : Nat)
    (hm1 : m ≤ m1) : ∃ m2, m1 ≤ m2 ∧ (L.state m2).top w = some f := by
  refine Classical.byContradiction fun hno => ?_
  have hno : ∀ m2, m1 ≤ m2 → (L.state m2).top w ≠ some f := fun m2 h1 h2 => hno ⟨m2, h1, h2⟩
  have hlt : w < n := (L.good m).stacks.owner _ (h.eternal.2 m (Nat.le_refl _))
  obtain ⟨m2, h2, hfree⟩ := L.frees hf hlt m1
  have hmem : (w, f) ∈ (L.state m2).stack w := Workers.mem_stack.mpr ⟨h.eternal.2 m2 (by omega), rfl⟩
  obtain ⟨a, p, hap⟩ := List.append_of_mem hmem
  -- what lies on it
  obtain ⟨a', b, rfl⟩ : ∃ a' b, a = a' ++ [b] := by
    refine ⟨a.dropLast, a.getLast ?_, (List.dropLast_concat_getLast _).symm⟩
    rintro rfl
    exact hno m2 h2 (by rw [Workers.top_stack, hap]; rfl)
  have hb : b ∈ (L.state m2).frames ∧ b.1 = w := Workers.mem_stack.mp (by rw [hap]; simp)
  obtain ⟨w', g⟩ := b
  obtain ⟨hbm, rfl⟩ : (w', g) ∈ (L.state m2).frames ∧ w' = w := hb
  have hgw : g.waits = true := (L.good m2).stacks.free hfree hbm
  -- stays for ever
  have key : ∀ j, m2 ≤ j → ∃ a p, (L.state j).stack w' = a ++ (w', g) :: (w', f) :: p := by
    intro j hj
    induction hj with
    | refl => exact ⟨a', p, by rw [hap]; simp⟩
    | @step j hj ih =>
      simp only [Nat.le_eq] at hj
      obtain ⟨a, p, ih⟩ := ih
      have hst := L.step j
      cases hx : L.label j with
      | none => rw [hx] at hst; simp only at hst; rw [hst]; exact ⟨a, p, ih⟩
      | some x =>
        rw [hx] at hst
        simp only at hst
        rcases Workers.step_stack hst w' with ⟨_, e⟩ | ⟨_, _, f', e⟩ | ⟨_, f', e1, e2, e3, e4⟩ |
          ⟨_, f', new, y, rest, e1, e2, _, _, e4, e5, _⟩
        · exact ⟨a, p, by rw [e, ih]⟩
        · exact ⟨(w', f') :: a, p, by rw [e, ih]; rfl⟩
        · rw [ih] at e4
          cases a with
          | nil =>
            simp only [List.nil_append, List.cons.injEq] at e4
            exact absurd (by rw [Workers.top_stack, ← e4.2]; rfl) (hno (j + 1) (by omega))
          | cons c a =>
            simp only [List.cons_append, List.cons.injEq] at e4
            exact ⟨a, p, e4.2.symm⟩
        · rw [ih] at e4
          cases a with
          | nil =>
            simp only [List.nil_append, List.cons.injEq, Prod.mk.injEq, true_and] at e4
            rw [e4.1, e2] at hgw
            cases hgw
          | cons c a =>
            simp only [List.cons_append, List.cons.injEq] at e4
            exact ⟨new.map (fun g => (w', g)) ++ a, p, by rw [e5, ← e4.2]; simp⟩
  have hsub : ∀ j, m2 ≤ j → [(w', g), (w', f)].Sublist (L.state j).frames := by
    intro j hj
    obtain ⟨a, p, e⟩ := key j hj
    refine List.Sublist.trans ?_ (List.filter_sublist (p := fun x => x.1 == w'))
    show List.Sublist _ ((L.state j).stack w')
    rw [e]
    refine List.Sublist.trans ?_ (List.sublist_append_right _ _)
    simp
  exact h.newest m2 (w', g) (by omega) ⟨hgw, fun j hj => (hsub j hj).subset (by simp)⟩ (hsub m2 (Nat.le_refl _))

/-- As long as somebody waits for the packet of listening thread `k`, its jobs do not become more. -/
theorem WorkersLife.calmDown {m k : Nat} (h : ∀ m', m ≤ m' → ((L.state m').jobs k).isSome = true) :
    ∃ m1, m ≤ m1 ∧ ∀ m', m1 ≤ m' → (L.state m').jobs k = (L.state m1).jobs k ∧
      ∀ x y, L.label m' = some x → jobsAt k [x] = [y] → y.pool = false := by
  have hstep : ∀ j, m ≤ j → ((L.state (j + 1)).jobs k = (L.state j).jobs k ∧
        ∀ x y, L.label j = some x → jobsAt k [x] = [y] → y.pool = false) ∨
      (L.state (j + 1)).left k < (L.state j).left k := by
    intro j hj
    have hst := L.step j
    cases hx : L.label j with
    | none => rw [hx] at hst; simp only at hst; rw [hst]; exact .inl ⟨rfl, by simp⟩
    | some x =>
      rw [hx] at hst
      simp only at hst
      rcases Workers.step_jobs hst k (h j hj) with ⟨e1, e2⟩ | ⟨_, _, _, _, e⟩ | ⟨w, rfl⟩
      · exact .inl ⟨e1, fun x' y hx' => by cases hx'; exact e2 y⟩
      · exact .inr e
      · have := h (j + 1) (by omega)
        rw [(Workers.exit_frames hst).2.2] at this
        cases this
  obtain ⟨m1, h1, h2⟩ := comes_to_rest (fun j => (L.state j).left k) m (by
    intro j hj
    rcases hstep j hj with ⟨e, _⟩ | e
    · unfold Workers.left; rw [e]; exact Nat.le_refl _
    · exact Nat.le_of_lt e)
  have hstep' : ∀ j, m1 ≤ j → (L.state (j + 1)).jobs k = (L.state j).jobs k ∧
        ∀ x y, L.label j = some x → jobsAt k [x] = [y] → y.pool = false := by
    intro j hj
    rcases hstep j (by omega) with e | e
    · exact e
    · have e1 := h2 j hj
      have e2 := h2 (j + 1) (by omega)
      omega
  refine ⟨m1, h1, fun m' hm' => ⟨?_, (hstep' m' hm').2⟩⟩
  induction hm' with
  | refl => rfl
  | @step j hj ih => rw [← ih]; exact (hstep' j hj).1

/-- Then nobody works on them any more. -/
theorem WorkersLife.noWork (hf : L.Fair) {m k : Nat}
    (h : ∀ m', m ≤ m' → ∀ x y, L.label m' = some x → jobsAt k [x] = [y] → y.pool = false) {m' : Nat} (hm : m ≤ m')
    {x : Nat × Frame} (hx : x ∈ (L.state m').frames) (hk : x.2.inst = k) : x.2.waits = true := by
  cases hw : x.2.waits with
  | true => rfl
  | false =>
    obtain ⟨m1, l, y, h1, h2, _, h3, h4, _⟩ := L.next hf (Workers.top_of_mem (L.good m').stacks hx hw) hw
    rw [hk] at h3
    rw [h m1 (by omega) l y h2 h3] at h4
    cases h4

/-- And there are none. -/
theorem WorkersLife.noJobs (hn : 1 ≤ n) (hf : L.Fair) {m k : Nat} {ts : List Task}
    (hts : ∀ m', m ≤ m' → (L.state m').jobs k = some ts)
    (h : ∀ m', m ≤ m' → ∀ x y, L.label m' = some x → jobsAt k [x] = [y] → y.pool = false)
    (hin : ∀ m', m ≤ m' → (L.state m').entered k = true) : ts = [] := by
  cases ts with
  | nil => rfl
  | cons t ts =>
    exfalso
    cases hb : t.begun with
    | true =>
      obtain ⟨w, hw⟩ := (L.good m).run k _ (hts m (Nat.le_refl _)) t (by simp) hb
      have := L.noWork hf h (Nat.le_refl _) hw rfl
      cases this
    | false =>
      cases t with
      | between => cases hb
      | inside => cases hb
      | pending lo hi =>
        have hnot : ∀ m', m ≤ m' → (L.state m').taken k lo hi = false := by
          intro m' hm'
          simp only [Workers.taken, List.any_eq_false, beq_iff_eq]
          intro x hx he
          have := L.noWork hf h hm' hx (by rw [he]; rfl)
          rw [he] at this
          cases this
        obtain ⟨m', x, h1, ⟨w, rfl⟩, h2⟩ := hf.takes k lo hi m (by
          intro m1 hm1
          obtain ⟨m2, h1, h2⟩ := L.frees hf (w := 0) (by omega) m1
          refine ⟨m2, _, h1, ⟨0, rfl⟩, ?_⟩
          simp [Workers.step, hts m2 (by omega), h2, hin m2 (by omega), hnot m2 (by omega)])
        have hst := L.step m'
        rw [h2] at hst
        have h3 := hnot (m' + 1) (by omega)
        simp only [Workers.step, hts m' h1] at hst
        split at hst
        · rw [← Option.some.inj hst] at h3
          simp [Workers.taken] at h3
        · cases hst

/-- The waits for second halves of listening thread `k`. -/
def Workers.joinsOf (s : Workers) (k : Nat) : List (Nat × Frame) :=
  s.frames.filter fun x => x.2.joins && x.2.inst == k

theorem Workers.step_joins {s s' : Workers} {x : TLabel} (h : s.step x = some s') (k : Nat)
    (hk : ∀ y, jobsAt k [x] = [y] → y.pool = false) : (s'.joinsOf k).Sublist (s.joinsOf k) := by
  unfold Workers.joinsOf
  rcases Workers.step_frames h with ⟨h1, h2⟩ | ⟨w', f, h1, h2, h3, ⟨j, _, rfl⟩ | ⟨j, lo, hi, _, rfl⟩⟩ |
    ⟨w', f, h1, h2, h3, h4, _, h5⟩ | ⟨w', f, new, y, h1, h2, h3, h4, h5, h6, h7, h8⟩
  · rw [h2]; exact List.Sublist.refl _
  · rw [h3, List.filter_cons_of_neg (by simp [Frame.joins])]
    exact List.Sublist.refl _
  · rw [h3, List.filter_cons_of_neg (by simp [Frame.joins])]
    exact List.Sublist.refl _
  · rw [h5]; exact List.erase_sublist.filter _
  · rw [h6, List.filter_append]
    have : (new.map fun g => (w', g)).filter (fun x => x.2.joins && x.2.inst == k) = [] := by
      rw [List.filter_eq_nil_iff]
      intro a ha
      obtain ⟨g, hg, rfl⟩ := List.mem_map.mp ha
      simp only [Bool.and_eq_true, beq_iff_eq, not_and]
      intro _ he
      rw [h7 g hg] at he
      rw [he] at h4
      rw [hk y h4] at h5
      cases h5
    rw [this, List.nil_append]
    exact List.erase_sublist.filter _

/-- No wait is for ever. -/
theorem WorkersLife.ends (hn : 1 ≤ n) (hf : L.Fair) (hl : L.Settled) (m : Nat) (x : Nat × Frame) : ¬ L.Eternal m x := by
  intro hx
  obtain ⟨m0, ⟨w, f⟩, _, hnew⟩ := L.newest hl hx
  have het := hnew.eternal
  have hent : ∀ m', m0 ≤ m' → (L.state m').entered f.inst = true := by
    intro m' hm'
    simp only [Workers.entered, List.any_eq_true, beq_iff_eq]
    exact ((L.good m').scope _ (het.2 m' hm')).2
  obtain ⟨m1, h1, h2⟩ := L.calmDown (m := m0) (k := f.inst) fun m' hm' => L.member (het.2 m' hm')
  obtain ⟨ts, hts⟩ := Option.isSome_iff_exists.mp (L.member (het.2 m1 h1))
  have hts : (L.state m1).jobs f.inst = some ts := hts
  have h3 : ts = [] := L.noJobs hn hf (m := m1) (k := f.inst) (fun m' hm' => (h2 m' hm').1.trans hts)
    (fun m' hm' => (h2 m' hm').2) (fun m' hm' => hent m' (by omega))
  subst h3
  -- the waits of this packet that are still there
  have hjoins : ∀ j, m1 ≤ j → ((L.state (j + 1)).joinsOf f.inst).Sublist ((L.state j).joinsOf f.inst) := by
    intro j hj
    have hst := L.step j
    cases hx : L.label j with
    | none => rw [hx] at hst; simp only at hst; rw [hst]; exact List.Sublist.refl _
    | some x =>
      rw [hx] at hst
      exact Workers.step_joins hst f.inst fun y => (h2 j hj).2 x y hx
  obtain ⟨m2, g1, g2⟩ := comes_to_rest (fun j => ((L.state j).joinsOf f.inst).length) m1
    (fun j hj => (hjoins j hj).length_le)
  have hconst : ∀ j, m2 ≤ j → (L.state j).joinsOf f.inst = (L.state m2).joinsOf f.inst := by
    intro j hj
    induction hj with
    | refl => rfl
    | @step j hj ih =>
      simp only [Nat.le_eq] at hj
      rw [← ih]
      exact (hjoins j (by omega)).eq_of_length ((g2 (j + 1) (by omega)).trans (g2 j hj).symm)
  -- are not newer, so `f` does not wait for them
  have hold : ∀ j, m2 ≤ j → ∀ y ∈ (L.state j).frames, y.2.joins = true → ¬ y.2.within f := by
    intro j hj y hy hyj hin
    have hinst : y.2.inst = f.inst := by
      cases f with
      | scope k => exact hin.1
      | join k mid hi =>
        cases hy2 : y.2 <;> rw [hy2] at hin hyj <;> simp only [Frame.within] at hin <;>
          simp only [Frame.joins, Bool.false_eq_true] at hyj
        exact hin.1
      | hand => exact absurd het.1 (by simp [Frame.waits])
      | leaf => exact absurd het.1 (by simp [Frame.waits])
    have hywait : y.2.waits = true := by
      cases hy2 : y.2 <;> rw [hy2] at hyj <;> first | rfl | cases hyj
    have hymem : ∀ j', j ≤ j' → y ∈ (L.state j').frames := by
      intro j' hj'
      have : y ∈ (L.state j).joinsOf f.inst := by simp [Workers.joinsOf, hy, hyj, hinst]
      rw [hconst j hj, ← hconst j' (by omega)] at this
      exact (List.mem_filter.mp this).1
    refine hnew.newest j y (by omega) ⟨hywait, hymem⟩ ?_
    have hord := (L.good j).stacks.order
    have hfm := het.2 j (by omega)
    obtain ⟨pre, post, he⟩ := List.append_of_mem hfm
    rw [he] at hord hy ⊢
    rcases List.mem_append.mp hy with hy | hy
    · obtain ⟨a, b, rfl⟩ := List.append_of_mem hy
      refine List.Sublist.trans ?_ (List.sublist_append_right a _ |>.trans (by simp only [List.append_assoc]; exact List.Sublist.refl _))
      simp
    · exfalso
      rcases List.mem_cons.mp hy with rfl | hy
      · cases f <;> simp [Frame.within] at hin hyj
      · exact (List.pairwise_cons.mp (List.pairwise_append.mp hord).2.1).1 y hy hin
  have hjobs : ∀ j, m2 ≤ j → (L.state j).jobs f.inst = some [] := fun j hj => (h2 j (by omega)).1.trans hts
  have hover : ∀ j, m2 ≤ j → (L.state j).over f = true := by
    intro j hj
    have h5 := hjobs j hj
    cases f with
    | hand => exact absurd het.1 (by simp [Frame.waits])
    | leaf => exact absurd het.1 (by simp [Frame.waits])
    | scope k =>
      simp only [Frame.inst] at h5
      simp only [Workers.over, h5, Bool.and_eq_true, List.all_eq_true, beq_self_eq_true, true_and]
      intro y hy
      cases hy2 : y.2 with
      | join k' a b =>
        have := hold j hj y hy (by rw [hy2]; rfl)
        rw [hy2] at this
        simp only [Frame.within, Frame.inst, ne_eq, reduceCtorEq, not_false_eq_true, and_true] at this
        simpa using this
      | _ => rfl
    | join k mid hi =>
      simp only [Frame.inst] at h5
      simp only [Workers.over, h5, Bool.and_eq_true, List.all_eq_true]
      refine ⟨by simp, ?_⟩
      intro y hy
      cases hy2 : y.2 with
      | join k' a b =>
        have := hold j hj y hy (by rw [hy2]; rfl)
        rw [hy2] at this
        simp only [Frame.within, not_and] at this
        simp only [Bool.not_eq_true', Bool.and_eq_false_iff, beq_eq_false_iff_ne, decide_eq_false_iff_not]
        by_cases e1 : k' = k
        · by_cases e2 : mid < a
          · exact .inr (this e1 e2)
          · exact .inl (.inr e2)
        · exact .inl (.inl e1)
      | _ => rfl
  have htop : ∀ j, m2 ≤ j → ∃ j', j ≤ j' ∧ (L.state j').top w = some f := fun j hj => L.tops hf hnew j (by omega)
  cases f with
  | hand => exact absurd het.1 (by simp [Frame.waits])
  | leaf => exact absurd het.1 (by simp [Frame.waits])
  | scope k =>
    obtain ⟨m', x, d1, rfl, d2⟩ := hf.exits w k m2 (by
      intro j hj
      obtain ⟨j', d1, d2⟩ := htop j hj
      refine ⟨j', _, d1, rfl, ?_⟩
      obtain ⟨mk, _, _, _, _, c1, c2⟩ := Workers.jobs_some (hjobs j' (by omega))
      have := hover j' (by omega)
      simp only [Workers.step, this, if_true]
      exact Workers.work_isSome d2 c1 (by simp [Listener.rstep, c2]))
    exact het.stays (by omega) d2
  | join k mid hi =>
    obtain ⟨m', x, d1, rfl, d2⟩ := hf.resumes w k mid hi m2 (by
      intro j hj
      obtain ⟨j', d1, d2⟩ := htop j hj
      refine ⟨j', _, d1, rfl, ?_⟩
      have := hover j' (by omega)
      simp [Workers.step, this, d2])
    exact het.stays (by omega) d2

end

/-! ## The theorems -/

/-- C90. Whatever is buried under what and however busy other instances keep the pool: if the pool is fair, receivers
return or panic, and not for ever new instances are started, then every listening thread that hands over a packet
gets through. -/
theorem C90 (n : Nat) (hn : 1 ≤ n) (L : WorkersLife n) (hf : L.Fair) (hl : L.Settled) (m k : Nat) (u : RMember)
    (hu : (L.state m).members[k]? = some u) (hk : u.state.phase.outside = false) :
    ∃ m' w, m ≤ m' ∧ L.label m' = some (.exit w k) := by
  refine Classical.byContradiction fun hno => ?_
  have hno : ∀ m' w, m ≤ m' → L.label m' ≠ some (.exit w k) := fun m' w h1 h2 => hno ⟨m', w, h1, h2⟩
  have h0 : ((L.state m).jobs k).isSome = true := by
    rw [Workers.jobs_of hu]
    unfold RState.jobs
    cases hp : u.state.phase <;> rw [hp] at hk <;> simp [RPhase.outside] at hk ⊢
  -- it stays in the scope
  have hin : ∀ m', m ≤ m' → ((L.state m').jobs k).isSome = true := by
    intro m' hm'
    induction hm' with
    | refl => exact h0
    | @step j hj ih =>
      have hst := L.step j
      cases hx : L.label j with
      | none => rw [hx] at hst; simp only at hst; rw [hst]; exact ih
      | some x =>
        rw [hx] at hst
        rcases Workers.step_jobs hst k ih with ⟨e, _⟩ | ⟨_, _, _, e, _⟩ | ⟨w, rfl⟩
        · rw [e]; exact ih
        · exact e
        · exact absurd hx (hno j w hj)
  -- somebody begins it
  obtain ⟨m1, h1, w, h2⟩ : ∃ m1, m ≤ m1 ∧ ∃ w, (w, .scope k) ∈ (L.state m1).frames := by
    refine Classical.byContradiction fun hne => ?_
    have hne : ∀ m1, m ≤ m1 → (L.state m1).entered k = false := by
      intro m1 h1
      simp only [Workers.entered, List.any_eq_false, beq_iff_eq]
      intro x hx he
      exact hne ⟨m1, h1, x.1, by rw [← he]; exact hx⟩
    obtain ⟨m', x, d1, ⟨w, rfl⟩, d2⟩ := hf.enters k m (by
      intro j hj
      obtain ⟨j', c1, c2⟩ := L.frees hf (w := 0) (by omega) j
      refine ⟨j', _, c1, ⟨0, rfl⟩, ?_⟩
      simp [Workers.step, c2, hin j' (by omega), hne j' (by omega)])
    have hst := L.step m'
    rw [d2] at hst
    have h3 := hne (m' + 1) (by omega)
    simp only [Workers.step] at hst
    split at hst
    · rw [← Option.some.inj hst] at h3
      simp [Workers.entered] at h3
    · cases hst
  refine L.ends hn hf hl m1 (w, .scope k) ⟨rfl, fun m' hm' => ?_⟩
  induction hm' with
  | refl => exact h2
  | @step j hj ih =>
    simp only [Nat.le_eq] at hj
    have hst := L.step j
    cases hx : L.label j with
    | none => rw [hx] at hst; simp only at hst; rw [hst]; exact ih
    | some x =>
      rw [hx] at hst
      have := Workers.step_keeps hst [(w, .scope k)] (List.singleton_sublist.mpr ih) (by
        intro a ha
        simp only [List.mem_singleton] at ha
        subst ha
        refine ⟨rfl, ?_⟩
        rintro rfl
        exact hno j w (by omega) hx)
      exact List.singleton_sublist.mp this

/-! ## One instance -/

theorem WorkersLife.upTo_le {n : Nat} (L : WorkersLife n) {a b : Nat} (h : a ≤ b) : L.upTo a <+: L.upTo b := by
  induction h with
  | refl => exact List.prefix_refl _
  | step _ ih => rw [L.upTo_succ]; exact ih.trans (List.prefix_append _ _)

theorem WorkersLife.member_le {n : Nat} (L : WorkersLife n) {m m' k : Nat} {u : RMember}
    (hu : (L.state m).members[k]? = some u) (h : m ≤ m') :
    ∃ s, (L.state m').members[k]? = some ⟨u.listener, s⟩ := by
  induction h with
  | refl => exact ⟨u.state, hu⟩
  | @step j hj ih =>
    obtain ⟨s, hs⟩ := ih
    have hlt := (List.getElem?_eq_some_iff.mp hs).1
    have hst := L.step j
    cases hx : L.label j with
    | none => rw [hx] at hst; simp only at hst; rw [hst]; exact ⟨s, hs⟩
    | some x =>
      rw [hx] at hst
      obtain ⟨_, ⟨l, q, rfl, e⟩ | ⟨hl, e, _⟩ | ⟨hl, i, y, mi, t, e1, e2, e, _, _⟩⟩ := Workers.step_members hst
      · exact ⟨s, by rw [e, List.getElem?_append_left hlt]; exact hs⟩
      · exact ⟨s, by rw [e]; exact hs⟩
      · by_cases hik : i = k
        · subst hik
          rw [hs] at e1
          cases e1
          exact ⟨t, by rw [e, List.getElem?_set_self hlt]⟩
        · exact ⟨s, by rw [e, List.getElem?_set_ne hik]; exact hs⟩

/-- What a step is for listening thread `k`, seen from outside. -/
def TLabel.at (k : Nat) (x : TLabel) : Option Label := (jobsAt k [x]).head?.bind visible

theorem TLabel.at_toList (k : Nat) (x : TLabel) : (x.at k).toList = (jobsAt k [x]).filterMap visible := by
  unfold TLabel.at
  have : jobsAt k [x] = [] ∨ ∃ y, jobsAt k [x] = [y] := by
    cases x <;> first | exact .inl rfl | (simp only [jobsAt]; split <;> first | exact .inl rfl | exact .inr ⟨_, rfl⟩)
  rcases this with h | ⟨y, h⟩ <;> rw [h]
  · rfl
  · cases hy : visible y <;> simp [hy]

/-- The life of the process, seen from instance `k`. -/
theorem WorkersLife.view {n : Nat} (L : WorkersLife n) (m k : Nat) (u : RMember)
    (hu : (L.state m).members[k]? = some u) :
    ∃ E : Execution u.listener, (launches (L.upTo m))[k]? = some (u.listener, E.queued) ∧
      (∀ j, E.label j = (L.label j).bind (TLabel.at k)) ∧
      (∀ j, E.upTo j = (jobsAt k (L.upTo j)).filterMap visible) ∧
      ∀ j, m ≤ j → ∃ s, (L.state j).members[k]? = some ⟨u.listener, s⟩ ∧ s.queue = (E.state j).queue ∧
        s.ready = (E.state j).ready ∧ s.trace = (E.state j).trace ∧ samePlace s.phase (E.state j).phase := by
  obtain ⟨q, hq, _⟩ := C89 n _ _ (L.run m) k u hu
  have hlater : ∀ j, m ≤ j → ∃ s st, (L.state j).members[k]? = some ⟨u.listener, s⟩ ∧
      u.listener.run (u.listener.init q) ((jobsAt k (L.upTo j)).filterMap visible) = some st ∧
      s.queue = st.queue ∧ s.ready = st.ready ∧ s.trace = st.trace ∧ samePlace s.phase st.phase := by
    intro j hj
    obtain ⟨s, hs⟩ := L.member_le hu hj
    obtain ⟨q', h1, h2⟩ := C89 n _ _ (L.run j) k _ hs
    obtain ⟨b, hb⟩ := L.upTo_le hj
    rw [← hb, launches_append, List.getElem?_append_left (List.getElem?_eq_some_iff.mp hq).1, hq] at h1
    cases h1
    obtain ⟨st, g1, g2, g3, _, g4, g5⟩ := C86_refines _ _ _ _ h2
    exact ⟨s, st, hs, g1, g2, g3, g4, g5⟩
  have hrun : ∀ j, ∃ st, u.listener.run (u.listener.init q) ((jobsAt k (L.upTo j)).filterMap visible) = some st := by
    intro j
    obtain ⟨_, st, _, h, _⟩ := hlater (max m j) (by omega)
    obtain ⟨b, hb⟩ := L.upTo_le (show j ≤ max m j by omega)
    rw [← hb, jobsAt_append, List.filterMap_append, run_append] at h
    cases hr : u.listener.run (u.listener.init q) ((jobsAt k (L.upTo j)).filterMap visible) with
    | none => rw [hr] at h; cases h
    | some st => exact ⟨st, rfl⟩
  let st : Nat → NetState := fun j => Classical.choose (hrun j)
  have hst : ∀ j, u.listener.run (u.listener.init q) ((jobsAt k (L.upTo j)).filterMap visible) = some (st j) :=
    fun j => Classical.choose_spec (hrun j)
  have hsucc : ∀ j, (jobsAt k (L.upTo (j + 1))).filterMap visible =
      (jobsAt k (L.upTo j)).filterMap visible ++ ((L.label j).bind (TLabel.at k)).toList := by
    intro j
    rw [L.upTo_succ, jobsAt_append, List.filterMap_append]
    congr 1
    cases L.label j with
    | none => rfl
    | some x => rw [Option.bind_some, TLabel.at_toList]; rfl
  have hstep : ∀ j, match (L.label j).bind (TLabel.at k) with
      | some x => u.listener.step (st j) x = some (st (j + 1))
      | none => st (j + 1) = st j := by
    intro j
    have h1 := hst (j + 1)
    rw [hsucc, run_append, hst j, Option.bind_some] at h1
    cases hx : (L.label j).bind (TLabel.at k) with
    | none =>
      rw [hx] at h1
      simp only [Option.toList_none, Listener.run, Option.some.injEq] at h1
      exact h1.symm
    | some x =>
      rw [hx] at h1
      simp only [Option.toList_some, Listener.run] at h1
      show u.listener.step (st j) x = some (st (j + 1))
      cases hs : u.listener.step (st j) x with
      | none => rw [hs] at h1; cases h1
      | some s' => rw [hs] at h1; exact h1
  have h0 : st 0 = u.listener.init q := by
    have := hst 0
    simp only [WorkersLife.upTo, List.range_zero, List.filterMap_nil, jobsAt, Listener.run, Option.some.injEq] at this
    exact this.symm
  refine ⟨⟨q, st, fun j => (L.label j).bind (TLabel.at k), h0, hstep⟩, hq, fun _ => rfl, ?_, ?_⟩
  · intro j
    induction j with
    | zero => rfl
    | succ j ih => rw [Execution.upTo_succ, ih, hsucc]
  · intro j hj
    obtain ⟨s, st', h1, h2, h3, h4, h5, h6⟩ := hlater j hj
    rw [hst j] at h2
    cases h2
    exact ⟨s, h1, h3, h4, h5, h6⟩

/-- It is as C79 needs it. -/
theorem WorkersLife.view_fair {n : Nat} (hn : 1 ≤ n) (L : WorkersLife n) (hf : L.Fair) (hl : L.Settled) (m k : Nat)
    (u : RMember) (hk : L.FairTo k) (hs : L.SmoothAt k) (hp : NoPanics u.listener) (E : Execution u.listener)
    (h1 : ∀ j, E.label j = (L.label j).bind (TLabel.at k))
    (h2 : ∀ j, m ≤ j → ∃ s, (L.state j).members[k]? = some ⟨u.listener, s⟩ ∧ s.queue = (E.state j).queue ∧
        s.ready = (E.state j).ready ∧ s.trace = (E.state j).trace ∧ samePlace s.phase (E.state j).phase) :
    E.Fair ∧ E.Smooth := by
  constructor
  · intro j hj
    refine Classical.byContradiction fun hno => ?_
    have hno : ∀ j' x, j ≤ j' → internal x = true → E.label j' ≠ some x := fun j' x a b c => hno ⟨j', x, a, b, c⟩
    have hout : ∀ j', max m j ≤ j' → ∃ x s, (x = .pollEvent ∨ x = .recv) ∧
        (L.state j').members[k]? = some ⟨u.listener, s⟩ ∧ (u.listener.rstep s x).isSome = true := by
      intro j' hj'
      obtain ⟨s, e1, e2, e3, e4, e5⟩ := h2 j' (by omega)
      obtain ⟨x, i1, i2⟩ := hj j' (by omega)
      cases hph : s.phase with
      | scope c p a ts pan =>
        exfalso
        obtain ⟨j'', w, d1, d2⟩ := C90 n hn L hf hl j' k _ e1 (by simp [hph, RPhase.outside])
        exact hno j'' .join (by omega) rfl (by rw [h1, d2]; simp [TLabel.at, jobsAt, visible])
      | polling =>
        rw [hph] at e5
        cases hE : (E.state j').phase <;> rw [hE] at e5 <;> simp only [samePlace] at e5
        cases x <;> simp only [internal, Bool.false_eq_true] at i1 <;> simp only [Listener.step, hE] at i2 <;>
          try (cases i2; done)
        refine ⟨.pollEvent, s, .inl rfl, e1, ?_⟩
        cases hr : (E.state j').ready with
        | false => rw [hr] at i2; cases i2
        | true => simp [Listener.rstep, hph, e3, hr]
      | handling c =>
        rw [hph] at e5
        cases hE : (E.state j').phase <;> rw [hE] at e5 <;> simp only [samePlace] at e5
        subst e5
        cases x <;> simp only [internal, Bool.false_eq_true] at i1 <;> simp only [Listener.step, hE] at i2 <;>
          try (cases i2; done)
        cases c with
        | zero => cases i2
        | succ c =>
          refine ⟨.recv, s, .inr rfl, e1, ?_⟩
          simp only [Listener.rstep, hph]
          split <;> rfl
      | stopped c =>
        rw [hph] at e5
        cases hE : (E.state j').phase <;> rw [hE] at e5 <;> simp only [samePlace] at e5
        cases x <;> simp only [internal, Bool.false_eq_true] at i1 <;> simp only [Listener.step, hE] at i2 <;> cases i2
    obtain ⟨j', x, d1, d2, d3⟩ := hk (max m j) (by
      intro j1 hj1
      obtain ⟨x, s, c1, c2, c3⟩ := hout j1 hj1
      refine ⟨j1, .io k x, Nat.le_refl _, by rcases c1 with rfl | rfl <;> simp, ?_⟩
      obtain ⟨t, ht⟩ := Option.isSome_iff_exists.mp c3
      rcases c1 with rfl | rfl <;> simp [Workers.step, RLabel.outer, Workers.act, c2, ht])
    rcases d2 with rfl | rfl
    · exact hno j' .pollEvent (by omega) rfl (by rw [h1, d3]; simp [TLabel.at, jobsAt, visible])
    · exact hno j' .recv (by omega) rfl (by rw [h1, d3]; simp [TLabel.at, jobsAt, visible])
  · intro j x hx
    rw [h1] at hx
    cases hy : L.label j with
    | none => rw [hy] at hx; cases hx
    | some y =>
      rw [hy, Option.bind_some] at hx
      have hst := L.step j
      rw [hy] at hst
      unfold TLabel.at at hx
      cases y <;> simp only [jobsAt] at hx <;> try (cases hx; done)
      all_goals split at hx <;> try (cases hx; done)
      all_goals rename_i he; subst he; simp only [List.head?_cons, Option.bind_some] at hx
      case right.some.io.isTrue y =>
        rcases hs j y hy with rfl | rfl | rfl | ⟨d, rfl⟩ <;> simp only [visible, Option.some.injEq] at hx <;> subst hx
        · exact .inl rfl
        · exact .inl rfl
        · exact .inr (.inl rfl)
        · exact .inr (.inr ⟨d, rfl⟩)
      case right.some.crash.isTrue w r hi =>
        exfalso
        obtain ⟨mm, t, a1, a2, a3, _⟩ := Workers.work_eq (by simpa only [Workers.step] using hst)
        have hmm : mm.listener = u.listener := by
          obtain ⟨s, b1⟩ := L.member_le a2 (show j ≤ max m j by omega)
          obtain ⟨s', b2, _⟩ := h2 (max m j) (by omega)
          rw [b1] at b2
          have b3 := Option.some.inj b2
          simp only [RMember.mk.injEq] at b3
          exact b3.1
        simp only [Listener.rstep] at a3
        split at a3
        · split at a3
          · rename_i hc
            have := hc.2
            unfold Listener.mayPanic at this
            rw [hmm] at this
            split at this
            · rename_i x hx
              rw [hp x (List.mem_of_getElem? hx)] at this
              cases this
            · cases this
          · cases a3
        · cases a3
      all_goals
        simp only [visible, Option.some.injEq] at hx
        subst hx
        exact .inl rfl

/-- C90. So, as long as datagrams for an instance keep coming, every single one of them sooner or later reaches every one
of its receivers, in order.  One pool thread is enough; the other instances may be as busy as they like, fail and
panic. -/
theorem C90_delivery (n : Nat) (hn : 1 ≤ n) (L : WorkersLife n) (hf : L.Fair) (hl : L.Settled) (m k : Nat) (u : RMember)
    (hu : (L.state m).members[k]? = some u) (hp : NoPanics u.listener) (hk : L.FairTo k) (hs : L.SmoothAt k)
    (he : L.EndlessAt k) (i : Nat) (d : Datagram) (hd : (L.incoming k m)[i]? = some d) :
    ∃ m' s, m ≤ m' ∧ (L.state m').members[k]? = some ⟨u.listener, s⟩ ∧
      ∀ r, r < u.listener.receivers.length →
        (callsOf r s.trace)[i]? = some (received u.listener.buffersize d) := by
  obtain ⟨E, e1, e2, e3, e4⟩ := L.view m k u hu
  obtain ⟨f1, f2⟩ := L.view_fair hn hf hl m k u hk hs hp E e2 e4
  have hend : E.Endless := by
    intro j
    obtain ⟨m', d', g1, g2⟩ := he j
    exact ⟨m', d', g1, by rw [e2, g2]; simp [TLabel.at, jobsAt, visible]⟩
  obtain ⟨m', h⟩ := C79 u.listener hp E f1 f2 hend m i d (by
    rw [e3]
    simpa only [WorkersLife.incoming, e1, Option.map_some, Option.getD_some, rarrivals] using hd)
  obtain ⟨s, g1, _, _, g2, _⟩ := e4 (max m m') (by omega)
  refine ⟨max m m', s, by omega, g1, fun r hr => ?_⟩
  obtain ⟨b, hb⟩ := E.trace_le (show m' ≤ max m m' by omega)
  rw [g2, ← hb, callsOf_append, List.getElem?_append_left (List.getElem?_eq_some_iff.mp (h r hr)).1]
  exact h r hr

/-- C90. A datagram that arrives at an instance whose socket is empty reaches all its receivers, whether or not
anything arrives after it, and whatever the load on the pool. -/
theorem C90_alone (n : Nat) (hn : 1 ≤ n) (L : WorkersLife n) (hf : L.Fair) (hl : L.Settled) (m k : Nat) (u : RMember)
    (hu : (L.state m).members[k]? = some u) (hp : NoPanics u.listener) (hk : L.FairTo k) (hs : L.SmoothAt k)
    (d : Datagram) (ha : L.label m = some (.io k (.arrive d))) (hq : u.state.queue = []) :
    ∃ m' s, m < m' ∧ (L.state m').members[k]? = some ⟨u.listener, s⟩ ∧
      ∀ r, r < u.listener.receivers.length →
        (callsOf r s.trace)[(L.incoming k m).length]? = some (received u.listener.buffersize d) := by
  obtain ⟨E, e1, e2, e3, e4⟩ := L.view m k u hu
  obtain ⟨f1, f2⟩ := L.view_fair hn hf hl m k u hk hs hp E e2 e4
  obtain ⟨s0, g0, g0', _⟩ := e4 m (Nat.le_refl _)
  have hs0 : u.state = s0 := congrArg RMember.state (Option.some.inj (hu.symm.trans g0))
  obtain ⟨m', h1, h2⟩ := C79_alone u.listener hp E f1 f2 m d
    (by rw [e2, ha]; simp [TLabel.at, jobsAt, visible]) (by rw [← g0', ← hs0, hq])
  obtain ⟨s, g1, _, _, g2, _⟩ := e4 m' (by omega)
  refine ⟨m', s, h1, g1, fun r hr => ?_⟩
  have := h2 r hr
  rw [e3] at this
  rw [g2]
  simpa only [WorkersLife.incoming, e1, Option.map_some, Option.getD_some, rarrivals] using this

/-! ## A concrete case -/

/-- A listening thread with one receiver, at step `j` of round `k` (see `liveState`). -/
def rliveState (k j : Nat) : RState :=
  let t := (List.replicate k liveEvents).flatten
  let d := RPhase.scope 0 ⟨[]⟩ ⟨.v4 1 1 1 1 1⟩
  match j with
  | 0 => ⟨[], false, List.replicate 16 0, .polling, t⟩
  | 1 => ⟨[liveDatagram], true, List.replicate 16 0, .polling, t⟩
  | 2 => ⟨[liveDatagram], false, List.replicate 16 0, .handling 1, t⟩
  | 3 => ⟨[], false, List.replicate 16 0, d [.pending 0 1] false, t ++ liveEvents.take 1⟩
  | 4 => ⟨[], false, List.replicate 16 0, d [.between 0 1] false, t ++ liveEvents.take 1⟩
  | 5 => ⟨[], false, List.replicate 16 0, d [.inside 0 1] false, t ++ liveEvents.take 2⟩
  | 6 => ⟨[], false, List.replicate 16 0, d [.between 1 1] false, t ++ liveEvents⟩
  | _ => ⟨[], false, List.replicate 16 0, d [] false, t ++ liveEvents⟩

def rliveLabel : Nat → RLabel
  | 0 => .arrive liveDatagram
  | 1 => .pollEvent
  | 2 => .recv
  | 3 => .begin 0 1
  | 4 => .call 0 1
  | 5 => .finish 0 1
  | 6 => .done 1
  | _ => .join

theorem rlive_step (k j : Nat) (hj : j < 8) :
    liveListener.rstep (rliveState k j) (rliveLabel j) =
      some (if j = 7 then rliveState (k + 1) 0 else rliveState k (j + 1)) := by
  match j, hj with
  | 0, _ => rfl
  | 1, _ => rfl
  | 2, _ => rfl
  | 3, _ => simp [rliveState, rliveLabel, Listener.rstep, liveEvents]
  | 4, _ => simp [rliveState, rliveLabel, Listener.rstep, liveEvents]
  | 5, _ => simp [rliveState, rliveLabel, Listener.rstep, liveEvents]
  | 6, _ => simp [rliveState, rliveLabel, Listener.rstep, liveEvents]
  | 7, _ =>
    simp [rliveState, rliveLabel, Listener.rstep, rafterEvent, List.replicate_succ', List.flatten_append]

/-- Two instances on a pool with one thread. -/
def pair (a b : RState) (F : List Frame) : Workers :=
  ⟨1, [⟨liveListener, a⟩, ⟨liveListener, b⟩], F.map fun f => (0, f)⟩

/-- A round: both get a datagram; the pool thread begins with the first, then with the second, executes the job of the
first on top of both, then that of the second; so the first, which is done first, has to wait for the second. -/
def pairState (c j : Nat) : Workers :=
  match j with
  | 0 => pair (rliveState c 0) (rliveState c 0) []
  | 1 => pair (rliveState c 1) (rliveState c 0) []
  | 2 => pair (rliveState c 1) (rliveState c 1) []
  | 3 => pair (rliveState c 2) (rliveState c 1) []
  | 4 => pair (rliveState c 2) (rliveState c 2) []
  | 5 => pair (rliveState c 3) (rliveState c 2) []
  | 6 => pair (rliveState c 3) (rliveState c 3) []
  | 7 => pair (rliveState c 3) (rliveState c 3) [.scope 0]
  | 8 => pair (rliveState c 3) (rliveState c 3) [.scope 1, .scope 0]
  | 9 => pair (rliveState c 3) (rliveState c 3) [.hand 0 0 1, .scope 1, .scope 0]
  | 10 => pair (rliveState c 4) (rliveState c 3) [.leaf 0 1, .scope 1, .scope 0]
  | 11 => pair (rliveState c 5) (rliveState c 3) [.leaf 0 1, .scope 1, .scope 0]
  | 12 => pair (rliveState c 6) (rliveState c 3) [.leaf 0 1, .scope 1, .scope 0]
  | 13 => pair (rliveState c 7) (rliveState c 3) [.scope 1, .scope 0]
  | 14 => pair (rliveState c 7) (rliveState c 3) [.hand 1 0 1, .scope 1, .scope 0]
  | 15 => pair (rliveState c 7) (rliveState c 4) [.leaf 1 1, .scope 1, .scope 0]
  | 16 => pair (rliveState c 7) (rliveState c 5) [.leaf 1 1, .scope 1, .scope 0]
  | 17 => pair (rliveState c 7) (rliveState c 6) [.leaf 1 1, .scope 1, .scope 0]
  | 18 => pair (rliveState c 7) (rliveState c 7) [.scope 1, .scope 0]
  | _ => pair (rliveState c 7) (rliveState (c + 1) 0) [.scope 0]

def pairLabel : Nat → TLabel
  | 0 => .io 0 (.arrive liveDatagram)
  | 1 => .io 1 (.arrive liveDatagram)
  | 2 => .io 0 .pollEvent
  | 3 => .io 1 .pollEvent
  | 4 => .io 0 .recv
  | 5 => .io 1 .recv
  | 6 => .enter 0 0
  | 7 => .enter 0 1
  | 8 => .take 0 0 0 1
  | 9 => .begin 0 0 0 1
  | 10 => .call 0 0 0 1
  | 11 => .finish 0 0 0 1
  | 12 => .done 0 0 1
  | 13 => .take 0 1 0 1
  | 14 => .begin 0 1 0 1
  | 15 => .call 0 1 0 1
  | 16 => .finish 0 1 0 1
  | 17 => .done 0 1 1
  | 18 => .exit 0 1
  | _ => .exit 0 0

theorem pair_first {a a' b : RState} {F : List Frame} {x : RLabel} (h : liveListener.rstep a x = some a') :
    (pair a b F).act 0 x = some (pair a' b F) := by
  simp [Workers.act, pair, h]

theorem pair_second {a b b' : RState} {F : List Frame} {x : RLabel} (h : liveListener.rstep b x = some b') :
    (pair a b F).act 1 x = some (pair a b' F) := by
  simp [Workers.act, pair, h]

theorem pair_work {a b a' b' : RState} {F new : List Frame} {f : Frame} {k : Nat} {x : RLabel}
    (h : (pair a b (f :: F)).act k x = some (pair a' b' (f :: F))) :
    (pair a b (f :: F)).work 0 f k x new = some (pair a' b' (new ++ F)) := by
  unfold Workers.work
  rw [if_pos (by simp [Workers.top, pair]), h]
  simp [pair]

theorem pair_step (c j : Nat) (hj : j < 20) :
    (pairState c j).step (pairLabel j) = some (if j = 19 then pairState (c + 1) 0 else pairState c (j + 1)) := by
  have h := fun c j (hj : j < 8) => rlive_step c j hj
  match j, hj with
  | 0, _ => exact pair_first (h c 0 (by omega))
  | 1, _ => exact pair_second (h c 0 (by omega))
  | 2, _ => exact pair_first (h c 1 (by omega))
  | 3, _ => exact pair_second (h c 1 (by omega))
  | 4, _ => exact pair_first (h c 2 (by omega))
  | 5, _ => exact pair_second (h c 2 (by omega))
  | 6, _ => rfl
  | 7, _ => rfl
  | 8, _ => rfl
  | 9, _ => exact pair_work (new := [.leaf 0 1]) (pair_first (h c 3 (by omega)))
  | 10, _ => exact pair_work (new := [.leaf 0 1]) (pair_first (h c 4 (by omega)))
  | 11, _ => exact pair_work (new := [.leaf 0 1]) (pair_first (h c 5 (by omega)))
  | 12, _ => exact pair_work (new := []) (pair_first (h c 6 (by omega)))
  | 13, _ => rfl
  | 14, _ => exact pair_work (new := [.leaf 1 1]) (pair_second (h c 3 (by omega)))
  | 15, _ => exact pair_work (new := [.leaf 1 1]) (pair_second (h c 4 (by omega)))
  | 16, _ => exact pair_work (new := [.leaf 1 1]) (pair_second (h c 5 (by omega)))
  | 17, _ => exact pair_work (new := []) (pair_second (h c 6 (by omega)))
  | 18, _ =>
    have : (pairState c 18).over (.scope 1) = true := rfl
    simp only [pairLabel, Workers.step, this, if_true]
    exact pair_work (new := []) (pair_second (h c 7 (by omega)))
  | 19, _ =>
    have : (pairState c 19).over (.scope 0) = true := rfl
    simp only [pairLabel, Workers.step, this, if_true]
    exact pair_work (new := []) (pair_first (h c 7 (by omega)))
  | j + 20, hj => exact absurd hj (by omega)

/-- Both instances live for ever on one pool thread. -/
def pairLife : WorkersLife 1 where
  state m := match m with
    | 0 => ⟨1, [], []⟩
    | 1 => ⟨1, [⟨liveListener, liveListener.rinit []⟩], []⟩
    | m + 2 => pairState (m / 20) (m % 20)
  label m := match m with
    | 0 => some (.launch liveListener [])
    | 1 => some (.launch liveListener [])
    | m + 2 => some (pairLabel (m % 20))
  start := rfl
  step m := by
    match m with
    | 0 => rfl
    | 1 => rfl
    | m + 2 =>
      show (pairState (m / 20) (m % 20)).step (pairLabel (m % 20)) = some (pairState ((m + 1) / 20) ((m + 1) % 20))
      rw [pair_step _ _ (Nat.mod_lt _ (by omega))]
      by_cases h : m % 20 = 19
      · rw [if_pos h, show (m + 1) / 20 = m / 20 + 1 by omega, show (m + 1) % 20 = 0 by omega]
      · rw [if_neg h, show (m + 1) / 20 = m / 20 by omega, show (m + 1) % 20 = m % 20 + 1 by omega]

theorem pair_label (c j : Nat) (hj : j < 20) : pairLife.label (20 * c + j + 2) = some (pairLabel j) := by
  show some (pairLabel ((20 * c + j) % 20)) = _
  rw [show (20 * c + j) % 20 = j by omega]

/-- What never happens in it: a wait for a second half, a range other than that of the only receiver. -/
theorem pair_facts (m : Nat) :
    (∀ x ∈ (pairLife.state m).frames, x.2.joins = false) ∧
    ∀ k ts, (pairLife.state m).jobs k = some ts → k < 2 ∧ ∀ lo hi, .pending lo hi ∈ ts → lo = 0 ∧ hi = 1 := by
  match m with
  | 0 => exact ⟨by simp [pairLife], fun k ts h => by simp [pairLife, Workers.jobs] at h⟩
  | 1 =>
    refine ⟨by simp [pairLife], fun k ts h => ?_⟩
    match k with
    | 0 => cases h
    | k + 1 => simp [pairLife, Workers.jobs] at h
  | m + 2 =>
    show (∀ x ∈ (pairState (m / 20) (m % 20)).frames, x.2.joins = false) ∧
      ∀ k ts, (pairState (m / 20) (m % 20)).jobs k = some ts → k < 2 ∧ ∀ lo hi, .pending lo hi ∈ ts → lo = 0 ∧ hi = 1
    have hlt : m % 20 < 20 := Nat.mod_lt _ (by omega)
    have htask : ∀ c j ts, (rliveState c j).jobs = some ts → ∀ lo hi, Task.pending lo hi ∈ ts → lo = 0 ∧ hi = 1 := by
      intro c j ts h lo hi hm
      match j with
      | 0 => cases h
      | 1 => cases h
      | 2 => cases h
      | 3 => cases h; simpa using hm
      | 4 => cases h; simp at hm
      | 5 => cases h; simp at hm
      | 6 => cases h; simp at hm
      | j + 7 => cases h; simp at hm
    have hjobs : ∀ c i c' i' F k ts, (pair (rliveState c i) (rliveState c' i') F).jobs k = some ts →
        k < 2 ∧ ∀ lo hi, .pending lo hi ∈ ts → lo = 0 ∧ hi = 1 := by
      intro c i c' i' F k ts h
      match k with
      | 0 => exact ⟨by omega, htask c i ts h⟩
      | 1 => exact ⟨by omega, htask c' i' ts h⟩
      | k + 2 => simp [pair, Workers.jobs] at h
    have hframes : ∀ a b F, (∀ f ∈ F, Frame.joins f = false) → ∀ x ∈ (pair a b F).frames, x.2.joins = false := by
      intro a b F hF x hx
      obtain ⟨f, hf, rfl⟩ := List.mem_map.mp hx
      exact hF f hf
    generalize m / 20 = c
    match m % 20, hlt with
    | 0, _ => exact ⟨hframes _ _ _ (by decide), hjobs _ _ _ _ _⟩
    | 1, _ => exact ⟨hframes _ _ _ (by decide), hjobs _ _ _ _ _⟩
    | 2, _ => exact ⟨hframes _ _ _ (by decide), hjobs _ _ _ _ _⟩
    | 3, _ => exact ⟨hframes _ _ _ (by decide), hjobs _ _ _ _ _⟩
    | 4, _ => exact ⟨hframes _ _ _ (by decide), hjobs _ _ _ _ _⟩
    | 5, _ => exact ⟨hframes _ _ _ (by decide), hjobs _ _ _ _ _⟩
    | 6, _ => exact ⟨hframes _ _ _ (by decide), hjobs _ _ _ _ _⟩
    | 7, _ => exact ⟨hframes _ _ _ (by decide), hjobs _ _ _ _ _⟩
    | 8, _ => exact ⟨hframes _ _ _ (by decide), hjobs _ _ _ _ _⟩
    | 9, _ => exact ⟨hframes _ _ _ (by decide), hjobs _ _ _ _ _⟩
    | 10, _ => exact ⟨hframes _ _ _ (by decide), hjobs _ _ _ _ _⟩
    | 11, _ => exact ⟨hframes _ _ _ (by decide), hjobs _ _ _ _ _⟩
    | 12, _ => exact ⟨hframes _ _ _ (by decide), hjobs _ _ _ _ _⟩
    | 13, _ => exact ⟨hframes _ _ _ (by decide), hjobs _ _ _ _ _⟩
    | 14, _ => exact ⟨hframes _ _ _ (by decide), hjobs _ _ _ _ _⟩
    | 15, _ => exact ⟨hframes _ _ _ (by decide), hjobs _ _ _ _ _⟩
    | 16, _ => exact ⟨hframes _ _ _ (by decide), hjobs _ _ _ _ _⟩
    | 17, _ => exact ⟨hframes _ _ _ (by decide), hjobs _ _ _ _ _⟩
    | 18, _ => exact ⟨hframes _ _ _ (by decide), hjobs _ _ _ _ _⟩
    | 19, _ => exact ⟨hframes _ _ _ (by decide), hjobs _ _ _ _ _⟩
    | j + 20, hj => exact absurd hj (by omega)

theorem pair_fair : pairLife.Fair where
  works m w f h _ := by
    have hw : w < 1 := (pairLife.good m).stacks.owner _ (Workers.top_mem h)
    exact ⟨20 * m + 6 + 2, _, by omega, pair_label m 6 (by omega), by simp [pairLabel, TLabel.thread]; omega⟩
  resumes w k mid hi m h := by
    exfalso
    obtain ⟨m2, x, _, rfl, h2⟩ := h m (Nat.le_refl _)
    simp only [Workers.step] at h2
    split at h2
    · rename_i hc
      exact absurd ((pair_facts m2).1 _ (Workers.top_mem hc.1)) (by simp [Frame.joins])
    · cases h2
  exits w k m h := by
    obtain ⟨m2, x, _, rfl, h2⟩ := h m (Nat.le_refl _)
    obtain ⟨s', hs⟩ := Option.isSome_iff_exists.mp h2
    have hmem := Workers.top_mem (Workers.exit_frames hs).1
    have hw : w < 1 := (pairLife.good m2).stacks.owner _ hmem
    obtain ⟨ts, hts⟩ := Option.isSome_iff_exists.mp (pairLife.member hmem)
    have hk := ((pair_facts m2).2 k ts hts).1
    obtain rfl : w = 0 := by omega
    match k, hk with
    | 0, _ => exact ⟨20 * m + 19 + 2, _, by omega, rfl, pair_label m 19 (by omega)⟩
    | 1, _ => exact ⟨20 * m + 18 + 2, _, by omega, rfl, pair_label m 18 (by omega)⟩
  takes k lo hi m h := by
    obtain ⟨m2, x, _, ⟨w, rfl⟩, h2⟩ := h m (Nat.le_refl _)
    simp only [Workers.step] at h2
    split at h2
    · cases h2
    · rename_i ts hts
      split at h2
      · rename_i hc
        obtain ⟨hk, ht⟩ := (pair_facts m2).2 k ts hts
        obtain ⟨rfl, rfl⟩ := ht lo hi hc.2.2.1
        match k, hk with
        | 0, _ => exact ⟨20 * m + 8 + 2, _, by omega, ⟨0, rfl⟩, pair_label m 8 (by omega)⟩
        | 1, _ => exact ⟨20 * m + 13 + 2, _, by omega, ⟨0, rfl⟩, pair_label m 13 (by omega)⟩
      · cases h2
  enters k m h := by
    obtain ⟨m2, x, _, ⟨w, rfl⟩, h2⟩ := h m (Nat.le_refl _)
    simp only [Workers.step] at h2
    split at h2
    · rename_i hc
      obtain ⟨ts, hts⟩ := Option.isSome_iff_exists.mp hc.2.1
      match k, ((pair_facts m2).2 k ts hts).1 with
      | 0, _ => exact ⟨20 * m + 6 + 2, _, by omega, ⟨0, rfl⟩, pair_label m 6 (by omega)⟩
      | 1, _ => exact ⟨20 * m + 7 + 2, _, by omega, ⟨0, rfl⟩, pair_label m 7 (by omega)⟩
    · cases h2

/-- The hypotheses of `C90`, `C90_delivery` and `C90_alone` can be met for both instances. -/
example : pairLife.Fair ∧ pairLife.Settled ∧
    (∃ u, (pairLife.state 20).members[0]? = some u ∧ u.state.phase.outside = false) ∧
    ∀ k, k < 2 → pairLife.FairTo k ∧ pairLife.SmoothAt k ∧ pairLife.EndlessAt k ∧
    (∃ u, (pairLife.state 2).members[k]? = some u ∧ NoPanics u.listener ∧ u.listener.receivers.length = 1 ∧
      u.state.queue = []) ∧ (pairLife.incoming k 50)[1]? = some liveDatagram := by
  refine ⟨pair_fair, ⟨2, ?_⟩, ⟨_, rfl, rfl⟩, ?_⟩
  · intro m l q hm hx
    match m, hm with
    | m + 2, _ =>
      have hx : pairLabel (m % 20) = .launch l q := Option.some.inj hx
      unfold pairLabel at hx
      split at hx <;> cases hx
  · intro k hk
    refine ⟨?_, ?_, ?_, ?_, ?_⟩
    · intro m _
      match k, hk with
      | 0, _ => exact ⟨20 * m + 2 + 2, _, by omega, .inl rfl, pair_label m 2 (by omega)⟩
      | 1, _ => exact ⟨20 * m + 3 + 2, _, by omega, .inl rfl, pair_label m 3 (by omega)⟩
    · intro m x hx
      match m with
      | 0 => cases hx
      | 1 => cases hx
      | m + 2 =>
        have hx : pairLabel (m % 20) = .io k x := Option.some.inj hx
        unfold pairLabel at hx
        split at hx <;> cases hx <;> simp
    · intro m
      match k, hk with
      | 0, _ => exact ⟨20 * m + 0 + 2, liveDatagram, by omega, pair_label m 0 (by omega)⟩
      | 1, _ => exact ⟨20 * m + 1 + 2, liveDatagram, by omega, pair_label m 1 (by omega)⟩
    · match k, hk with
      | 0, _ => exact ⟨_, rfl, by simp [NoPanics, liveListener], rfl, rfl⟩
      | 1, _ => exact ⟨_, rfl, by simp [NoPanics, liveListener], rfl, rfl⟩
    · match k, hk with
      | 0, _ => rfl
      | 1, _ => rfl

/-! ## Why there must be an end to starting instances -/

def quietListener : Listener := ⟨[], 16⟩

/-- A listening thread without receivers, at step `j` of handing over its only packet. -/
def quietState : Nat → RState
  | 0 => quietListener.rinit [liveDatagram]
  | 1 => ⟨[liveDatagram], false, List.replicate 16 0, .handling 1, []⟩
  | 2 => ⟨[], false, List.replicate 16 0, .scope 0 ⟨[]⟩ ⟨.v4 1 1 1 1 1⟩ [.pending 0 0] false, liveEvents.take 1⟩
  | 3 => ⟨[], false, List.replicate 16 0, .scope 0 ⟨[]⟩ ⟨.v4 1 1 1 1 1⟩ [.between 0 0] false, liveEvents.take 1⟩
  | _ => ⟨[], false, List.replicate 16 0, .scope 0 ⟨[]⟩ ⟨.v4 1 1 1 1 1⟩ [] false, liveEvents.take 1⟩

/-- The waits for the first `i` of them, the last one on top. -/
def pile : Nat → List (Nat × Frame)
  | 0 => []
  | i + 1 => (0, .scope i) :: pile i

/-- `i` instances whose packet is handed over, each waiting for the pool thread to come back; the next is at step `j`. -/
def pileOf (n i j : Nat) (F : List (Nat × Frame)) : Workers :=
  ⟨n, List.replicate i ⟨quietListener, quietState 4⟩ ++ [⟨quietListener, quietState j⟩], F⟩

def pileState (n i : Nat) : Nat → Workers
  | 0 => ⟨n, List.replicate i ⟨quietListener, quietState 4⟩, pile i⟩
  | 1 => pileOf n i 0 (pile i)
  | 2 => pileOf n i 1 (pile i)
  | 3 => pileOf n i 2 (pile i)
  | 4 => pileOf n i 2 (pile (i + 1))
  | 5 => pileOf n i 2 ((0, .hand i 0 0) :: pile (i + 1))
  | _ => pileOf n i 3 ((0, .leaf i 0) :: pile (i + 1))

def pileLabel (i : Nat) : Nat → TLabel
  | 0 => .launch quietListener [liveDatagram]
  | 1 => .io i .pollEvent
  | 2 => .io i .recv
  | 3 => .enter 0 i
  | 4 => .take 0 i 0 0
  | 5 => .begin 0 i 0 0
  | _ => .done 0 i 0

theorem pile_act {n i j j' : Nat} {F : List (Nat × Frame)} {x : RLabel}
    (h : quietListener.rstep (quietState j) x = some (quietState j')) :
    (pileOf n i j F).act i x = some (pileOf n i j' F) := by
  unfold Workers.act
  have h1 : (pileOf n i j F).members[i]? = some ⟨quietListener, quietState j⟩ := by
    simp [pileOf]
  rw [h1]
  simp only [h]
  simp [pileOf, List.set_append_right]

theorem pile_mem {i : Nat} {x : Nat × Frame} (h : x ∈ pile i) : ∃ k, k < i ∧ x = (0, .scope k) := by
  induction i with
  | zero => cases h
  | succ i ih =>
    rcases List.mem_cons.mp h with rfl | h
    · exact ⟨i, by omega, rfl⟩
    · obtain ⟨k, h1, h2⟩ := ih h
      exact ⟨k, by omega, h2⟩

theorem pile_free {n i : Nat} (hn : 1 ≤ n) (ms : List RMember) : (Workers.mk n ms (pile i)).free 0 = true := by
  unfold Workers.free
  have : 0 < n := hn
  cases i <;> simp [Workers.top, pile, this, Frame.waits]

theorem pile_jobs {n i j : Nat} {F : List (Nat × Frame)} : (pileOf n i j F).jobs i = (quietState j).jobs := by
  simp [Workers.jobs, pileOf]

theorem pile_step (n i j : Nat) (hn : 1 ≤ n) (hj : j < 7) :
    (pileState n i j).step (pileLabel i j) = some (if j = 6 then pileState n (i + 1) 0 else pileState n i (j + 1)) := by
  match j, hj with
  | 0, _ => rfl
  | 1, _ => exact pile_act (j := 0) (j' := 1) rfl
  | 2, _ => exact pile_act (j := 1) (j' := 2) rfl
  | 3, _ =>
    have h1 : (pileState n i 3).free 0 = true := pile_free hn _
    have h2 : (pileState n i 3).jobs i = some [.pending 0 0] := pile_jobs
    have h3 : (pileState n i 3).entered i = false := by
      simp only [Workers.entered, List.any_eq_false, beq_iff_eq]
      intro x hx he
      obtain ⟨k, h, rfl⟩ := pile_mem hx
      cases he
      omega
    simp [pileLabel, Workers.step, h1, h2, h3]
    rfl
  | 4, _ =>
    have h1 : (pileState n i 4).free 0 = true := pile_free (i := i + 1) hn _
    have h2 : (pileState n i 4).jobs i = some [.pending 0 0] := pile_jobs
    have h3 : (pileState n i 4).entered i = true := by
      simp [Workers.entered, pileState, pileOf, pile]
    have h4 : (pileState n i 4).taken i 0 0 = false := by
      simp only [Workers.taken, List.any_eq_false, beq_iff_eq]
      intro x hx he
      obtain ⟨k, h, rfl⟩ := pile_mem (i := i + 1) hx
      cases he
    simp [pileLabel, Workers.step, h1, h2, h3, h4]
    rfl
  | 5, _ =>
    have h : (pileState n i 5).act i (.begin 0 0) = some (pileOf n i 3 ((0, .hand i 0 0) :: pile (i + 1))) :=
      pile_act (j := 2) (j' := 3) rfl
    simp only [pileLabel, Workers.step, Workers.work, h]
    rw [if_pos (by simp [Workers.top, pileState, pileOf])]
    simp [pileState, pileOf]
  | 6, _ =>
    have h : (pileState n i 6).act i (.done 0) = some (pileOf n i 4 ((0, .leaf i 0) :: pile (i + 1))) :=
      pile_act (j := 3) (j' := 4) rfl
    simp only [pileLabel, Workers.step, Workers.work, h]
    rw [if_pos (by simp [Workers.top, pileState, pileOf])]
    simp [pileState, pileOf, List.replicate_succ']

/-- One instance after the other is started and gets a packet, for ever. -/
def pileLife (n : Nat) (hn : 1 ≤ n) : WorkersLife n where
  state m := pileState n (m / 7) (m % 7)
  label m := some (pileLabel (m / 7) (m % 7))
  start := rfl
  step m := by
    show (pileState n (m / 7) (m % 7)).step (pileLabel (m / 7) (m % 7)) = some (pileState n ((m + 1) / 7) ((m + 1) % 7))
    rw [pile_step _ _ _ hn (Nat.mod_lt _ (by omega))]
    by_cases h : m % 7 = 6
    · rw [if_pos h, show (m + 1) / 7 = m / 7 + 1 by omega, show (m + 1) % 7 = 0 by omega]
    · rw [if_neg h, show (m + 1) / 7 = m / 7 by omega, show (m + 1) % 7 = m % 7 + 1 by omega]

/-- Who was started earlier has its packet handed over, and the pool thread is busy on top of that. -/
theorem pile_facts (n i j k : Nat) (hj : j < 7) (hk : k + 1 < i) :
    (pileState n i j).members[k]? = some ⟨quietListener, quietState 4⟩ ∧ (0, .scope k) ∈ (pileState n i j).frames ∧
    (∀ x ∈ (pileState n i j).frames, x.2.joins = false) ∧ ∀ w, (pileState n i j).top w ≠ some (.scope k) := by
  have hin : ∀ i, k < i → (0, .scope k) ∈ pile i := by
    intro i hi
    induction i with
    | zero => omega
    | succ i ih =>
      by_cases he : k = i
      · subst he; simp [pile]
      · exact List.mem_cons_of_mem _ (ih (by omega))
  have hm : ∀ j F, (pileOf n i j F).members[k]? = some ⟨quietListener, quietState 4⟩ := by
    intro j F
    simp only [pileOf]
    rw [List.getElem?_append_left (by simp; omega), List.getElem?_replicate, if_pos (by omega)]
  have hjoin : ∀ i, ∀ x ∈ pile i, x.2.joins = false := by
    intro i x hx
    obtain ⟨k, _, rfl⟩ := pile_mem hx
    rfl
  have htop : ∀ f F ms w, f ≠ .scope k → (∀ x ∈ F, x.1 = 0) → (Workers.mk n ms ((0, f) :: F)).top w ≠ some (.scope k) := by
    intro f F ms w hf hF h
    unfold Workers.top at h
    rw [Option.map_eq_some_iff] at h
    obtain ⟨a, h1, h2⟩ := h
    have h3 := List.find?_some h1
    simp only [beq_iff_eq] at h3
    have h4 := List.mem_of_find?_eq_some h1
    have h5 : a.1 = 0 := by
      rcases List.mem_cons.mp h4 with rfl | h4
      · rfl
      · exact hF a h4
    rw [h5] at h3
    subst h3
    simp only [List.find?_cons, beq_self_eq_true, Option.some.injEq] at h1
    subst h1
    exact hf h2
  have hzero : ∀ i, ∀ x ∈ pile i, x.1 = 0 := by
    intro i x hx
    obtain ⟨k, _, rfl⟩ := pile_mem hx
    rfl
  obtain ⟨i', rfl⟩ : ∃ i', i = i' + 1 := ⟨i - 1, by omega⟩
  have hne : (Frame.scope i') ≠ .scope k := by intro h; cases h; omega
  have hne' : (Frame.scope (i' + 1)) ≠ .scope k := by intro h; cases h; omega
  match j, hj with
  | 0, _ =>
    refine ⟨?_, hin _ (by omega), hjoin _, fun w => htop _ _ _ w hne (hzero _)⟩
    simp only [pileState]
    rw [List.getElem?_replicate, if_pos (by omega)]
  | 1, _ => exact ⟨hm _ _, hin _ (by omega), hjoin _, fun w => htop _ _ _ w hne (hzero _)⟩
  | 2, _ => exact ⟨hm _ _, hin _ (by omega), hjoin _, fun w => htop _ _ _ w hne (hzero _)⟩
  | 3, _ => exact ⟨hm _ _, hin _ (by omega), hjoin _, fun w => htop _ _ _ w hne (hzero _)⟩
  | 4, _ => exact ⟨hm _ _, hin _ (by omega), hjoin _, fun w => htop _ _ _ w hne' (hzero _)⟩
  | 5, _ =>
    refine ⟨hm _ _, List.mem_cons_of_mem _ (hin _ (by omega)), ?_, fun w => htop _ _ _ w (by simp) (hzero _)⟩
    intro x hx
    rcases List.mem_cons.mp hx with rfl | hx
    · rfl
    · exact hjoin _ x hx
  | 6, _ =>
    refine ⟨hm _ _, List.mem_cons_of_mem _ (hin _ (by omega)), ?_, fun w => htop _ _ _ w (by simp) (hzero _)⟩
    intro x hx
    rcases List.mem_cons.mp hx with rfl | hx
    · rfl
    · exact hjoin _ x hx

/-- C90. Without an end to the starting of instances this need not be so: on a pool of any size and however fair it is,
a thread may be buried under more and more waits, and a packet whose every receiver has been called for long is never
through. -/
theorem C90_endless_starts (n : Nat) (hn : 1 ≤ n) :
    ∃ L : WorkersLife n, L.Fair ∧ (∀ k, L.FairTo k ∧ L.SmoothAt k) ∧
      ∃ m u e p a, (L.state m).members[0]? = some u ∧ u.state.phase = .scope e p a [] false ∧
        ∀ m', m ≤ m' → (L.state m').members[0]? = some u ∧ ∀ w, L.label m' ≠ some (.exit w 0) := by
  have hlate : ∀ k m, 7 * (k + 2) ≤ m → k + 1 < m / 7 := by
    intro k m h
    omega
  have hf : ∀ k m, 7 * (k + 2) ≤ m → _ := fun k m h => pile_facts n (m / 7) (m % 7) k (Nat.mod_lt _ (by omega)) (hlate k m h)
  have hjobs : ∀ k m, 7 * (k + 2) ≤ m → ((pileLife n hn).state m).jobs k = some [] := by
    intro k m h
    have := (hf k m h).1
    show (pileState n (m / 7) (m % 7)).jobs k = some []
    rw [Workers.jobs_of this]
    rfl
  have hent : ∀ k m, 7 * (k + 2) ≤ m → ((pileLife n hn).state m).entered k = true := by
    intro k m h
    simp only [Workers.entered, List.any_eq_true, beq_iff_eq]
    exact ⟨_, (hf k m h).2.1, rfl⟩
  refine ⟨pileLife n hn, ⟨?_, ?_, ?_, ?_, ?_⟩, ?_, ?_⟩
  · intro m w f h _
    have hw : w = 0 := by
      have hmem := Workers.top_mem h
      have hzero : ∀ i, ∀ x ∈ pile i, x.1 = 0 := by
        intro i x hx
        obtain ⟨k, _, rfl⟩ := pile_mem hx
        rfl
      have hall : ∀ i j, j < 7 → ∀ x ∈ (pileState n i j).frames, x.1 = 0 := by
        intro i j hj x hx
        match j, hj with
        | 0, _ => exact hzero _ x hx
        | 1, _ => exact hzero _ x hx
        | 2, _ => exact hzero _ x hx
        | 3, _ => exact hzero _ x hx
        | 4, _ => exact hzero _ x hx
        | 5, _ =>
          rcases List.mem_cons.mp hx with rfl | hx
          · rfl
          · exact hzero _ x hx
        | 6, _ =>
          rcases List.mem_cons.mp hx with rfl | hx
          · rfl
          · exact hzero _ x hx
      exact hall _ _ (Nat.mod_lt _ (by omega)) _ hmem
    subst hw
    refine ⟨7 * m + 3, _, by omega, rfl, ?_⟩
    show (pileLabel ((7 * m + 3) / 7) ((7 * m + 3) % 7)).thread = some 0
    rw [show (7 * m + 3) % 7 = 3 by omega]
    rfl
  · intro w k mid hi m h
    exfalso
    obtain ⟨m2, x, h1, rfl, h2⟩ := h (max m (7 * (0 + 2))) (by omega)
    simp only [Workers.step] at h2
    split at h2
    · rename_i hc
      exact absurd ((hf 0 m2 (by omega)).2.2.1 _ (Workers.top_mem hc.1)) (by simp [Frame.joins])
    · cases h2
  · intro w k m h
    exfalso
    obtain ⟨m2, x, h1, rfl, h2⟩ := h (max m (7 * (k + 2))) (by omega)
    obtain ⟨s', hs⟩ := Option.isSome_iff_exists.mp h2
    exact (hf k m2 (by omega)).2.2.2 w (Workers.exit_frames hs).1
  · intro k lo hi m h
    exfalso
    obtain ⟨m2, x, h1, ⟨w, rfl⟩, h2⟩ := h (max m (7 * (k + 2))) (by omega)
    simp [Workers.step, hjobs k m2 (by omega)] at h2
  · intro k m h
    exfalso
    obtain ⟨m2, x, h1, ⟨w, rfl⟩, h2⟩ := h (max m (7 * (k + 2))) (by omega)
    simp [Workers.step, hent k m2 (by omega)] at h2
  · intro k
    constructor
    · intro m h
      exfalso
      obtain ⟨m2, x, h1, h2, h3⟩ := h (max m (7 * (k + 2))) (by omega)
      have h4 : ((pileLife n hn).state m2).members[k]? = some ⟨quietListener, quietState 4⟩ := (hf k m2 (by omega)).1
      rcases h2 with rfl | rfl <;>
        simp [Workers.step, RLabel.outer, Workers.act, h4, Listener.rstep, quietState] at h3
    · intro m x hx
      have hx : pileLabel (m / 7) (m % 7) = .io k x := Option.some.inj hx
      unfold pileLabel at hx
      split at hx <;> cases hx <;> simp
  · refine ⟨14, ⟨quietListener, quietState 4⟩, _, _, _, rfl, rfl, fun m' hm' => ⟨(hf 0 m' (by omega)).1, ?_⟩⟩
    intro w hx
    have hx : pileLabel (m' / 7) (m' % 7) = .exit w 0 := Option.some.inj hx
    unfold pileLabel at hx
    split at hx <;> cases hx

end Ipv8
