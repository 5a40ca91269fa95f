import Verif.Props.LiveWorkers
/-!
# C100: fairness can be had from everywhere

C90 (and with it C91 and C97) speaks of executions in which nobody is passed over for ever.  Here: there are such
executions, and not just some.  Wherever the process has got to, and whatever is thrown at it from then on, the
scheduler can still be fair.
-/

namespace Ipv8
open Spec

/-! ## Specification -/

/-- Nobody has anything to do: no pool thread is occupied, and every listening thread waits for a notification that has
not come, or is gone. -/
structure Workers.Quiet (s : Workers) : Prop where
  frames : s.frames = []
  members : ∀ u ∈ s.members, (u.state.phase = .polling ∧ u.state.ready = false) ∨ ∃ c, u.state.phase = .stopped c

/-- The pool goes on, without a panic, or a listening thread does. -/
def TLabel.normal : TLabel → Bool
  | .io _ .pollEvent => true
  | .io _ .recv => true
  | x => x.calm

/-- An opponent looks at everything that has happened and decides on some steps of anybody: starts, datagrams, errors,
notifications without reason, steps of pool threads, panics.  They are made if they can be made. -/
def Workers.played (s : Workers) (opponent : List TLabel → List TLabel) (history : List TLabel) : List TLabel :=
  if (s.run (opponent history)).isSome = true then opponent history else []

/-- The opponent gets its turn at these moments, infinitely often.  What it wants to happen then happens; in between only the pool
and the listening threads go on. -/
structure WorkersLife.Opposed {n : Nat} (L : WorkersLife n) (opponent : List TLabel → List TLabel) (turn : Nat → Nat) :
    Prop where
  later : ∀ i, turn i + ((L.state (turn i)).played opponent (L.upTo (turn i))).length < turn (i + 1)
  plays : ∀ i j, j < ((L.state (turn i)).played opponent (L.upTo (turn i))).length →
    L.label (turn i + j) = ((L.state (turn i)).played opponent (L.upTo (turn i)))[j]?
  between : ∀ i m x, turn i + ((L.state (turn i)).played opponent (L.upTo (turn i))).length ≤ m → m < turn (i + 1) →
    L.label m = some x → x.normal = true

/-! ## Again and again quiet means fair -/

theorem leaves {P : Nat → Prop} {a b : Nat} (hab : a ≤ b) (ha : P a) (hb : ¬ P b) :
    ∃ m, a ≤ m ∧ m < b ∧ P m ∧ ¬ P (m + 1) := by
  induction hab with
  | refl => exact absurd ha hb
  | @step b hab ih =>
    by_cases h : P b
    · exact ⟨b, hab, Nat.lt_succ_self _, h, hb⟩
    · obtain ⟨m, h1, h2, h3⟩ := ih h
      exact ⟨m, h1, by omega, h3⟩

theorem WorkersLife.label_some {n : Nat} (L : WorkersLife n) {m : Nat} {P : Workers → Prop} (h1 : P (L.state m))
    (h2 : ¬ P (L.state (m + 1))) : ∃ x, L.label m = some x ∧ (L.state m).step x = some (L.state (m + 1)) := by
  have hs := L.step m
  cases hx : L.label m with
  | none => rw [hx] at hs; simp only at hs; rw [hs] at h2; exact absurd h1 h2
  | some x => rw [hx] at hs; exact ⟨x, rfl, hs⟩

theorem Workers.Quiet.jobs {s : Workers} (h : s.Quiet) (k : Nat) : s.jobs k = none := by
  cases hk : s.jobs k with
  | none => rfl
  | some ts =>
    obtain ⟨m, e, p, a, pan, h1, h2⟩ := Workers.jobs_some hk
    rcases h.members m (List.mem_of_getElem? h1) with ⟨h3, _⟩ | ⟨c, h3⟩ <;> rw [h2] at h3 <;> cases h3

/-- A wait ends only by the step that ends it. -/
theorem WorkersLife.left_by {n : Nat} (L : WorkersLife n) {a b w : Nat} {f : Frame} (hab : a ≤ b)
    (hf : f.waits = true) (h1 : (w, f) ∈ (L.state a).frames) (h2 : (w, f) ∉ (L.state b).frames) :
    ∃ m, a ≤ m ∧ L.label m = some (f.leave w) := by
  obtain ⟨m, g1, _, g3, g4⟩ := leaves (P := fun m => (w, f) ∈ (L.state m).frames) hab h1 h2
  obtain ⟨x, hx, hs⟩ := L.label_some (P := fun s => (w, f) ∈ s.frames) g3 g4
  refine ⟨m, g1, ?_⟩
  by_cases he : x = f.leave w
  · rw [hx, he]
  · have := Workers.step_keeps hs [(w, f)] (List.singleton_sublist.mpr g3) (by simpa using ⟨hf, he⟩)
    exact absurd (List.singleton_sublist.mp this) g4

theorem Workers.take_facts {s : Workers} {w k lo hi : Nat} (h : (s.step (.take w k lo hi)).isSome = true) :
    (∃ ts, s.jobs k = some ts ∧ .pending lo hi ∈ ts) ∧ s.taken k lo hi = false := by
  simp only [Workers.step] at h
  split at h
  · cases h
  · rename_i ts hts
    split at h
    · rename_i hc; exact ⟨⟨ts, hts, hc.2.2.1⟩, hc.2.2.2⟩
    · cases h

theorem taken_of_mem {s : Workers} {w k lo hi : Nat} (h : (w, .hand k lo hi) ∈ s.frames) : s.taken k lo hi = true := by
  simp only [Workers.taken, List.any_eq_true]
  exact ⟨_, h, by simp⟩

theorem entered_of_mem {s : Workers} {w k : Nat} (h : (w, .scope k) ∈ s.frames) : s.entered k = true := by
  simp only [Workers.entered, List.any_eq_true]
  exact ⟨_, h, by simp⟩

theorem taken_mem {s : Workers} {k lo hi : Nat} (h : s.taken k lo hi = true) : ∃ w, (w, .hand k lo hi) ∈ s.frames := by
  simp only [Workers.taken, List.any_eq_true, beq_iff_eq] at h
  obtain ⟨⟨w, f⟩, h1, rfl⟩ := h
  exact ⟨w, h1⟩

theorem entered_mem {s : Workers} {k : Nat} (h : s.entered k = true) : ∃ w, (w, .scope k) ∈ s.frames := by
  simp only [Workers.entered, List.any_eq_true, beq_iff_eq] at h
  obtain ⟨⟨w, f⟩, h1, rfl⟩ := h
  exact ⟨w, h1⟩

/-- Only by being taken does a range stop to be on offer. -/
theorem Workers.offer_step {s s' : Workers} {x : TLabel} {k lo hi : Nat} {ts : List Task} (hg : s.Good)
    (h : s.step x = some s') (h1 : s.jobs k = some ts) (h2 : .pending lo hi ∈ ts) (h3 : s.taken k lo hi = false)
    (h4 : ¬ ((∃ ts, s'.jobs k = some ts ∧ .pending lo hi ∈ ts) ∧ s'.taken k lo hi = false)) :
    ∃ w, x = .take w k lo hi := by
  obtain ⟨u, _, _, _, _, hu, _⟩ := Workers.jobs_some h1
  have hlt : k < s.members.length := (List.getElem?_eq_some_iff.mp hu).1
  have huj : u.state.jobs = some ts := by rw [← Workers.jobs_of hu, h1]
  have hno : ∀ w, (w, Frame.hand k lo hi) ∉ s.frames := fun w hm => by rw [taken_of_mem hm] at h3; cases h3
  have hnot : (∀ w, (w, Frame.hand k lo hi) ∉ s'.frames) → s'.taken k lo hi = false := fun hm => by
    cases ht : s'.taken k lo hi with
    | false => rfl
    | true => obtain ⟨w, hw⟩ := taken_mem ht; exact absurd hw (hm w)
  -- steps of somebody who works on a range
  have work : ∀ {w k' : Nat} {f : Frame} {y : RLabel} {new : List Frame}, s.work w f k' y new = some s' →
      (∀ g ∈ new, g = .hand k lo hi → k' = k ∧ False) →
      (∀ t, k' = k → u.listener.rstep u.state y = some t → s.top w = some f →
        ∃ ts', t.jobs = some ts' ∧ .pending lo hi ∈ ts') → False := by
    intro w k' f y new hw hnew hjobs
    obtain ⟨m, t, ht, hm, hy, rfl⟩ := Workers.work_eq hw
    refine h4 ⟨?_, hnot ?_⟩
    · by_cases hk : k' = k
      · subst hk
        rw [hu] at hm; cases hm
        obtain ⟨ts', a, b⟩ := hjobs t rfl hy ht
        exact ⟨ts', by rw [Workers.jobs_of (m := ⟨u.listener, t⟩) (List.getElem?_set_self hlt), a], b⟩
      · refine ⟨ts, ?_, h2⟩
        rw [Workers.jobs_of (m := u) (by simp only; rw [List.getElem?_set_ne hk]; exact hu), huj]
    · intro w' hw'
      rcases List.mem_append.mp hw' with hw' | hw'
      · obtain ⟨g, hg1, hg2⟩ := List.mem_map.mp hw'
        cases hg2
        exact (hnew _ hg1 rfl).2
      · exact hno w' (List.mem_of_mem_erase hw')
  have keep : ∀ {t : Task} (t' : Task), t ≠ .pending lo hi → .pending lo hi ∈ t' :: ts.erase t := fun t' ht =>
    List.mem_cons_of_mem _ ((List.mem_erase_of_ne (Ne.symm ht)).mpr h2)
  cases x with
  | launch l q =>
    simp only [Workers.step, Option.some.injEq] at h; subst h
    refine absurd ⟨⟨ts, ?_, h2⟩, h3⟩ h4
    rw [Workers.jobs_of (m := u) (by simp only; rw [List.getElem?_append_left hlt]; exact hu), huj]
  | io j y =>
    simp only [Workers.step] at h
    split at h
    · rename_i ho
      obtain ⟨m, t, hm, ht, rfl⟩ := Workers.act_eq h
      refine absurd ⟨⟨ts, ?_, h2⟩, h3⟩ h4
      by_cases hk : j = k
      · subst hk
        rw [hu] at hm; cases hm
        rw [Workers.jobs_of (m := ⟨u.listener, t⟩) (List.getElem?_set_self hlt)]
        rcases RState.jobs_outer ho ht with he | ⟨he, _⟩
        · rw [he, huj]
        · rw [huj] at he; cases he
      · rw [Workers.jobs_of (m := u) (by simp only; rw [List.getElem?_set_ne hk]; exact hu), huj]
    · cases h
  | enter w j =>
    simp only [Workers.step] at h
    split at h
    · cases h
      refine absurd ⟨⟨ts, h1, h2⟩, hnot ?_⟩ h4
      intro w' hw'
      rcases List.mem_cons.mp hw' with hw' | hw'
      · cases hw'
      · exact hno _ hw'
    · cases h
  | take w j lo' hi' =>
    simp only [Workers.step] at h
    split at h
    · cases h
    · split at h
      · cases h
        by_cases he : j = k ∧ lo' = lo ∧ hi' = hi
        · obtain ⟨rfl, rfl, rfl⟩ := he; exact ⟨w, rfl⟩
        · refine absurd ⟨⟨ts, h1, h2⟩, hnot ?_⟩ h4
          intro w' hw'
          rcases List.mem_cons.mp hw' with hw' | hw'
          · cases hw'; exact he ⟨rfl, rfl, rfl⟩
          · exact hno _ hw'
      · cases h
  | split w j lo' hi' =>
    simp only [Workers.step] at h
    refine (work h ?_ ?_).elim
    · intro g hg1 hg2
      obtain ⟨m, t, ht, hm, hy, _⟩ := Workers.work_eq h
      subst hg2
      simp only [List.mem_cons, Frame.hand.injEq, reduceCtorEq, List.not_mem_nil, or_false] at hg1
      obtain ⟨rfl, rfl, rfl⟩ := hg1
      rw [hu] at hm; cases hm
      obtain ⟨ts', a, b, c, _⟩ := RState.jobs_split hy
      rw [huj] at a; cases a
      have hd := (WInv.tasks hg k ts h1).apart _ h2 _ b (by simp only [Task.stop]; omega)
      simp only [Task.stop, Task.start] at hd
      omega
    · intro t hk hy ht
      subst hk
      obtain ⟨ts', a, b, c, d⟩ := RState.jobs_split hy
      rw [huj] at a; cases a
      refine ⟨_, d, List.mem_cons_of_mem _ (keep _ fun he => ?_)⟩
      cases he
      exact hno w (Workers.top_mem ht)
  | begin w j lo' hi' =>
    simp only [Workers.step] at h
    refine (work h (by simp) ?_).elim
    intro t hk hy ht
    subst hk
    obtain ⟨ts', a, b, c⟩ := RState.jobs_begin hy
    rw [huj] at a; cases a
    refine ⟨_, c, keep _ fun he => ?_⟩
    cases he
    exact hno w (Workers.top_mem ht)
  | call w j r e =>
    simp only [Workers.step] at h
    refine (work h (by simp) ?_).elim
    intro t hk hy ht
    obtain ⟨ts', a, b, c, d⟩ := RState.jobs_call hy
    rw [huj] at a; cases a
    exact ⟨_, d, keep _ (by simp)⟩
  | finish w j r e =>
    simp only [Workers.step] at h
    refine (work h (by simp) ?_).elim
    intro t hk hy ht
    obtain ⟨ts', a, b, c⟩ := RState.jobs_finish hy
    rw [huj] at a; cases a
    exact ⟨_, c, keep _ (by simp)⟩
  | crash w j r e =>
    simp only [Workers.step] at h
    refine (work h (by simp) ?_).elim
    intro t hk hy ht
    obtain ⟨ts', a, b, c⟩ := RState.jobs_crash hy
    rw [huj] at a; cases a
    exact ⟨_, c, (List.mem_erase_of_ne (by simp)).mpr h2⟩
  | done w j e =>
    simp only [Workers.step] at h
    refine (work h (by simp) ?_).elim
    intro t hk hy ht
    obtain ⟨ts', a, b, c⟩ := RState.jobs_done hy
    rw [huj] at a; cases a
    exact ⟨_, c, (List.mem_erase_of_ne (by simp)).mpr h2⟩
  | resume w j mid e =>
    simp only [Workers.step] at h
    split at h
    · cases h
      refine absurd ⟨⟨ts, h1, h2⟩, hnot ?_⟩ h4
      exact fun w' hw' => hno _ (List.mem_of_mem_erase hw')
    · cases h
  | exit w j =>
    simp only [Workers.step] at h
    split at h
    · refine (work h (by simp) ?_).elim
      intro t hk hy ht
      obtain ⟨a, _⟩ := RState.jobs_join hy
      rw [huj] at a; cases a
      cases h2
    · cases h

/-- Only by being begun does the closure of a scope stop to be on offer. -/
theorem Workers.begun_step {s s' : Workers} {x : TLabel} {k : Nat}
    (h : s.step x = some s') (h1 : (s.jobs k).isSome = true) (h3 : s.entered k = false)
    (h4 : ¬ ((s'.jobs k).isSome = true ∧ s'.entered k = false)) : ∃ w, x = .enter w k := by
  have hno : ∀ w, (w, Frame.scope k) ∉ s.frames := fun w hm => by rw [entered_of_mem hm] at h3; cases h3
  have hj : (s'.jobs k).isSome = true := by
    rcases Workers.step_jobs h k h1 with ⟨he, _⟩ | ⟨_, _, _, he, _⟩ | ⟨w, rfl⟩
    · rw [he]; exact h1
    · exact he
    · exfalso
      simp only [Workers.step] at h
      split at h
      · obtain ⟨_, _, ht, _⟩ := Workers.work_eq h
        exact hno w (Workers.top_mem ht)
      · cases h
  cases he : s'.entered k with
  | false => exact absurd ⟨hj, he⟩ h4
  | true =>
    obtain ⟨w, hw⟩ := entered_mem he
    have work : ∀ {w' k' : Nat} {f : Frame} {y : RLabel} {new : List Frame}, s.work w' f k' y new = some s' →
        (∀ g ∈ new, g ≠ .scope k) → False := by
      intro w' k' f y new hwk hnew
      obtain ⟨m, t, ht, hm, hy, rfl⟩ := Workers.work_eq hwk
      rcases List.mem_append.mp hw with hw | hw
      · obtain ⟨g, hg1, hg2⟩ := List.mem_map.mp hw
        cases hg2
        exact hnew _ hg1 rfl
      · exact hno _ (List.mem_of_mem_erase hw)
    cases x with
    | enter w' j =>
      simp only [Workers.step] at h
      split at h
      · cases h
        rcases List.mem_cons.mp hw with hw | hw
        · cases hw; exact ⟨w, rfl⟩
        · exact absurd hw (hno w)
      · cases h
    | launch l q => simp only [Workers.step, Option.some.injEq] at h; subst h; exact absurd hw (hno w)
    | io j y =>
      simp only [Workers.step] at h
      split at h
      · obtain ⟨m, t, _, _, rfl⟩ := Workers.act_eq h; exact absurd hw (hno w)
      · cases h
    | take w' j lo hi =>
      simp only [Workers.step] at h
      split at h
      · cases h
      · split at h
        · cases h
          rcases List.mem_cons.mp hw with hw | hw
          · cases hw
          · exact absurd hw (hno w)
        · cases h
    | resume w' j mid e =>
      simp only [Workers.step] at h
      split at h
      · cases h; exact absurd (List.mem_of_mem_erase hw) (hno w)
      · cases h
    | exit w' j =>
      simp only [Workers.step] at h
      split at h
      · exact (work h (by simp)).elim
      · cases h
    | split w' j lo hi => simp only [Workers.step] at h; exact (work h (by simp)).elim
    | begin w' j lo hi => simp only [Workers.step] at h; exact (work h (by simp)).elim
    | call w' j r hi => simp only [Workers.step] at h; exact (work h (by simp)).elim
    | finish w' j r hi => simp only [Workers.step] at h; exact (work h (by simp)).elim
    | crash w' j r hi => simp only [Workers.step] at h; exact (work h (by simp)).elim
    | done w' j hi => simp only [Workers.step] at h; exact (work h (by simp)).elim

/-- A life in which again and again nobody has anything to do is fair. -/
theorem WorkersLife.fair_of_quiet {n : Nat} (L : WorkersLife n)
    (h : ∀ m, ∃ m', m ≤ m' ∧ (L.state m').Quiet) : L.Fair where
  works := by
    intro m w f ht hf
    obtain ⟨b, hb, hq⟩ := h m
    have hne : (L.state b).stack w ≠ (L.state m).stack w := by
      intro he
      rw [Workers.top_stack, ← he, ← Workers.top_stack] at ht
      have := Workers.top_mem ht
      rw [hq.frames] at this
      cases this
    obtain ⟨i, g1, _, g3, g4⟩ := leaves (P := fun i => (L.state i).stack w = (L.state m).stack w) hb rfl hne
    obtain ⟨x, hx, hs⟩ := L.label_some (P := fun s => s.stack w = (L.state m).stack w) g3 g4
    refine ⟨i, x, g1, hx, ?_⟩
    rcases Workers.step_stack hs w with ⟨_, e⟩ | ⟨e, _⟩ | ⟨e, _⟩ | ⟨e, _⟩
    · rw [e] at g4; exact absurd g3 g4
    all_goals exact e
  resumes := by
    intro w k mid hi m hm
    obtain ⟨a, x, ha, rfl, hx⟩ := hm m (Nat.le_refl _)
    obtain ⟨b, hb, hq⟩ := h a
    have ht : (L.state a).top w = some (.join k mid hi) := by
      simp only [Workers.step] at hx
      split at hx
      · rename_i hc; exact hc.1
      · cases hx
    obtain ⟨m', h1, h2⟩ := L.left_by hb rfl (Workers.top_mem ht) (by rw [hq.frames]; simp)
    exact ⟨m', _, by omega, rfl, h2⟩
  exits := by
    intro w k m hm
    obtain ⟨a, x, ha, rfl, hx⟩ := hm m (Nat.le_refl _)
    obtain ⟨b, hb, hq⟩ := h a
    have ht : (L.state a).top w = some (.scope k) := by
      obtain ⟨s', hx⟩ := Option.isSome_iff_exists.mp hx
      simp only [Workers.step] at hx
      split at hx
      · obtain ⟨_, _, ht, _⟩ := Workers.work_eq hx; exact ht
      · cases hx
    obtain ⟨m', h1, h2⟩ := L.left_by hb rfl (Workers.top_mem ht) (by rw [hq.frames]; simp)
    exact ⟨m', _, by omega, rfl, h2⟩
  takes := by
    intro k lo hi m hm
    obtain ⟨a, x, ha, ⟨w, rfl⟩, hx⟩ := hm m (Nat.le_refl _)
    obtain ⟨b, hb, hq⟩ := h a
    have h1 := Workers.take_facts hx
    obtain ⟨i, g1, _, g3, g4⟩ := leaves (P := fun i => (∃ ts, (L.state i).jobs k = some ts ∧ .pending lo hi ∈ ts) ∧
      (L.state i).taken k lo hi = false) hb h1 (by rw [hq.jobs]; simp)
    obtain ⟨x, hx, hs⟩ := L.label_some (P := fun s => (∃ ts, s.jobs k = some ts ∧ .pending lo hi ∈ ts) ∧
      s.taken k lo hi = false) g3 g4
    obtain ⟨⟨ts, e1, e2⟩, e3⟩ := g3
    exact ⟨i, x, by omega, Workers.offer_step (Workers.good n _ _ (L.run i)).2 hs e1 e2 e3 g4, hx⟩
  enters := by
    intro k m hm
    obtain ⟨a, x, ha, ⟨w, rfl⟩, hx⟩ := hm m (Nat.le_refl _)
    obtain ⟨b, hb, hq⟩ := h a
    have h1 : ((L.state a).jobs k).isSome = true ∧ (L.state a).entered k = false := by
      simp only [Workers.step] at hx
      split at hx
      · rename_i hc; exact hc.2
      · cases hx
    obtain ⟨i, g1, _, g3, g4⟩ := leaves (P := fun i => ((L.state i).jobs k).isSome = true ∧
      (L.state i).entered k = false) hb h1 (by rw [hq.jobs]; simp)
    obtain ⟨x, hx, hs⟩ := L.label_some (P := fun s => (s.jobs k).isSome = true ∧ s.entered k = false) g3 g4
    exact ⟨i, x, by omega, Workers.begun_step hs g3.1 g3.2 g4, hx⟩

/-- What a step does to one listening thread. -/
theorem Workers.step_at {s s' : Workers} {x : TLabel} (h : s.step x = some s') {k : Nat} {u : RMember}
    (hu : s.members[k]? = some u) :
    (s'.members[k]? = some u ∧ jobsAt k [x] = []) ∨
      ∃ y t, jobsAt k [x] = [y] ∧ u.listener.rstep u.state y = some t ∧ s'.members[k]? = some ⟨u.listener, t⟩ := by
  have hlt := (List.getElem?_eq_some_iff.mp hu).1
  obtain ⟨_, ⟨l, q, rfl, e⟩ | ⟨hl, e, hj⟩ | ⟨hl, i, y, mi, t, e1, e2, e, hj, ho⟩⟩ := Workers.step_members h
  · exact .inl ⟨by rw [e, List.getElem?_append_left hlt]; exact hu, rfl⟩
  · exact .inl ⟨by rw [e]; exact hu, hj k⟩
  · by_cases hik : i = k
    · subst hik
      rw [hu] at e1
      cases e1
      exact .inr ⟨y, t, hj, e2, by rw [e, List.getElem?_set_self hlt]⟩
    · exact .inl ⟨by rw [e, List.getElem?_set_ne hik]; exact hu, ho k (Ne.symm hik)⟩

/-- A listening thread that is gone stays so. -/
theorem rstep_stopped {l : Listener} {s s' : RState} {y : RLabel} {c : Stop} (h : l.rstep s y = some s')
    (hs : s.phase = .stopped c) : s'.phase = .stopped c := by
  cases y <;> simp only [Listener.rstep, hs] at h <;> try cases h
  rfl

theorem WorkersLife.stays_stopped {n : Nat} (L : WorkersLife n) {m m' k : Nat} {u : RMember} {c : Stop}
    (hu : (L.state m).members[k]? = some u) (hc : u.state.phase = .stopped c) (h : m ≤ m') :
    ∃ u', (L.state m').members[k]? = some u' ∧ u'.state.phase = .stopped c := by
  induction h with
  | refl => exact ⟨u, hu, hc⟩
  | @step j hj ih =>
    obtain ⟨u', h1, h2⟩ := ih
    have hst := L.step j
    cases hx : L.label j with
    | none => rw [hx] at hst; simp only at hst; rw [hst]; exact ⟨u', h1, h2⟩
    | some x =>
      rw [hx] at hst
      rcases Workers.step_at hst h1 with ⟨e, _⟩ | ⟨y, t, _, e1, e2⟩
      · exact ⟨u', e, h2⟩
      · exact ⟨_, e2, rstep_stopped e1 h2⟩

/-- A listening thread that can go on by itself. -/
def RState.able (s : RState) : Prop := (s.phase = .polling ∧ s.ready = true) ∨ ∃ e, s.phase = .handling (e + 1)

/-- It does, or fails. -/
theorem rstep_able {l : Listener} {s s' : RState} {y : RLabel} (h : l.rstep s y = some s') (hs : s.able)
    (hs' : ¬ s'.able) : y = .pollEvent ∨ y = .recv ∨ ∃ c, s'.phase = .stopped c := by
  rcases hs with ⟨h1, h2⟩ | ⟨e, h1⟩
  · cases y <;> simp only [Listener.rstep, h1, h2, Option.some.injEq, reduceCtorEq] at h
    case arrive d => subst h; exact absurd (.inl ⟨rfl, rfl⟩) hs'
    case pollEvent => exact .inl rfl
    case pollTimeout => subst h; exact absurd (.inl ⟨h1, h2⟩) hs'
    case pollSpurious => subst h; exact absurd (.inr ⟨0, rfl⟩) hs'
    case pollError => subst h; exact .inr (.inr ⟨_, rfl⟩)
  · cases y <;> simp only [Listener.rstep, h1, Option.some.injEq, reduceCtorEq] at h
    case arrive d => subst h; exact absurd (.inr ⟨e, rfl⟩) hs'
    case recv => exact .inr (.inl rfl)
    case recvError => subst h; exact .inr (.inr ⟨_, rfl⟩)

theorem jobsAt_io {k : Nat} {x : TLabel} {y : RLabel} (h : jobsAt k [x] = [y]) (hy : y = .pollEvent ∨ y = .recv) :
    x = .io k y := by
  rcases hy with rfl | rfl <;> cases x <;> simp only [jobsAt, reduceCtorEq] at h <;> split at h <;> simp_all

/-- … and fair to every listening thread. -/
theorem WorkersLife.fairTo_of_quiet {n : Nat} (L : WorkersLife n)
    (h : ∀ m, ∃ m', m ≤ m' ∧ (L.state m').Quiet) (k : Nat) : L.FairTo k := by
  intro m hm
  have able : ∀ {s : Workers} {x : TLabel}, (x = .io k .pollEvent ∨ x = .io k .recv) → (s.step x).isSome = true →
      ∃ u, s.members[k]? = some u ∧ u.state.able := by
    intro s x hx hs
    obtain ⟨s', hs⟩ := Option.isSome_iff_exists.mp hs
    rcases hx with rfl | rfl <;> simp only [Workers.step, RLabel.outer, if_true] at hs <;>
      obtain ⟨u, t, hu, ht, _⟩ := Workers.act_eq hs <;> refine ⟨u, hu, ?_⟩ <;> simp only [Listener.rstep] at ht
    · split at ht
      · rename_i a b; exact .inl ⟨a, b⟩
      · cases ht
    · split at ht
      · rename_i a; exact .inr ⟨_, a⟩
      · cases ht
  obtain ⟨a, x, ha, hx1, hx2⟩ := hm m (Nat.le_refl _)
  obtain ⟨b, hb, hq⟩ := h a
  obtain ⟨i, g1, _, g3, g4⟩ := leaves (P := fun i => ∃ u, (L.state i).members[k]? = some u ∧ u.state.able) hb
    (able hx1 hx2) (by
      rintro ⟨u, hu, ⟨e1, e2⟩ | ⟨e, e1⟩⟩ <;> rcases hq.members u (List.mem_of_getElem? hu) with ⟨f1, f2⟩ | ⟨c, f1⟩ <;>
        simp_all)
  obtain ⟨x, hx, hs⟩ := L.label_some (P := fun s => ∃ u, s.members[k]? = some u ∧ u.state.able) g3 g4
  obtain ⟨u, hu, hab⟩ := g3
  rcases Workers.step_at hs hu with ⟨e, _⟩ | ⟨y, t, e1, e2, e3⟩
  · exact absurd ⟨u, e, hab⟩ g4
  · rcases rstep_able e2 hab (fun hc => g4 ⟨_, e3, hc⟩) with rfl | rfl | ⟨c, hc⟩
    · exact ⟨i, x, by omega, .inl (jobsAt_io e1 (.inl rfl)), hx⟩
    · exact ⟨i, x, by omega, .inr (jobsAt_io e1 (.inr rfl)), hx⟩
    · -- gone: then it cannot go on any more
      exfalso
      obtain ⟨j, x', hj, hx1', hx2'⟩ := hm (i + 1) (by omega)
      obtain ⟨u', d1, d2⟩ := able hx1' hx2'
      obtain ⟨u'', d3, d4⟩ := L.stays_stopped e3 hc hj
      rw [d1] at d3
      cases d3
      rcases d2 with ⟨d2, _⟩ | ⟨_, d2⟩ <;> rw [d4] at d2 <;> cases d2

/-! ## Everything can be brought to rest -/

/-- What keeps a listening thread from waiting for its socket: notifications, and datagrams that it is about to read. -/
def RState.wake (s : RState) : Nat :=
  match s.phase with
  | .stopped _ => 0
  | .polling => if s.ready then 2 else 0
  | .handling e => e + if s.ready then 2 else 0
  | .scope e _ _ _ _ => e + if s.ready then 2 else 0

theorem rstep_wake {l : Listener} {s s' : RState} {y : RLabel} (h : l.rstep s y = some s') (hy : y.outer = false) :
    s'.wake ≤ s.wake := by
  cases y <;> simp only [RLabel.outer, Bool.true_eq_false] at hy <;> simp only [Listener.rstep] at h
  case join =>
    split at h
    · rename_i k p a pan hp
      cases h
      cases pan with
      | true => simp [RState.wake]
      | false =>
        simp only [RState.wake, hp, rafterEvent, Bool.false_eq_true, if_false]
        by_cases hk : k = 0
        · simp [hk]
        · simp [hk]
    · cases h
  all_goals
    split at h
    · rename_i hp
      split at h
      · cases h; simp [RState.wake, hp]
      · cases h
    · cases h

theorem calm_inner {s s' : Workers} {x : TLabel} {k : Nat} {y : RLabel} (h : s.step x = some s') (hx : x.calm = true)
    (hj : jobsAt k [x] = [y]) : y.outer = false := by
  cases x <;> simp only [TLabel.calm, Bool.false_eq_true] at hx <;> simp only [jobsAt, reduceCtorEq] at hj <;>
    (split at hj <;> simp only [List.cons.injEq, and_true, reduceCtorEq] at hj) <;> subst hj <;> rfl

/-- The steps of the pool do not add to anything that the jobs do not add to. -/
theorem Workers.calm_total {s s' : Workers} {x : TLabel} (h : s.step x = some s') (hx : x.calm = true) (f : RMember → Nat)
    (hf : ∀ l t t' y, y.outer = false → l.rstep t y = some t' → f ⟨l, t'⟩ ≤ f ⟨l, t⟩) : s'.total f ≤ s.total f := by
  unfold Workers.total
  obtain ⟨_, ⟨l, q, rfl, e⟩ | ⟨_, e, _⟩ | ⟨_, k, y, u, t, e1, e2, e, hj, _⟩⟩ := Workers.step_members h
  · cases hx
  · rw [e]; exact Nat.le_refl _
  · have h1 := sum_set f e1 ⟨u.listener, t⟩
    have h2 := hf u.listener u.state t y (calm_inner h hx hj) e2
    rw [e]
    have h3 : f ⟨u.listener, u.state⟩ = f u := rfl
    omega

theorem given_rstep (l : Listener) (t t' : RState) (y : RLabel) (hy : y.outer = false) (h : l.rstep t y = some t') :
    RMember.given ⟨l, t'⟩ ≤ RMember.given ⟨l, t⟩ := by
  rcases rstep_taken h with e | ⟨rfl, _⟩
  · simp only [RMember.given, e]; exact Nat.le_refl _
  · cases hy

/-- The pool can get rid of all its work without a panic. -/
theorem Workers.settle {n : Nat} (hn : 1 ≤ n) (c : Nat) : ∀ (ls : List TLabel) (s : Workers),
    (Workers.mk n [] []).run ls = some s → s.total RMember.given ≤ ls.countP TLabel.ofPool + c →
    ∃ xs s', (∀ x ∈ xs, x.calm = true) ∧ s.run xs = some s' ∧ (∀ u ∈ s'.members, u.state.phase.outside = true) ∧
      s'.total (fun u => u.state.wake) ≤ s.total (fun u => u.state.wake) := by
  induction c with
  | zero =>
    intro ls s h hc
    refine ⟨[], s, by simp, rfl, ?_, Nat.le_refl _⟩
    intro u hu
    cases ho : u.state.phase.outside with
    | true => rfl
    | false =>
      exfalso
      obtain ⟨k, hk⟩ := List.getElem?_of_mem hu
      obtain ⟨x, h1, h2⟩ := C89_progress n hn ls s h k u hk ho
      obtain ⟨s', h2⟩ := Option.isSome_iff_exists.mp h2
      have h3 := C89_ends n (ls ++ [x]) s' (by rw [Workers.run_append, h]; simp [Workers.run, h2])
      have h4 := Workers.calm_total h2 h1 RMember.given given_rstep
      have h5 : x.ofPool = true := by cases x <;> simp_all [TLabel.calm, TLabel.ofPool]
      rw [List.countP_append] at h3
      simp only [List.countP_cons, h5, List.countP_nil, if_true] at h3
      have h6 : _ ≤ s'.total RMember.given := h3
      omega
  | succ c ih =>
    intro ls s h hc
    by_cases hall : ∀ u ∈ s.members, u.state.phase.outside = true
    · exact ⟨[], s, by simp, rfl, hall, Nat.le_refl _⟩
    · obtain ⟨u, hu, ho⟩ : ∃ u ∈ s.members, u.state.phase.outside = false := Classical.byContradiction fun hno =>
        hall fun u hu => by
          cases ho : u.state.phase.outside with
          | true => rfl
          | false => exact absurd ⟨u, hu, ho⟩ hno
      obtain ⟨k, hk⟩ := List.getElem?_of_mem hu
      obtain ⟨x, h1, h2⟩ := C89_progress n hn ls s h k u hk ho
      obtain ⟨s1, h2⟩ := Option.isSome_iff_exists.mp h2
      have h4 := Workers.calm_total h2 h1 RMember.given given_rstep
      have h5 : x.ofPool = true := by cases x <;> simp_all [TLabel.calm, TLabel.ofPool]
      have hr : (Workers.mk n [] []).run (ls ++ [x]) = some s1 := by rw [Workers.run_append, h]; simp [Workers.run, h2]
      obtain ⟨xs, s', g1, g2, g3, g4⟩ := ih (ls ++ [x]) s1 hr (by
        rw [List.countP_append]
        simp only [List.countP_cons, h5, List.countP_nil, if_true]
        omega)
      refine ⟨x :: xs, s', ?_, by simp only [Workers.run, h2]; exact g2, g3, ?_⟩
      · intro z hz
        rcases List.mem_cons.mp hz with rfl | hz
        · exact h1
        · exact g1 _ hz
      · exact Nat.le_trans g4 (Workers.calm_total h2 h1 _ fun l t t' y hy hr => rstep_wake hr hy)

theorem rstep_handling {l : Listener} {s s' : RState} {y : RLabel} (h : l.rstep s y = some s')
    (hs : s.phase ≠ .handling 0) : s'.phase ≠ .handling 0 := by
  cases y <;> simp only [Listener.rstep] at h
  case arrive d => cases h; exact hs
  case join =>
    split at h
    · rename_i k p a pan hp
      cases h
      cases pan with
      | true => simp
      | false =>
        simp only [rafterEvent, Bool.false_eq_true, if_false]
        by_cases hk : k = 0 <;> simp [hk]
    · cases h
  case recv =>
    split at h
    · split at h <;> cases h <;> simp
    · cases h
  all_goals
    split at h
    · first
      | (cases h; first | exact hs | simp)
      | (split at h
         · cases h; simp
         · cases h)
    · cases h

theorem rrun_handling (l : Listener) (ls : List RLabel) : ∀ (s s' : RState), s.phase ≠ .handling 0 →
    l.rrun s ls = some s' → s'.phase ≠ .handling 0 := by
  induction ls with
  | nil => intro s s' hw h; simp only [Listener.rrun, Option.some.injEq] at h; subst h; exact hw
  | cons x xs ih =>
    intro s s' hw h
    simp only [Listener.rrun] at h
    split at h
    · rename_i t ht; exact ih t s' (rstep_handling ht hw) h
    · cases h

theorem Workers.frames_nil {n : Nat} {ls : List TLabel} {s : Workers} (h : (Workers.mk n [] []).run ls = some s)
    (ho : ∀ u ∈ s.members, u.state.phase.outside = true) : s.frames = [] := by
  cases hF : s.frames with
  | nil => rfl
  | cons y F =>
    have := (WInv.scope (Workers.good n ls s h).2 y (by simp [hF])).1
    obtain ⟨ts, hts⟩ := Option.isSome_iff_exists.mp this
    obtain ⟨m, e, p, a, pan, h1, h2⟩ := Workers.jobs_some hts
    have := ho m (List.mem_of_getElem? h1)
    rw [h2] at this
    cases this

/-- From every state: the pool and the listening threads can go on until nobody has anything to do, without a
panic or an error. -/
theorem Workers.drain {n : Nat} (hn : 1 ≤ n) (c : Nat) : ∀ (ls : List TLabel) (s : Workers),
    (Workers.mk n [] []).run ls = some s → s.total (fun u => u.state.wake) < c →
    ∃ xs s', (∀ x ∈ xs, x.normal = true) ∧ s.run xs = some s' ∧ s'.Quiet := by
  have calm : ∀ x : TLabel, x.calm = true → x.normal = true := by
    intro x hx; cases x <;> simp_all [TLabel.calm, TLabel.normal]
  induction c with
  | zero => intro ls s h hc; exact absurd hc (Nat.not_lt_zero _)
  | succ c ih =>
    intro ls s h hc
    obtain ⟨xs, s1, h1, h2, h3, h4⟩ := Workers.settle hn _ ls s h (Nat.le_add_left _ _)
    have hr1 : (Workers.mk n [] []).run (ls ++ xs) = some s1 := by rw [Workers.run_append, h]; exact h2
    by_cases hall : ∀ u ∈ s1.members, ¬ u.state.able
    · refine ⟨xs, s1, fun x hx => calm x (h1 x hx), h2, Workers.frames_nil hr1 h3, fun u hu => ?_⟩
      have hout := h3 u hu
      have hab := hall u hu
      obtain ⟨k, hk⟩ := List.getElem?_of_mem hu
      obtain ⟨q, _, hq⟩ := C89 n _ s1 hr1 k u hk
      have hne := rrun_handling _ _ _ _ (by simp [Listener.rinit]) hq
      cases hp : u.state.phase with
      | polling =>
        refine .inl ⟨rfl, ?_⟩
        cases hr : u.state.ready with
        | false => rfl
        | true => exact absurd (.inl ⟨hp, hr⟩) hab
      | handling e =>
        cases e with
        | zero => exact absurd hp hne
        | succ e => exact absurd (.inr ⟨e, hp⟩) hab
      | scope e p a ts pan => rw [hp] at hout; cases hout
      | stopped c => exact .inr ⟨c, rfl⟩
    · obtain ⟨u, hu, hab⟩ : ∃ u ∈ s1.members, u.state.able := Classical.byContradiction fun hno =>
        hall fun u hu ha => hno ⟨u, hu, ha⟩
      obtain ⟨k, hk⟩ := List.getElem?_of_mem hu
      -- one step of this listening thread
      obtain ⟨y, t, hy, ht, hw⟩ : ∃ y t, (y = .pollEvent ∨ y = .recv) ∧ u.listener.rstep u.state y = some t ∧
          t.wake < u.state.wake := by
        rcases hab with ⟨e1, e2⟩ | ⟨e, e1⟩
        · exact ⟨.pollEvent, { u.state with ready := false, phase := .handling 1 }, .inl rfl,
            by simp [Listener.rstep, e1, e2], by simp [RState.wake, e1, e2]⟩
        · cases hqu : u.state.queue with
          | nil => exact ⟨.recv, { u.state with phase := .stopped .recvError }, .inr rfl,
              by simp [Listener.rstep, e1, hqu], by simp [RState.wake, e1]; omega⟩
          | cons d q => exact ⟨.recv, _, .inr rfl,
              by simp only [Listener.rstep, e1, hqu]; rfl, by simp [RState.wake, e1]⟩
      have hs : s1.step (.io k y) = some { s1 with members := s1.members.set k ⟨u.listener, t⟩ } := by
        rcases hy with rfl | rfl <;> simp [Workers.step, RLabel.outer, Workers.act, hk, ht]
      obtain ⟨ys, s', g1, g2, g3⟩ := ih (ls ++ xs ++ [.io k y]) { s1 with members := s1.members.set k ⟨u.listener, t⟩ }
        (by rw [Workers.run_append, hr1]; simp [Workers.run, hs])
        (by
          have := sum_set (fun u : RMember => u.state.wake) hk ⟨u.listener, t⟩
          simp only [Workers.total] at h4 hc this ⊢
          omega)
      refine ⟨xs ++ .io k y :: ys, s', ?_, ?_, g3⟩
      · intro z hz
        rcases List.mem_append.mp hz with hz | hz
        · exact calm z (h1 z hz)
        · rcases List.mem_cons.mp hz with rfl | hz
          · rcases hy with rfl | rfl <;> rfl
          · exact g1 z hz
      · rw [Workers.run_append, h2]
        simp only [Option.bind_some, Workers.run, hs]
        exact g2

/-! ## Lives from finite pieces -/

/-- Ever longer histories are one endless life. -/
theorem WorkersLife.ofPieces {n : Nat} (P : Nat → List (Option TLabel)) (h1 : ∀ i, ∃ b, P (i + 1) = P i ++ b ∧ b ≠ [])
    (h2 : ∀ i, ((Workers.mk n [] []).run ((P i).filterMap id)).isSome = true) :
    ∃ L : WorkersLife n, (∀ i m, m < (P i).length → (P i)[m]? = some (L.label m)) ∧
      ∀ i, L.upTo (P i).length = (P i).filterMap id := by
  have hpre : ∀ i j, i ≤ j → P i <+: P j := by
    intro i j hij
    induction hij with
    | refl => exact List.prefix_refl _
    | step _ ih => obtain ⟨b, hb, _⟩ := h1 _; rw [hb]; exact ih.trans (List.prefix_append _ _)
  have hlen : ∀ i, i ≤ (P i).length := by
    intro i
    induction i with
    | zero => exact Nat.zero_le _
    | succ i ih =>
      obtain ⟨b, hb, hne⟩ := h1 i
      have : 1 ≤ b.length := List.length_pos_iff.mpr hne
      rw [hb, List.length_append]
      omega
  let label : Nat → Option TLabel := fun m => ((P (m + 1))[m]?).getD none
  have hlab : ∀ i m, m < (P i).length → (P i)[m]? = some (label m) := by
    intro i m hm
    have hm' : m < (P (m + 1)).length := hlen (m + 1)
    have e : (P i)[m]? = (P (m + 1))[m]? := by
      rcases Nat.le_total i (m + 1) with h | h
      · obtain ⟨b, hb⟩ := hpre _ _ h
        rw [← hb, List.getElem?_append_left hm]
      · obtain ⟨b, hb⟩ := hpre _ _ h
        rw [← hb, List.getElem?_append_left hm']
    rw [e]
    simp only [label]
    rw [List.getElem?_eq_getElem hm']
    rfl
  have htake : ∀ i m, m ≤ (P i).length → (List.range m).filterMap label = ((P i).take m).filterMap id := by
    intro i m
    induction m with
    | zero => intro _; simp
    | succ m ih =>
      intro hm
      rw [List.range_succ, List.filterMap_append, ih (by omega), List.take_add_one, List.filterMap_append, hlab i m (by omega)]
      rfl
  have hrun : ∀ m, ∃ s, (Workers.mk n [] []).run ((List.range m).filterMap label) = some s := by
    intro m
    rw [htake m m (hlen m)]
    obtain ⟨s, hs⟩ := Option.isSome_iff_exists.mp (h2 m)
    rw [← List.take_append_drop m (P m), List.filterMap_append, Workers.run_append] at hs
    cases hr : (Workers.mk n [] []).run (((P m).take m).filterMap id) with
    | none => rw [hr] at hs; cases hs
    | some t => exact ⟨t, rfl⟩
  obtain ⟨state, hst⟩ := Classical.axiomOfChoice hrun
  refine ⟨⟨state, label, ?_, ?_⟩, hlab, ?_⟩
  · have := hst 0
    simp only [List.range_zero, List.filterMap_nil, Workers.run, Option.some.injEq] at this
    exact this.symm
  · intro m
    have ha := hst m
    have hb := hst (m + 1)
    rw [List.range_succ, List.filterMap_append, Workers.run_append, ha] at hb
    cases hx : label m with
    | none =>
      simp only [Option.bind_some, List.filterMap_cons, hx, List.filterMap_nil, Workers.run, Option.some.injEq] at hb ⊢
      exact hb.symm
    | some x =>
      simp only [Option.bind_some, List.filterMap_cons, hx, List.filterMap_nil, Workers.run] at hb ⊢
      split at hb
      · rename_i t ht; rw [ht]; exact hb
      · cases hb
  · intro i
    have := htake i (P i).length (Nat.le_refl _)
    rw [List.take_length] at this
    exact this

/-! ## The theorems -/

/-- C100. Wherever the process has got to: the pool and the listening threads can go on, without a panic or an error,
until nobody has anything to do. -/
theorem C100_rest (n : Nat) (hn : 1 ≤ n) (ls : List TLabel) (s : Workers) (h : (Workers.mk n [] []).run ls = some s) :
    ∃ xs s', (∀ x ∈ xs, x.normal = true) ∧ s.run xs = some s' ∧ s'.Quiet :=
  Workers.drain hn _ ls s h (Nat.lt_succ_self _)

theorem Workers.played_run (s : Workers) (opponent : List TLabel → List TLabel) (history : List TLabel) :
    ∃ s', s.run (s.played opponent history) = some s' := by
  unfold Workers.played
  split
  · rename_i h; exact Option.isSome_iff_exists.mp h
  · exact ⟨s, rfl⟩

/-- C100. Every execution can go on in such a way that nobody is passed over for ever, and fairness takes nothing away
from the environment: an opponent that sees everything and gets its turn again and again, and that may start
instances, send datagrams, make calls fail and panic and schedule pool threads as it likes, cannot prevent it. -/
theorem C100 (n : Nat) (hn : 1 ≤ n) (opponent : List TLabel → List TLabel) (ls : List TLabel) (s : Workers)
    (h : (Workers.mk n [] []).run ls = some s) :
    ∃ (L : WorkersLife n) (turn : Nat → Nat), turn 0 = ls.length ∧ L.upTo ls.length = ls ∧
      L.Opposed opponent turn ∧ L.Fair ∧ ∀ k, L.FairTo k := by
  have hd : ∀ ls : List TLabel, ∃ xs : List TLabel, ∀ s, (Workers.mk n [] []).run ls = some s →
      ∃ s', (∀ x ∈ xs, x.normal = true) ∧ s.run xs = some s' ∧ s'.Quiet := by
    intro ls
    cases hr : (Workers.mk n [] []).run ls with
    | none => exact ⟨[], fun s hs => by cases hs⟩
    | some s =>
      obtain ⟨xs, s', h1, h2, h3⟩ := C100_rest n hn ls s hr
      refine ⟨xs, fun t ht => ?_⟩
      cases ht
      exact ⟨s', h1, h2, h3⟩
  obtain ⟨drain, hdrain⟩ := Classical.axiomOfChoice hd
  -- one round: the opponent plays, then everything comes to rest
  let now : List TLabel → Workers := fun ls => ((Workers.mk n [] []).run ls).getD ⟨n, [], []⟩
  let move : List TLabel → List TLabel := fun ls => (now ls).played opponent ls
  let round : List TLabel → List TLabel := fun ls => move ls ++ drain (ls ++ move ls)
  let block : List (Option TLabel) → List (Option TLabel) := fun p =>
    (round (p.filterMap id)).map some ++ [none]
  obtain ⟨P, hP0, hPs⟩ : ∃ P : Nat → List (Option TLabel), P 0 = ls.map some ∧ ∀ i, P (i + 1) = P i ++ block (P i) :=
    ⟨fun i => Nat.rec (ls.map some) (fun _ p => p ++ block p) i, rfl, fun _ => rfl⟩
  have hfm : ∀ l : List TLabel, (l.map some).filterMap id = l := by
    intro l
    rw [List.filterMap_map]
    simp
  have hround : ∀ l, ((Workers.mk n [] []).run l).isSome = true →
      ∃ t, (Workers.mk n [] []).run (l ++ round l) = some t ∧ t.Quiet ∧ ∀ x ∈ drain (l ++ move l), x.normal = true := by
    intro l hl
    obtain ⟨t, ht⟩ := Option.isSome_iff_exists.mp hl
    have hnow : now l = t := by simp only [now, ht, Option.getD_some]
    obtain ⟨t1, ht1⟩ := Workers.played_run t opponent l
    have hr1 : (Workers.mk n [] []).run (l ++ move l) = some t1 := by
      rw [Workers.run_append, ht]
      simp only [move, hnow, Option.bind_some]
      exact ht1
    obtain ⟨t2, g1, g2, g3⟩ := hdrain (l ++ move l) t1 hr1
    refine ⟨t2, ?_, g3, g1⟩
    simp only [round]
    rw [← List.append_assoc, Workers.run_append, hr1]
    exact g2
  have hPf : ∀ i, (P (i + 1)).filterMap id = (P i).filterMap id ++ round ((P i).filterMap id) := by
    intro i
    rw [hPs, List.filterMap_append]
    simp only [block]
    rw [List.filterMap_append, hfm]
    simp
  have hrun : ∀ i, ((Workers.mk n [] []).run ((P i).filterMap id)).isSome = true := by
    intro i
    induction i with
    | zero => rw [hP0, hfm, h]; rfl
    | succ i ih =>
      obtain ⟨t, ht, _⟩ := hround _ ih
      rw [hPf, ht]
      rfl
  obtain ⟨L, hl, hu⟩ := WorkersLife.ofPieces (n := n) P (fun i => ⟨block (P i), hPs i, by simp [block]⟩) hrun
  have hstate : ∀ i, now ((P i).filterMap id) = L.state (P i).length := by
    intro i
    have := L.run (P i).length
    rw [hu] at this
    simp only [now, this, Option.getD_some]
  have hmove : ∀ i, (L.state (P i).length).played opponent (L.upTo (P i).length) = move ((P i).filterMap id) := by
    intro i
    rw [hu, ← hstate]
  have hblock : ∀ i m, m < (block (P i)).length → (block (P i))[m]? = some (L.label ((P i).length + m)) := by
    intro i m hm
    have := hl (i + 1) ((P i).length + m) (by rw [hPs, List.length_append]; omega)
    rw [hPs, List.getElem?_append_right (by omega)] at this
    rw [← this]
    congr 1
    omega
  have hblen : ∀ i, (block (P i)).length = (move ((P i).filterMap id)).length +
      (drain ((P i).filterMap id ++ move ((P i).filterMap id))).length + 1 := by
    intro i
    simp only [block, round, List.length_append, List.length_map, List.length_singleton]
  have hquiet : ∀ m, ∃ m', m ≤ m' ∧ (L.state m').Quiet := by
    intro m
    have hlen : ∀ i, i ≤ (P i).length := by
      intro i
      induction i with
      | zero => exact Nat.zero_le _
      | succ i ih => have := hblen i; rw [hPs, List.length_append]; omega
    obtain ⟨t, ht, hq, _⟩ := hround _ (hrun m)
    refine ⟨(P (m + 1)).length, Nat.le_trans (Nat.le_succ m) (hlen (m + 1)), ?_⟩
    rw [← hstate, hPf]
    simp only [now, ht, Option.getD_some]
    exact hq
  refine ⟨L, fun i => (P i).length, by simp only [hP0, List.length_map], ?_, ⟨?_, ?_, ?_⟩, L.fair_of_quiet hquiet,
    L.fairTo_of_quiet hquiet⟩
  · have := hu 0
    rw [hP0, List.length_map, hfm] at this
    exact this
  · intro i
    have := hblen i
    rw [hmove]
    simp only [hPs, List.length_append]
    omega
  · intro i j hj
    rw [hmove] at hj ⊢
    have hb := hblock i j (by have := hblen i; omega)
    have e : (block (P i))[j]? = ((move ((P i).filterMap id))[j]?).map some := by
      simp only [block, round]
      rw [List.map_append, List.append_assoc, List.getElem?_append_left (by rw [List.length_map]; exact hj), List.getElem?_map]
    rw [e, List.getElem?_eq_getElem hj] at hb
    simp only [Option.map_some, Option.some.injEq] at hb
    rw [← hb, List.getElem?_eq_getElem hj]
  · intro i m x h1 h2 hx
    rw [hmove] at h1
    simp only [hPs, List.length_append] at h2
    obtain ⟨j, rfl⟩ : ∃ j, m = (P i).length + j := ⟨m - (P i).length, by omega⟩
    have hb := hblock i j (by omega)
    rw [hx] at hb
    have hmem : some x ∈ (drain ((P i).filterMap id ++ move ((P i).filterMap id))).map some ++ [none] := by
      simp only [block, round] at hb
      rw [List.map_append, List.append_assoc, List.getElem?_append_right (by rw [List.length_map]; omega)] at hb
      exact List.mem_of_getElem? hb
    obtain ⟨t, _, _, hn⟩ := hround _ (hrun i)
    refine hn x ?_
    simpa using hmem

/-- What happens is either what the opponent wants or normal. -/
theorem WorkersLife.Opposed.cases {n : Nat} {L : WorkersLife n} {opponent : List TLabel → List TLabel} {turn : Nat → Nat}
    (h : L.Opposed opponent turn) {m : Nat} {x : TLabel} (hm : turn 0 ≤ m) (hx : L.label m = some x) :
    x.normal = true ∨ ∃ history, x ∈ opponent history := by
  have hlt : ∀ i, turn i < turn (i + 1) := fun i => by have := h.later i; omega
  have hge : ∀ i, i ≤ turn i := by
    intro i
    induction i with
    | zero => exact Nat.zero_le _
    | succ i ih => have := hlt i; omega
  obtain ⟨i, _, _, h1, h2⟩ := leaves (P := fun i => turn i ≤ m) (Nat.zero_le (m + 1)) hm (by
    have := hge (m + 1); omega)
  by_cases hb : turn i + ((L.state (turn i)).played opponent (L.upTo (turn i))).length ≤ m
  · exact .inl (h.between i m x hb (by omega) hx)
  · right
    have hp := h.plays i (m - turn i) (by omega)
    rw [show turn i + (m - turn i) = m by omega, hx] at hp
    have hmem := List.mem_of_getElem? hp.symm
    refine ⟨L.upTo (turn i), ?_⟩
    unfold Workers.played at hmem
    split at hmem
    · exact hmem
    · cases hmem

theorem normal_arrivals {k : Nat} {x : TLabel} (h : x.normal = true) : rarrivals (jobsAt k [x]) = [] := by
  cases x <;> simp only [TLabel.normal, TLabel.calm, Bool.false_eq_true] at h <;> simp only [jobsAt]
  case io j y => cases y <;> simp [TLabel.calm] at h <;> (split <;> rfl)
  all_goals first | rfl | (split <;> rfl)

/-- C100. So, whatever has happened so far, as long as nothing went wrong at an instance (it cannot panic, no system call
failed): whatever datagrams come from now on, one after the other without end, it can be that all of
them are handed to all its receivers. -/
theorem C100_stream (n : Nat) (hn : 1 ≤ n) (ls : List TLabel) (s : Workers) (h : (Workers.mk n [] []).run ls = some s)
    (k : Nat) (u : RMember) (hu : s.members[k]? = some u) (hp : NoPanics u.listener)
    (hs : ∀ y, .io k y ∈ ls → y = .pollEvent ∨ y = .recv ∨ y = .pollTimeout ∨ ∃ d, y = .arrive d)
    (input : Nat → Datagram) :
    ∃ L : WorkersLife n, L.upTo ls.length = ls ∧
      (∀ m, ls.length ≤ m → ∃ i, L.incoming k m = L.incoming k ls.length ++ (List.range i).map input) ∧
      ∀ i, ∃ m t, ls.length ≤ m ∧ (L.state m).members[k]? = some ⟨u.listener, t⟩ ∧
        ∀ r, r < u.listener.receivers.length →
          (callsOf r t.trace)[(L.incoming k ls.length).length + i]? =
            some (received u.listener.buffersize (input i)) := by
  let opponent : List TLabel → List TLabel := fun history =>
    [.io k (.arrive (input ((rarrivals (jobsAt k history)).length - (rarrivals (jobsAt k ls)).length)))]
  obtain ⟨L, turn, h0, h1, hop, hf, hk⟩ := C100 n hn opponent ls s h
  have hstate : L.state ls.length = s := by
    have := L.run ls.length
    rw [h1, h] at this
    exact (Option.some.inj this).symm
  have hlt : ∀ i, turn i < turn (i + 1) := fun i => by have := hop.later i; omega
  have hge : ∀ i, i ≤ turn i ∧ ls.length ≤ turn i := by
    intro i
    induction i with
    | zero => exact ⟨Nat.zero_le _, by omega⟩
    | succ i ih => have := hlt i; omega
  have hmem : ∀ m, ls.length ≤ m → ∃ t, (L.state m).members[k]? = some ⟨u.listener, t⟩ := fun m hm =>
    L.member_le (by rw [hstate]; exact hu) hm
  have hplayed : ∀ i, (L.state (turn i)).played opponent (L.upTo (turn i)) = opponent (L.upTo (turn i)) := by
    intro i
    obtain ⟨t, ht⟩ := hmem (turn i) (hge i).2
    unfold Workers.played
    rw [if_pos]
    simp only [opponent, Workers.run, Workers.step, RLabel.outer, if_true, Workers.act, ht, Listener.rstep, Option.isSome_some]
  have hlabel : ∀ i, L.label (turn i) = (opponent (L.upTo (turn i)))[0]? := by
    intro i
    have := hop.plays i 0 (by rw [hplayed]; simp [opponent])
    rw [hplayed] at this
    exact this
  have hlater : ∀ i m x, turn i < m → m < turn (i + 1) → L.label m = some x → x.normal = true := by
    intro i m x h1 h2
    refine hop.between i m x ?_ h2
    rw [hplayed]
    simp only [opponent, List.length_singleton]
    omega
  -- arrivals
  have hstep : ∀ m, rarrivals (jobsAt k (L.upTo (m + 1))) =
      rarrivals (jobsAt k (L.upTo m)) ++ rarrivals (jobsAt k (L.label m).toList) := by
    intro m
    rw [L.upTo_succ, jobsAt_append]
    unfold rarrivals
    rw [List.filterMap_append, arrivals_append]
  have harr : ∀ i, rarrivals (jobsAt k (L.upTo (turn i))) = rarrivals (jobsAt k ls) ++ (List.range i).map input ∧
      ∀ m, turn i < m → m ≤ turn (i + 1) →
        rarrivals (jobsAt k (L.upTo m)) = rarrivals (jobsAt k ls) ++ (List.range (i + 1)).map input := by
    have hin : ∀ i, rarrivals (jobsAt k (L.upTo (turn i))) = rarrivals (jobsAt k ls) ++ (List.range i).map input →
        ∀ m, turn i < m → m ≤ turn (i + 1) →
        rarrivals (jobsAt k (L.upTo m)) = rarrivals (jobsAt k ls) ++ (List.range (i + 1)).map input := by
      intro i hi m h1
      induction h1 with
      | refl =>
        intro _
        rw [hstep, hlabel, hi]
        have e : rarrivals (jobsAt k ((opponent (L.upTo (turn i)))[0]?).toList) = [input i] := by
          have : (rarrivals (jobsAt k (L.upTo (turn i)))).length - (rarrivals (jobsAt k ls)).length = i := by
            rw [hi]; simp
          simp only [opponent, this, List.getElem?_cons_zero, Option.toList_some, jobsAt, if_true]
          rfl
        rw [e, List.append_assoc, List.range_succ, List.map_append]
        rfl
      | @step m hm ih =>
        intro h2
        rw [hstep, ih (by omega)]
        cases hx : L.label m with
        | none => exact List.append_nil _
        | some x =>
          rw [Option.toList_some, normal_arrivals (hlater i m x hm h2 hx), List.append_nil]
    intro i
    have base : rarrivals (jobsAt k (L.upTo (turn i))) = rarrivals (jobsAt k ls) ++ (List.range i).map input := by
      induction i with
      | zero => rw [h0, h1]; simp
      | succ i ih => exact hin i ih (turn (i + 1)) (hlt i) (Nat.le_refl _)
    exact ⟨base, hin i base⟩
  have hl : L.Settled := by
    refine ⟨ls.length, fun m l q hm hx => ?_⟩
    rcases hop.cases (by omega) hx with hx | ⟨history, hx⟩
    · cases hx
    · simp [opponent] at hx
  have hla : ∀ m, ls.length ≤ m → launches (L.upTo m) = launches ls := by
    intro m hm
    induction hm with
    | refl => rw [h1]
    | @step m hm ih =>
      rw [L.upTo_succ, launches_append, ih]
      cases hx : L.label m with
      | none => simp [launches]
      | some x =>
        cases x with
        | launch l q =>
          exfalso
          rcases hop.cases (by rw [h0]; exact hm) hx with hx | ⟨history, hx⟩
          · cases hx
          · simp [opponent] at hx
        | _ => simp [launches]
  have hinc : ∀ m, ls.length ≤ m → ∃ i, L.incoming k m = L.incoming k ls.length ++ (List.range i).map input := by
    intro m hm
    obtain ⟨i, _, _, h2, h3⟩ := leaves (P := fun i => turn i ≤ m) (Nat.zero_le (m + 1)) (by omega) (by
      have := hge (m + 1); omega)
    simp only [WorkersLife.incoming, hla m hm, h1]
    rcases Nat.lt_or_ge (turn i) m with h4 | h4
    · exact ⟨i + 1, by rw [(harr i).2 m h4 (by omega), List.append_assoc]⟩
    · have : m = turn i := by omega
      exact ⟨i, by rw [this, (harr i).1, List.append_assoc]⟩
  have hsm : L.SmoothAt k := by
    intro m x hx
    rcases Nat.lt_or_ge m ls.length with hm | hm
    · refine hs x ?_
      have : TLabel.io k x ∈ L.upTo ls.length := by
        unfold WorkersLife.upTo
        exact List.mem_filterMap.mpr ⟨m, List.mem_range.mpr hm, hx⟩
      rwa [h1] at this
    · rcases hop.cases (by omega) hx with hx | ⟨history, hx⟩
      · cases x <;> simp [TLabel.normal, TLabel.calm] at hx ⊢
      · simp only [opponent, List.mem_singleton, TLabel.io.injEq] at hx
        exact .inr (.inr (.inr ⟨_, hx.2⟩))
  have hend : L.EndlessAt k := by
    intro m
    exact ⟨turn m, _, (hge m).1, by rw [hlabel]; rfl⟩
  refine ⟨L, h1, hinc, fun i => ?_⟩
  obtain ⟨t, ht⟩ := hmem (turn (i + 1)) (hge (i + 1)).2
  obtain ⟨m, t', g1, g2, g3⟩ := C90_delivery n hn L hf hl (turn (i + 1)) k _ ht hp (hk k) hsm hend
    ((L.incoming k ls.length).length + i) (input i) (by
      simp only [WorkersLife.incoming, hla _ (hge (i + 1)).2, h1, (harr (i + 1)).1]
      rw [← List.append_assoc, List.getElem?_append_right (by omega)]
      simp [List.getElem?_map, List.getElem?_range])
  exact ⟨m, t', by have := (hge (i + 1)).2; omega, g2, g3⟩

/-! ## A concrete case -/

/-- The state of `C89_buried`, where one instance is held up by the receiver of another: also from there everything that
comes can be delivered, to either. -/
example (d : Datagram) (input : Nat → Datagram) (k : Nat) (hk : k < 2) :
    ∃ L : WorkersLife 2, L.upTo (buriedRun d).length = buriedRun d ∧
      ∀ i, ∃ m t, (buriedRun d).length ≤ m ∧ (L.state m).members[k]? = some ⟨oneReceiver, t⟩ ∧
        (callsOf 0 t.trace)[1 + i]? = some (received 16 (input i)) := by
  obtain ⟨s, hs, u0, u1, h0, h1, e0, e1⟩ : ∃ s, (Workers.mk 2 [] []).run (buriedRun d) = some s ∧
      ∃ u0 u1, s.members[0]? = some u0 ∧ s.members[1]? = some u1 ∧ u0.listener = oneReceiver ∧
        u1.listener = oneReceiver := ⟨_, rfl, _, _, rfl, rfl, rfl, rfl⟩
  obtain ⟨u, hu, e⟩ : ∃ u, s.members[k]? = some u ∧ u.listener = oneReceiver := by
    rcases (show k = 0 ∨ k = 1 by omega) with rfl | rfl
    · exact ⟨u0, h0, e0⟩
    · exact ⟨u1, h1, e1⟩
  have hp : NoPanics u.listener := by
    rw [e]
    intro x hx p a
    simp only [oneReceiver, List.mem_singleton] at hx
    subst hx
    rfl
  obtain ⟨L, g1, _, g2⟩ := C100_stream 2 (by omega) _ s hs k u hu hp
    (by intro y hy; simp [buriedRun] at hy; grind) input
  have hlen : (L.incoming k (buriedRun d).length).length = 1 := by
    simp only [WorkersLife.incoming, g1]
    rcases (show k = 0 ∨ k = 1 by omega) with rfl | rfl <;> rfl
  refine ⟨L, g1, fun i => ?_⟩
  obtain ⟨m, t, a, b, c⟩ := g2 i
  rw [hlen, e] at c
  rw [e] at b
  exact ⟨m, t, a, b, c 0 (by simp [oneReceiver])⟩

/-- An opponent that starts an instance whenever it can does not make the pool unfair either (but see
`C90_endless_starts`). -/
example (l : Listener) : ∃ (L : WorkersLife 1) (turn : Nat → Nat),
    L.Fair ∧ ∀ i, L.label (turn i) = some (.launch l []) := by
  obtain ⟨L, turn, _, _, h, hf, _⟩ := C100 1 (Nat.le_refl _) (fun _ => [.launch l []]) [] _ rfl
  refine ⟨L, turn, hf, fun i => ?_⟩
  have hp : (L.state (turn i)).played (fun _ => [.launch l []]) (L.upTo (turn i)) = [.launch l []] := rfl
  have := h.plays i 0 (by rw [hp]; simp)
  rw [hp] at this
  exact this

/-! ## Cases for the theorems above -/

/-! ## Cases for the theorems above -/

/-- `C100_rest`: from the state of `C89_buried` the pool can come to rest. -/
example (d : Datagram) (s : Workers) (h : (Workers.mk 2 [] []).run (buriedRun d) = some s) :
    ∃ xs s', (∀ x ∈ xs, x.normal = true) ∧ s.run xs = some s' ∧ s'.Quiet :=
  C100_rest 2 (by decide) _ s h

end Ipv8
