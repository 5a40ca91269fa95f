import Verif.Props.Deque
/-!
# C105 (continued): the queues stop nobody

As long as a packet is to be handed out, some pool thread can go on, also when it may only take what the queues allow.
-/

namespace Ipv8
open Spec

/-! ## The queues have what is to be done -/

/-- A range that has been left for whoever comes first. -/
def Unclaimed (s : Workers) (j : Job) : Prop :=
  (∃ w, (w, .scope j.inst) ∈ s.frames) ∧ (∃ ts, s.jobs j.inst = some ts ∧ .pending j.lo j.hi ∈ ts) ∧
    ∀ w, (w, .hand j.inst j.lo j.hi) ∉ s.frames

structure Queued (s : Deques) : Prop where
  iff : ∀ j, (∃ v, j ∈ s.queue v) ↔ Unclaimed s.workers j
  nodup : ∀ v, (s.queue v).Nodup
  apart : ∀ v v' j, j ∈ s.queue v → j ∈ s.queue v' → v = v'
  fresh : ∀ k ts, s.workers.jobs k = some ts → (∀ w, (w, .scope k) ∉ s.workers.frames) → ts = [.pending 0 (s.workers.sizes k)]

/-- Nothing happens to the queues. -/
theorem Queued.same {s s' : Deques} (h : Queued s) (hq : s'.queue = s.queue)
    (hw : ∀ j, Unclaimed s'.workers j ↔ Unclaimed s.workers j)
    (hf : ∀ k ts, s'.workers.jobs k = some ts → (∀ w, (w, .scope k) ∉ s'.workers.frames) →
      ts = [.pending 0 (s'.workers.sizes k)]) : Queued s' where
  iff j := by rw [hq, h.iff, hw]
  nodup v := by rw [hq]; exact h.nodup v
  apart v v' j := by rw [hq]; exact h.apart v v' j
  fresh := hf

/-- A job is left. -/
theorem Queued.push {s s' : Deques} (h : Queued s) {w : Nat} {j0 : Job}
    (hq : s'.queue = fun i => if i = w then j0 :: s.queue w else s.queue i)
    (hw : ∀ j, Unclaimed s'.workers j ↔ Unclaimed s.workers j ∨ j = j0) (hn : ¬ Unclaimed s.workers j0)
    (hf : ∀ k ts, s'.workers.jobs k = some ts → (∀ w, (w, .scope k) ∉ s'.workers.frames) →
      ts = [.pending 0 (s'.workers.sizes k)]) : Queued s' := by
  have hno : ∀ v, j0 ∉ s.queue v := fun v hv => hn ((h.iff j0).mp ⟨v, hv⟩)
  have hmem : ∀ v j, j ∈ s'.queue v ↔ j ∈ s.queue v ∨ (v = w ∧ j = j0) := by
    intro v j
    rw [hq]
    by_cases hv : v = w
    · subst hv
      simp [or_comm]
    · simp [hv]
  refine ⟨?_, ?_, ?_, hf⟩
  · intro j
    rw [hw, ← h.iff]
    simp only [hmem]
    constructor
    · rintro ⟨v, hv | hv⟩
      · exact .inl ⟨v, hv⟩
      · exact .inr hv.2
    · rintro (⟨v, hv⟩ | hv)
      · exact ⟨v, .inl hv⟩
      · exact ⟨w, .inr ⟨rfl, hv⟩⟩
  · intro v
    rw [hq]
    by_cases hv : v = w
    · simp only [hv, if_true, List.nodup_cons]
      exact ⟨hno w, h.nodup w⟩
    · simp only [hv, if_false]
      exact h.nodup v
  · intro v v' j h1 h2
    rcases (hmem _ _).mp h1 with h1 | ⟨h1, hj⟩ <;> rcases (hmem _ _).mp h2 with h2 | ⟨h2, hj'⟩
    · exact h.apart v v' j h1 h2
    · exact absurd h1 (hj' ▸ hno v)
    · exact absurd h2 (hj ▸ hno v')
    · rw [h1, h2]

/-- A job is taken. -/
theorem Queued.pull {s s' : Deques} (h : Queued s) {w : Nat} {j0 : Job} {rest : List Job}
    (hq : s'.queue = fun i => if i = w then rest else s.queue i) (hr : (s.queue w).Perm (j0 :: rest))
    (hw : ∀ j, Unclaimed s'.workers j ↔ Unclaimed s.workers j ∧ j ≠ j0)
    (hf : ∀ k ts, s'.workers.jobs k = some ts → (∀ w, (w, .scope k) ∉ s'.workers.frames) →
      ts = [.pending 0 (s'.workers.sizes k)]) : Queued s' := by
  have hnd := hr.nodup_iff.mp (h.nodup w)
  rw [List.nodup_cons] at hnd
  have h0 : j0 ∈ s.queue w := hr.mem_iff.mpr (by simp)
  have hmem : ∀ v j, j ∈ s'.queue v ↔ j ∈ s.queue v ∧ j ≠ j0 := by
    intro v j
    rw [hq]
    by_cases hv : v = w
    · subst hv
      simp only [if_true, hr.mem_iff, List.mem_cons]
      constructor
      · intro hj
        exact ⟨.inr hj, fun he => hnd.1 (he ▸ hj)⟩
      · rintro ⟨rfl | hj, hne⟩
        · exact absurd rfl hne
        · exact hj
    · simp only [hv, if_false]
      constructor
      · intro hj
        refine ⟨hj, ?_⟩
        rintro rfl
        exact hv (h.apart _ _ _ hj h0)
      · exact fun hj => hj.1
  refine ⟨?_, ?_, ?_, hf⟩
  · intro j
    rw [hw, ← h.iff]
    simp only [hmem]
    constructor
    · rintro ⟨v, hv, hne⟩
      exact ⟨⟨v, hv⟩, hne⟩
    · rintro ⟨⟨v, hv⟩, hne⟩
      exact ⟨v, hv, hne⟩
  · intro v
    rw [hq]
    by_cases hv : v = w
    · simp only [hv, if_true]
      exact hnd.2
    · simp only [hv, if_false]
      exact h.nodup v
  · intro v v' j h1 h2
    exact h.apart v v' j ((hmem _ _).mp h1).1 ((hmem _ _).mp h2).1

/-- What a pool thread does with the ranges it has. -/
theorem unclaimed_work {s s' : Workers} {w k : Nat} {f : Frame} {new : List Frame} {ts' : List Task} (hg : s.Good)
    (hf : s.top w = some f) (hF : s'.frames = new.map (fun g => (w, g)) ++ s.frames.erase (w, f))
    (hj' : s'.jobs = setJobs s.jobs k (some ts')) (h1 : ∀ i, f ≠ .scope i)
    (h2 : ∀ i, .scope i ∉ new) (j : Job) :
    Unclaimed s' j ↔ (∃ v, (v, .scope j.inst) ∈ s.frames) ∧
      (if j.inst = k then .pending j.lo j.hi ∈ ts' else ∃ us, s.jobs j.inst = some us ∧ .pending j.lo j.hi ∈ us) ∧
      .hand j.inst j.lo j.hi ∉ new ∧ ∀ v, (v, .hand j.inst j.lo j.hi) ∈ s.frames → .hand j.inst j.lo j.hi = f := by
  have hmem : ∀ v g, (v, g) ∈ s'.frames ↔ (v = w ∧ g ∈ new) ∨ ((v, g) ∈ s.frames ∧ g ≠ f) := by
    intro v g
    rw [hF, List.mem_append, hg.stacks.mem_erase (Workers.top_mem hf)]
    simp only [List.mem_map, Prod.mk.injEq]
    constructor
    · rintro (⟨g', h3, h4, h5⟩ | h3)
      · exact .inl ⟨h4.symm, h5 ▸ h3⟩
      · exact .inr h3
    · rintro (⟨h3, h4⟩ | h3)
      · exact .inl ⟨g, h4, h3.symm, rfl⟩
      · exact .inr h3
  unfold Unclaimed
  have e1 : (∃ v, (v, .scope j.inst) ∈ s'.frames) ↔ ∃ v, (v, .scope j.inst) ∈ s.frames := by
    simp only [hmem]
    constructor
    · rintro ⟨v, ⟨_, h3⟩ | h3⟩
      · exact absurd h3 (h2 _)
      · exact ⟨v, h3.1⟩
    · rintro ⟨v, h3⟩
      exact ⟨v, .inr ⟨h3, fun he => h1 _ he.symm⟩⟩
  have e2 : (∃ us, s'.jobs j.inst = some us ∧ .pending j.lo j.hi ∈ us) ↔
      if j.inst = k then .pending j.lo j.hi ∈ ts' else ∃ us, s.jobs j.inst = some us ∧ .pending j.lo j.hi ∈ us := by
    rw [hj']
    split
    · rename_i hk
      rw [hk, setJobs_self]
      simp
    · rename_i hk
      rw [setJobs_ne hk]
  have e3 : (∀ v, (v, .hand j.inst j.lo j.hi) ∉ s'.frames) ↔
      .hand j.inst j.lo j.hi ∉ new ∧ ∀ v, (v, .hand j.inst j.lo j.hi) ∈ s.frames → .hand j.inst j.lo j.hi = f := by
    simp only [hmem]
    constructor
    · intro h3
      refine ⟨fun h4 => h3 w (.inl ⟨rfl, h4⟩), ?_⟩
      intro v hv
      by_cases he : Frame.hand j.inst j.lo j.hi = f
      · exact he
      · exact absurd (.inr ⟨hv, he⟩) (h3 v)
    · rintro ⟨h3, h4⟩ v (⟨_, h5⟩ | ⟨h5, h6⟩)
      · exact h3 h5
      · exact h6 (h4 v h5)
  rw [e1, e2, e3]

theorem unclaimed_leaf {s s' : Workers} {w k hi : Nat} {new : List Frame} {ts ts' : List Task} (hg : s.Good)
    (hf : s.top w = some (.leaf k hi)) (hF : s'.frames = new.map (fun g => (w, g)) ++ s.frames.erase (w, .leaf k hi))
    (hj : s.jobs k = some ts) (hj' : s'.jobs = setJobs s.jobs k (some ts'))
    (h2 : ∀ i, .scope i ∉ new) (h3 : ∀ i a b, .hand i a b ∉ new) (h4 : ∀ a b, .pending a b ∈ ts' ↔ .pending a b ∈ ts)
    (j : Job) : Unclaimed s' j ↔ Unclaimed s j := by
  rw [unclaimed_work hg hf hF hj' (by simp) h2]
  unfold Unclaimed
  refine and_congr Iff.rfl (and_congr ?_ ?_)
  · split
    · rename_i hk
      rw [h4, hk, hj]
      simp
    · rfl
  · constructor
    · rintro ⟨-, h5⟩ v hv
      cases h5 v hv
    · intro h5
      exact ⟨h3 _ _ _, fun v hv => absurd hv (h5 v)⟩

theorem unclaimed_begin {s s' : Workers} {w k lo hi : Nat} {ts : List Task} (hg : s.Good)
    (hf : s.top w = some (.hand k lo hi))
    (hF : s'.frames = [Frame.leaf k hi].map (fun g => (w, g)) ++ s.frames.erase (w, .hand k lo hi))
    (hj : s.jobs k = some ts) (hj' : s'.jobs = setJobs s.jobs k (some (.between lo hi :: ts.erase (.pending lo hi))))
    (j : Job) : Unclaimed s' j ↔ Unclaimed s j := by
  rw [unclaimed_work hg hf hF hj' (by simp) (by simp)]
  have hd : ts.Nodup := (hg.tasks k ts hj).nd
  have htaken := Workers.top_mem hf
  unfold Unclaimed
  constructor
  · rintro ⟨h1, h2, -, h3⟩
    have hne : ¬ (j.inst = k ∧ j.lo = lo ∧ j.hi = hi) := by
      rintro ⟨rfl, rfl, rfl⟩
      simp only [if_true, List.mem_cons, reduceCtorEq, false_or, hd.mem_erase_iff] at h2
      exact h2.1 rfl
    refine ⟨h1, ?_, ?_⟩
    · split at h2
      · rename_i hk
        refine ⟨ts, hk ▸ hj, ?_⟩
        simp only [List.mem_cons, reduceCtorEq, false_or] at h2
        exact List.mem_of_mem_erase h2
      · exact h2
    · intro v hv
      have := h3 v hv
      simp only [Frame.hand.injEq] at this
      exact hne this
  · rintro ⟨h1, ⟨us, h2, h3⟩, h4⟩
    have hne : ¬ (j.inst = k ∧ j.lo = lo ∧ j.hi = hi) := by
      rintro ⟨rfl, rfl, rfl⟩
      exact h4 w htaken
    refine ⟨h1, ?_, by simp, fun v hv => absurd hv (h4 v)⟩
    split
    · rename_i hk
      rw [hk, hj] at h2
      cases h2
      simp only [List.mem_cons, reduceCtorEq, false_or, hd.mem_erase_iff]
      refine ⟨?_, h3⟩
      intro he
      simp only [Task.pending.injEq] at he
      exact hne ⟨hk, he⟩
    · exact ⟨us, h2, h3⟩

theorem unclaimed_split {s s' : Workers} {w k lo mid hi : Nat} {ts : List Task} (hg : s.Good)
    (hf : s.top w = some (.hand k lo hi)) (hmid : lo < mid ∧ mid < hi)
    (hF : s'.frames = [Frame.hand k lo mid, .join k mid hi].map (fun g => (w, g)) ++ s.frames.erase (w, .hand k lo hi))
    (hj : s.jobs k = some ts)
    (hj' : s'.jobs = setJobs s.jobs k (some (.pending lo mid :: .pending mid hi :: ts.erase (.pending lo hi)))) :
    (∀ j, Unclaimed s' j ↔ Unclaimed s j ∨ j = ⟨k, mid, hi⟩) ∧ ¬ Unclaimed s ⟨k, mid, hi⟩ := by
  have hd := hg.tasks k ts hj
  have htaken := Workers.top_mem hf
  have hp : .pending lo hi ∈ ts := hg.hand w k lo hi htaken ts hj
  have hno : .pending mid hi ∉ ts := by
    intro hm
    have := hd.eq hm hp rfl
    simp only [Task.pending.injEq] at this
    omega
  have hno' : .pending lo mid ∉ ts := by
    intro hm
    have := hd.apart _ hm _ hp hmid.2
    simp only [Task.start, Task.stop] at this
    omega
  refine ⟨?_, ?_⟩
  · intro j
    rw [unclaimed_work hg hf hF hj' (by simp) (by simp)]
    unfold Unclaimed
    constructor
    · rintro ⟨h1, h2, h3, h4⟩
      by_cases hj0 : j = ⟨k, mid, hi⟩
      · exact .inr hj0
      left
      have hn2 : ¬ (j.inst = k ∧ j.lo = lo ∧ j.hi = mid) := by
        rintro ⟨rfl, rfl, rfl⟩
        simp at h3
      have hn3 : ¬ (j.inst = k ∧ j.lo = mid ∧ j.hi = hi) := by
        rintro ⟨rfl, rfl, rfl⟩
        exact hj0 rfl
      refine ⟨h1, ?_, ?_⟩
      · split at h2
        · rename_i hk
          refine ⟨ts, hk ▸ hj, ?_⟩
          simp only [List.mem_cons, Task.pending.injEq] at h2
          rcases h2 with h2 | h2 | h2
          · exact absurd ⟨hk, h2⟩ hn2
          · exact absurd ⟨hk, h2⟩ hn3
          · exact List.mem_of_mem_erase h2
        · exact h2
      · intro v hv
        have := h4 v hv
        simp only [Frame.hand.injEq] at this
        rw [if_pos this.1, this.2.1, this.2.2] at h2
        simp only [List.mem_cons, Task.pending.injEq, hd.nd.mem_erase_iff] at h2
        rcases h2 with h2 | h2 | h2
        · omega
        · omega
        · exact h2.1 rfl
    · rintro (⟨h1, ⟨us, h2, h3⟩, h4⟩ | rfl)
      · have hn1 : ¬ (j.inst = k ∧ j.lo = lo ∧ j.hi = hi) := by
          rintro ⟨rfl, rfl, rfl⟩
          exact h4 w htaken
        refine ⟨h1, ?_, ?_, fun v hv => absurd hv (h4 v)⟩
        · split
          · rename_i hk
            rw [hk, hj] at h2
            cases h2
            simp only [List.mem_cons, hd.nd.mem_erase_iff]
            refine .inr (.inr ⟨?_, h3⟩)
            intro he
            simp only [Task.pending.injEq] at he
            exact hn1 ⟨hk, he⟩
          · exact ⟨us, h2, h3⟩
        · simp only [List.mem_cons, Frame.hand.injEq, reduceCtorEq, List.not_mem_nil, or_self, or_false]
          rintro ⟨hk, e1, e2⟩
          rw [hk, hj] at h2
          cases h2
          rw [e1, e2] at h3
          exact hno' h3
      · refine ⟨?_, by simp, ?_, ?_⟩
        · obtain ⟨-, ⟨v, g⟩, hy, he⟩ := hg.scope _ htaken
          simp only at he
          subst he
          exact ⟨v, hy⟩
        · simp only [List.mem_cons, Frame.hand.injEq, reduceCtorEq, List.not_mem_nil, or_self, or_false]
          omega
        · intro v hv
          exact absurd (hg.hand v k mid hi hv ts hj) hno
  · rintro ⟨-, ⟨us, h1, h2⟩, -⟩
    simp only at h1
    rw [hj] at h1
    cases h1
    exact hno h2

theorem sizes_set {s : Workers} {k : Nat} {m : RMember} {t : RState} {F : List (Nat × Frame)}
    (hm : s.members[k]? = some m) :
    Workers.sizes ⟨s.threads, s.members.set k ⟨m.listener, t⟩, F⟩ = s.sizes := by
  funext j
  have hlt : k < s.members.length := (List.getElem?_eq_some_iff.mp hm).1
  unfold Workers.sizes
  by_cases he : k = j
  · subst he
    obtain ⟨_, rfl⟩ := List.getElem?_eq_some_iff.mp hm
    simp [hlt]
  · simp [he]

theorem Queued.work {s s' : Deques} (h : Queued s) {w k : Nat} {f : Frame} {x : RLabel} {new : List Frame} (hg : s.workers.Good)
    (hw : s.workers.work w f k x new = some s'.workers) (hnf : f.inst = k) (h1 : ∀ i, f ≠ .scope i) :
    ∀ i ts, s'.workers.jobs i = some ts → (∀ v, (v, .scope i) ∉ s'.workers.frames) →
      ts = [.pending 0 (s'.workers.sizes i)] := by
  obtain ⟨m, t, htop, hm, -, he⟩ := Workers.work_eq hw
  rw [he]
  intro i ts hi hno
  have hF : ∀ v, (v, .scope i) ∉ s.workers.frames := by
    intro v hv
    refine hno v (List.mem_append_right _ ?_)
    rw [hg.stacks.mem_erase (Workers.top_mem htop)]
    exact ⟨hv, fun e => h1 i e.symm⟩
  have hik : i ≠ k := by
    rintro rfl
    obtain ⟨-, ⟨v, g⟩, hy, hge⟩ := hg.scope _ (Workers.top_mem htop)
    simp only [hnf] at hge
    subst hge
    exact hF v hy
  rw [Workers.jobs_set hm, setJobs_ne hik] at hi
  rw [sizes_set hm]
  exact h.fresh i ts hi hF

theorem Queued.step {s s' : Deques} (h : Queued s) (hg : s.workers.Good) {x : DLabel} (hx : s.step x = some s') : Queued s' := by
  have hplain := Deques.step_plain hx
  have htake : ∀ {w k lo hi}, s.workers.step (.take w k lo hi) = some s'.workers →
      (∀ j, Unclaimed s'.workers j ↔ Unclaimed s.workers j ∧ j ≠ ⟨k, lo, hi⟩) ∧
      ∀ i ts, s'.workers.jobs i = some ts → (∀ v, (v, .scope i) ∉ s'.workers.frames) →
        ts = [.pending 0 (s'.workers.sizes i)] := by
    intro w k lo hi hs
    simp only [Workers.step] at hs
    split at hs
    case h_1 => cases hs
    split at hs
    case isFalse => cases hs
    simp only [Option.some.injEq] at hs
    rw [← hs]
    refine ⟨?_, ?_⟩
    · intro j
      unfold Unclaimed
      constructor
      · rintro ⟨⟨v, h1⟩, h2, h3⟩
        refine ⟨⟨⟨v, by simpa using h1⟩, h2, fun v hv => h3 v (by simp [hv])⟩, ?_⟩
        rintro rfl
        exact h3 w (by simp)
      · rintro ⟨⟨⟨v, h1⟩, h2, h3⟩, hne⟩
        refine ⟨⟨v, by simp [h1]⟩, h2, fun v hv => ?_⟩
        simp only [List.mem_cons, Prod.mk.injEq, Frame.hand.injEq] at hv
        rcases hv with hv | hv
        · apply hne
          cases j
          simp only [Job.mk.injEq]
          exact hv.2
        · exact h3 v hv
    · intro i ts hi hno
      exact h.fresh i ts hi (fun v hv => hno v (by simp [hv]))
  cases x with
  | steal w v k lo hi =>
    simp only [DLabel.plain] at hplain
    simp only [Deques.step, hplain] at hx
    split at hx
    case isFalse => cases hx
    rename_i hc
    simp only [Option.some.injEq] at hx
    obtain ⟨t1, t2⟩ := htake hplain
    have hl : s.queue v = (s.queue v).dropLast ++ [⟨k, lo, hi⟩] := by
      obtain ⟨ys, hys⟩ := List.getLast?_eq_some_iff.mp hc.2
      rw [hys, List.dropLast_concat]
    refine h.pull (w := v) (j0 := ⟨k, lo, hi⟩) (rest := (s.queue v).dropLast) (by rw [← hx]) ?_ t1 t2
    conv => lhs; rw [hl]
    exact List.perm_append_singleton _ _
  | «local» x =>
    simp only [DLabel.plain] at hplain
    simp only [Deques.step, hplain] at hx
    split at hx
    case h_2 => cases hx
    rename_i t q he hq
    simp only [Option.some.injEq] at he
    subst he
    simp only [Option.some.injEq] at hx
    have hsq : s'.queue = q := by rw [← hx]
    cases x with
    | launch l queued =>
      simp only [queueStep, Option.some.injEq] at hq
      simp only [Workers.step, Option.some.injEq] at hplain
      have hold : ∀ k, k < s.workers.members.length → s'.workers.members[k]? = s.workers.members[k]? := by
        intro k hk
        rw [← hplain]
        simp only
        exact List.getElem?_append_left hk
      have hnew : ∀ k, ¬ k < s.workers.members.length → s'.workers.jobs k = none ∧ s.workers.jobs k = none := by
        intro k hk
        constructor
        · rw [← hplain]
          unfold Workers.jobs
          simp only
          rw [List.getElem?_append_right (by omega)]
          cases hd : k - s.workers.members.length <;> simp [Listener.rinit, RState.jobs]
        · unfold Workers.jobs
          rw [List.getElem?_eq_none (by omega)]
      have hjobs : ∀ k, s'.workers.jobs k = s.workers.jobs k := by
        intro k
        by_cases hk : k < s.workers.members.length
        · simp only [Workers.jobs, hold k hk]
        · rw [(hnew k hk).1, (hnew k hk).2]
      have hF : s'.workers.frames = s.workers.frames := by rw [← hplain]
      refine h.same (by rw [hsq, hq]) ?_ ?_
      · intro j
        unfold Unclaimed
        rw [hF, hjobs]
      · intro k ts hk hno
        rw [hjobs] at hk
        rw [hF] at hno
        have hlt : k < s.workers.members.length := by
          rcases Nat.lt_or_ge k s.workers.members.length with hlt | hge
          · exact hlt
          · rw [(hnew k (by omega)).2] at hk
            cases hk
        rw [h.fresh k ts hk hno]
        simp only [Workers.sizes, hold k hlt]
    | io k y =>
      simp only [queueStep, Option.some.injEq] at hq
      simp only [Workers.step] at hplain
      split at hplain
      case isFalse => cases hplain
      rename_i hy
      obtain ⟨m, t, hm, hr, hw⟩ := Workers.act_eq hplain
      have hF : s'.workers.frames = s.workers.frames := by rw [hw]
      have hj : s'.workers.jobs = setJobs s.workers.jobs k t.jobs := by rw [hw]; exact Workers.jobs_set hm
      have hsz : s'.workers.sizes = s.workers.sizes := by rw [hw]; exact sizes_set hm
      rcases RState.jobs_outer hy hr with ho | ⟨ho1, ho2⟩
      · have hj' : s'.workers.jobs = s.workers.jobs := by
          rw [hj, ho, ← Workers.jobs_of hm]
          funext i
          unfold setJobs
          split
          · rename_i e
            rw [e]
          · rfl
        refine h.same (by rw [hsq, hq]) ?_ ?_
        · intro j
          unfold Unclaimed
          rw [hF, hj']
        · rw [hF, hj', hsz]
          exact h.fresh
      · have hnone : s.workers.jobs k = none := by rw [Workers.jobs_of hm]; exact ho1
        have hnobody := WInv.nobody hg hnone
        refine h.same (by rw [hsq, hq]) ?_ ?_
        · intro j
          unfold Unclaimed
          rw [hF, hj]
          by_cases hjk : j.inst = k
          · constructor
            · rintro ⟨⟨v, h1⟩, -⟩
              exact absurd (by simpa [Frame.inst] using hjk) (hnobody _ h1)
            · rintro ⟨⟨v, h1⟩, -⟩
              exact absurd (by simpa [Frame.inst] using hjk) (hnobody _ h1)
          · rw [setJobs_ne hjk]
        · rw [hF, hj, hsz]
          intro i ts hi hno
          by_cases hik : i = k
          · subst hik
            rw [setJobs_self, ho2] at hi
            cases hi
            simp [Workers.sizes, hm]
          · rw [setJobs_ne hik] at hi
            exact h.fresh i ts hi hno
    | enter w k =>
      simp only [queueStep] at hq
      split at hq
      case isFalse => cases hq
      rename_i hempty
      simp only [Option.some.injEq] at hq
      simp only [Workers.step] at hplain
      split at hplain
      case isFalse => cases hplain
      rename_i hc
      obtain ⟨-, hjobs, hen⟩ := hc
      simp only [Option.some.injEq] at hplain
      have hno : ∀ v, (v, .scope k) ∉ s.workers.frames := by
        intro v hv
        rw [entered_iff.mpr ⟨v, hv⟩] at hen
        cases hen
      obtain ⟨ts, hts⟩ := Option.isSome_iff_exists.mp hjobs
      have hfr := h.fresh k ts hts hno
      refine h.push (w := w) (j0 := ⟨k, 0, s.workers.sizes k⟩) (by rw [hsq, ← hq, hempty]) ?_ ?_ ?_
      · intro j
        rw [← hplain]
        unfold Unclaimed
        constructor
        · rintro ⟨⟨v, h1⟩, ⟨us, h2, h3⟩, h4⟩
          simp only [List.mem_cons, Prod.mk.injEq, Frame.scope.injEq] at h1
          rcases h1 with ⟨-, h1⟩ | h1
          · right
            change s.workers.jobs j.inst = some us at h2
            rw [h1, hts] at h2
            cases h2
            rw [hfr] at h3
            simp only [List.mem_cons, Task.pending.injEq, List.not_mem_nil, or_false] at h3
            cases j
            simp only [Job.mk.injEq]
            exact ⟨h1, h3⟩
          · left
            exact ⟨⟨v, h1⟩, ⟨us, h2, h3⟩, fun v hv => h4 v (by simp [hv])⟩
        · rintro (⟨⟨v, h1⟩, h2, h3⟩ | rfl)
          · exact ⟨⟨v, by simp [h1]⟩, h2, fun v hv => h3 v (by simpa using hv)⟩
          · refine ⟨⟨w, by simp⟩, ⟨ts, hts, by simp [hfr]⟩, ?_⟩
            intro v hv
            simp only [List.mem_cons, Prod.mk.injEq, reduceCtorEq, and_false, false_or] at hv
            obtain ⟨-, ⟨v', g⟩, hy, hge⟩ := hg.scope _ hv
            simp only [Frame.inst] at hge
            subst hge
            exact hno v' hy
      · rintro ⟨⟨v, h1⟩, -⟩
        exact hno v h1
      · rw [← hplain]
        intro i us hi hni
        exact h.fresh i us hi (fun v hv => hni v (by simp [hv]))
    | take w k lo hi =>
      obtain ⟨t1, t2⟩ := htake hplain
      simp only [queueStep] at hq
      split at hq
      case h_1 => cases hq
      rename_i j rest hqueue
      split at hq
      case isFalse => cases hq
      rename_i hj
      subst hj
      simp only [Option.some.injEq] at hq
      exact h.pull (w := w) (j0 := ⟨k, lo, hi⟩) (rest := rest) (by rw [hsq, ← hq]) (by rw [hqueue]) t1 t2
    | split w k lo hi =>
      simp only [queueStep, Option.some.injEq] at hq
      simp only [Workers.step] at hplain
      have hf := h.work hg hplain rfl (by simp)
      obtain ⟨m, t, htop, hm, hr, hjm, -, hj', hF⟩ := Workers.work_good hplain
      obtain ⟨ts, h1, h2, h3, h4⟩ := RState.jobs_split hr
      rw [h4] at hj'
      obtain ⟨u1, u2⟩ := unclaimed_split hg htop (by omega) hF (hjm.trans h1) hj'
      exact h.push (w := w) (by rw [hsq, ← hq]) u1 u2 hf
    | begin w k lo hi =>
      simp only [queueStep, Option.some.injEq] at hq
      simp only [Workers.step] at hplain
      have hf := h.work hg hplain rfl (by simp)
      obtain ⟨m, t, htop, hm, hr, hjm, -, hj', hF⟩ := Workers.work_good hplain
      obtain ⟨ts, h1, h2, h4⟩ := RState.jobs_begin hr
      rw [h4] at hj'
      exact h.same (by rw [hsq, hq]) (unclaimed_begin hg htop hF (hjm.trans h1) hj') hf
    | call w k r hi =>
      simp only [queueStep, Option.some.injEq] at hq
      simp only [Workers.step] at hplain
      have hf := h.work hg hplain rfl (by simp)
      obtain ⟨m, t, htop, hm, hr, hjm, -, hj', hF⟩ := Workers.work_good hplain
      obtain ⟨ts, h1, h2, -, h4⟩ := RState.jobs_call hr
      rw [h4] at hj'
      refine h.same (by rw [hsq, hq]) (unclaimed_leaf hg htop hF (hjm.trans h1) hj' (by simp) (by simp) ?_) hf
      intro a b
      simp [(hg.tasks k ts (hjm.trans h1)).nd.mem_erase_iff]
    | finish w k r hi =>
      simp only [queueStep, Option.some.injEq] at hq
      simp only [Workers.step] at hplain
      have hf := h.work hg hplain rfl (by simp)
      obtain ⟨m, t, htop, hm, hr, hjm, -, hj', hF⟩ := Workers.work_good hplain
      obtain ⟨ts, h1, h2, h4⟩ := RState.jobs_finish hr
      rw [h4] at hj'
      refine h.same (by rw [hsq, hq]) (unclaimed_leaf hg htop hF (hjm.trans h1) hj' (by simp) (by simp) ?_) hf
      intro a b
      simp [(hg.tasks k ts (hjm.trans h1)).nd.mem_erase_iff]
    | crash w k r hi =>
      simp only [queueStep, Option.some.injEq] at hq
      simp only [Workers.step] at hplain
      have hf := h.work hg hplain rfl (by simp)
      obtain ⟨m, t, htop, hm, hr, hjm, -, hj', hF⟩ := Workers.work_good hplain
      obtain ⟨ts, h1, h2, h4⟩ := RState.jobs_crash hr
      rw [h4] at hj'
      refine h.same (by rw [hsq, hq]) (unclaimed_leaf hg htop hF (hjm.trans h1) hj' (by simp) (by simp) ?_) hf
      intro a b
      simp [(hg.tasks k ts (hjm.trans h1)).nd.mem_erase_iff]
    | done w k hi =>
      simp only [queueStep, Option.some.injEq] at hq
      simp only [Workers.step] at hplain
      have hf := h.work hg hplain rfl (by simp)
      obtain ⟨m, t, htop, hm, hr, hjm, -, hj', hF⟩ := Workers.work_good hplain
      obtain ⟨ts, h1, h2, h4⟩ := RState.jobs_done hr
      rw [h4] at hj'
      refine h.same (by rw [hsq, hq]) (unclaimed_leaf hg htop hF (hjm.trans h1) hj' (by simp) (by simp) ?_) hf
      intro a b
      simp [(hg.tasks k ts (hjm.trans h1)).nd.mem_erase_iff]
    | resume w k mid hi =>
      simp only [queueStep, Option.some.injEq] at hq
      simp only [Workers.step] at hplain
      split at hplain
      case isFalse => cases hplain
      rename_i hc
      simp only [Option.some.injEq] at hplain
      have hF : ∀ v g, (v, g) ∈ s'.workers.frames ↔ (v, g) ∈ s.workers.frames ∧ g ≠ .join k mid hi := by
        intro v g
        rw [← hplain]
        exact hg.stacks.mem_erase (Workers.top_mem hc.1) _
      have hj : s'.workers.jobs = s.workers.jobs := by rw [← hplain]; rfl
      have hsz : s'.workers.sizes = s.workers.sizes := by rw [← hplain]; rfl
      refine h.same (by rw [hsq, hq]) ?_ ?_
      · intro j
        unfold Unclaimed
        simp [hF, hj]
      · intro i ts hi hno
        rw [hj] at hi
        rw [hsz]
        exact h.fresh i ts hi (fun v hv => hno v (by rw [hF]; exact ⟨hv, by simp⟩))
    | exit w k =>
      simp only [queueStep, Option.some.injEq] at hq
      simp only [Workers.step] at hplain
      split at hplain
      case isFalse => cases hplain
      obtain ⟨m, t, htop, hm, hr, hw⟩ := Workers.work_eq hplain
      obtain ⟨hj0, hj1⟩ := RState.jobs_join hr
      have hF : ∀ v g, (v, g) ∈ s'.workers.frames ↔ (v, g) ∈ s.workers.frames ∧ g ≠ .scope k := by
        intro v g
        rw [hw]
        exact hg.stacks.mem_erase (Workers.top_mem htop) _
      have hj : s'.workers.jobs = setJobs s.workers.jobs k none := by
        rw [hw, ← hj1]
        exact Workers.jobs_set hm
      have hsz : s'.workers.sizes = s.workers.sizes := by rw [hw]; exact sizes_set hm
      refine h.same (by rw [hsq, hq]) ?_ ?_
      · intro j
        unfold Unclaimed
        by_cases hjk : j.inst = k
        · constructor
          · rintro ⟨-, ⟨us, h2, -⟩, -⟩
            rw [hj, hjk, setJobs_self] at h2
            cases h2
          · rintro ⟨-, ⟨us, h2, h3⟩, -⟩
            rw [hjk, Workers.jobs_of hm, hj0] at h2
            cases h2
            cases h3
        · simp [hF, hj, setJobs_ne hjk, hjk]
      · intro i ts hi hno
        rw [hj] at hi
        have hik : i ≠ k := by
          rintro rfl
          rw [setJobs_self] at hi
          cases hi
        rw [setJobs_ne hik] at hi
        rw [hsz]
        exact h.fresh i ts hi (fun v hv => hno v (by rw [hF]; exact ⟨hv, by simp [hik]⟩))

theorem Queued.init (n : Nat) : Queued (Deques.init n) where
  iff j := by simp [Deques.init, Unclaimed]
  nodup v := by simp [Deques.init]
  apart v v' j := by simp [Deques.init]
  fresh k ts := by simp [Deques.init, Workers.jobs]

theorem Queued.reach {n : Nat} {ls : List DLabel} {s : Deques} (h : (Deques.init n).run ls = some s) : Queued s := by
  refine Deques.run_induction (Deques.init n) (fun _ s => Queued s) (Queued.init n) ?_ ls s h
  intro ls s x s' h1 h2 hx
  exact h2.step (Deques.good h1).2 hx

/-- C105. Whatever the queues are: what is in them is exactly what has been left for whoever comes first, each range once. -/
theorem C105_queues (n : Nat) (ls : List DLabel) (s : Deques) (h : (Deques.init n).run ls = some s) :
    (∀ j : Job, (∃ v, j ∈ s.queue v) ↔
      s.workers.entered j.inst = true ∧ (∃ ts, s.workers.jobs j.inst = some ts ∧ .pending j.lo j.hi ∈ ts) ∧
        s.workers.taken j.inst j.lo j.hi = false) ∧
    (∀ v, (s.queue v).Nodup) ∧ ∀ v v' j, j ∈ s.queue v → j ∈ s.queue v' → v = v' := by
  have hq := Queued.reach h
  refine ⟨?_, hq.nodup, hq.apart⟩
  intro j
  rw [hq.iff, entered_iff]
  unfold Unclaimed
  have : (∀ w, (w, .hand j.inst j.lo j.hi) ∉ s.workers.frames) ↔ s.workers.taken j.inst j.lo j.hi = false := by
    simp only [Workers.taken, List.any_eq_false, beq_iff_eq]
    constructor
    · rintro h1 ⟨w, g⟩ h2 rfl
      exact h1 w h2
    · intro h1 w hw
      exact h1 _ hw rfl
  rw [this]

/-- C105. As long as some packet has not been handed out completely, some pool thread can make a step that its queues allow, and no
receiver needs to panic for it. -/
theorem C105_progress (n : Nat) (hn : 1 ≤ n) (ls : List DLabel) (s : Deques) (h : (Deques.init n).run ls = some s) (k : Nat)
    (m : RMember) (hm : s.workers.members[k]? = some m) (hk : m.state.jobs.isSome = true) :
    ∃ x : DLabel, x.plain.calm = true ∧ (s.step x).isSome = true := by
  have hq := Queued.reach h
  have hq2 := (C105_queues n ls s h).1
  obtain ⟨x, hc, hx⟩ := C89_progress n hn _ _ (C105_refines n ls s h) k m hm (by
    unfold RState.jobs at hk
    split at hk
    · rename_i hp
      simp [RPhase.outside, hp]
    · cases hk)
  -- a free thread takes the newest job of its own, if there is one
  have hown : ∀ w, s.workers.free w = true → s.queue w ≠ [] → ∃ x : DLabel, x.plain.calm = true ∧ (s.step x).isSome = true := by
    intro w hf hne
    cases hqw : s.queue w with
    | nil => exact absurd hqw hne
    | cons j rest =>
      obtain ⟨h1, ⟨ts, h2, h3⟩, h4⟩ := (hq2 j).mp ⟨w, by simp [hqw]⟩
      refine ⟨.local (.take w j.inst j.lo j.hi), rfl, ?_⟩
      simp [Deques.step, Workers.step, queueStep, hqw, h1, h2, h3, h4, hf]
  have hpass : ∀ y, s.workers.step y = s.workers.step x → y.calm = true → (queueStep s.workers.sizes s.queue y).isSome = true →
      ∃ x : DLabel, x.plain.calm = true ∧ (s.step x).isSome = true := by
    intro y hy hcy hqy
    refine ⟨.local y, hcy, ?_⟩
    obtain ⟨t, ht⟩ := Option.isSome_iff_exists.mp hx
    obtain ⟨q, hq⟩ := Option.isSome_iff_exists.mp hqy
    simp [Deques.step, hy, ht, hq]
  cases x with
  | launch _ _ => cases hc
  | io _ _ => cases hc
  | crash _ _ _ _ => cases hc
  | enter w k =>
    by_cases hqw : s.queue w = []
    · exact hpass _ rfl hc (by simp [queueStep, hqw])
    · refine hown w ?_ hqw
      simp only [Workers.step] at hx
      split at hx
      · rename_i hc
        exact hc.1
      · cases hx
  | take w k lo hi =>
    have hx' := hx
    simp only [Workers.step] at hx
    split at hx
    case h_1 => cases hx
    rename_i ts hts
    split at hx
    case isFalse => cases hx
    rename_i hcond
    obtain ⟨hf, hen, hp, htk⟩ := hcond
    by_cases hqw : s.queue w = []
    · obtain ⟨v, hv⟩ := (hq2 ⟨k, lo, hi⟩).mpr ⟨hen, ⟨ts, hts, hp⟩, htk⟩
      have hne : s.queue v ≠ [] := List.ne_nil_of_mem hv
      have hl := List.getLast?_eq_some_getLast hne
      have hj := List.getLast_mem hne
      generalize hgl : (s.queue v).getLast hne = j at hl hj
      obtain ⟨h1, ⟨us, h2, h3⟩, h4⟩ := (hq2 j).mp ⟨v, hj⟩
      refine ⟨.steal w v j.inst j.lo j.hi, rfl, ?_⟩
      simp [Deques.step, Workers.step, hqw, hl, h1, h2, h3, h4, hf]
    · exact hown w hf hqw
  | split w k lo hi => exact hpass _ rfl hc rfl
  | begin w k lo hi => exact hpass _ rfl hc rfl
  | call w k r hi => exact hpass _ rfl hc rfl
  | finish w k r hi => exact hpass _ rfl hc rfl
  | done w k hi => exact hpass _ rfl hc rfl
  | resume w k mid hi => exact hpass _ rfl hc rfl
  | exit w k => exact hpass _ rfl hc rfl

/-! ## Any number of threads, with memory -/

/-- Receiver `r` of listening thread `k` is at work. -/
def AtWork (s : Workers) (k r : Nat) : Prop := ∃ ts hi, s.jobs k = some ts ∧ .inside r hi ∈ ts

theorem Disjoint.inside_unique {ts : List Task} (h : Disjoint ts) {r hi hi' : Nat} (h1 : .inside r hi ∈ ts)
    (h2 : .inside r hi' ∈ ts) : hi = hi' := by
  have w1 := h.wf _ h1
  have w2 := h.wf _ h2
  simp only [Task.wf] at w1 w2
  rcases Nat.lt_trichotomy hi hi' with hlt | he | hgt
  · have := h.apart _ h1 _ h2 hlt
    simp only [Task.stop, Task.start] at this
    omega
  · exact he
  · have := h.apart _ h2 _ h1 hgt
    simp only [Task.stop, Task.start] at this
    omega

/-- Steps other than these do not change who is at work. -/
theorem atWork_same {s s' : Workers} {k : Nat} {ts ts' : List Task} (hj : s.jobs k = some ts)
    (hj' : s'.jobs = setJobs s.jobs k (some ts')) (h : ∀ r hi, .inside r hi ∈ ts' ↔ .inside r hi ∈ ts) (i r : Nat) :
    AtWork s' i r ↔ AtWork s i r := by
  unfold AtWork
  rw [hj']
  by_cases hi : i = k
  · subst hi
    rw [setJobs_self, hj]
    simp [h]
  · rw [setJobs_ne hi]

theorem atWork_step {s s' : Workers} (hg : s.Good) {x : TLabel} (hx : s.step x = some s') (i j : Nat) :
    match x with
    | .call _ k r _ => AtWork s' i j ↔ AtWork s i j ∨ (i = k ∧ j = r)
    | .finish _ k r _ => (AtWork s' i j ↔ AtWork s i j ∧ ¬ (i = k ∧ j = r))
    | .crash _ k r _ => (AtWork s' i j ↔ AtWork s i j ∧ ¬ (i = k ∧ j = r))
    | _ => AtWork s' i j ↔ AtWork s i j := by
  have hframes : s'.jobs = s.jobs → (AtWork s' i j ↔ AtWork s i j) := by
    intro h
    unfold AtWork
    rw [h]
  have hend : ∀ {k r hi : Nat} {ts : List Task} {new : List Task}, s.jobs k = some ts → .inside r hi ∈ ts →
      s'.jobs = setJobs s.jobs k (some (new ++ ts.erase (.inside r hi))) → (∀ a b, .inside a b ∉ new) →
      (AtWork s' i j ↔ AtWork s i j ∧ ¬ (i = k ∧ j = r)) := by
    intro k r hi ts new h1 h2 h3 h4
    have hd := hg.tasks k ts h1
    unfold AtWork
    rw [h3]
    by_cases hik : i = k
    · subst hik
      rw [setJobs_self, h1]
      simp only [Option.some.injEq, exists_and_left, exists_eq_left', List.mem_append, h4, false_or, hd.nd.mem_erase_iff, ne_eq,
        Task.inside.injEq, true_and]
      constructor
      · rintro ⟨e, h5, h6⟩
        refine ⟨⟨e, h6⟩, ?_⟩
        rintro rfl
        exact h5 ⟨rfl, hd.inside_unique h6 h2⟩
      · rintro ⟨⟨e, h6⟩, h5⟩
        exact ⟨e, fun he => h5 he.1, h6⟩
    · rw [setJobs_ne hik]
      simp [hik]
  cases x with
  | launch l q =>
    simp only [Workers.step, Option.some.injEq] at hx
    apply hframes
    rw [← hx]
    funext k
    unfold Workers.jobs
    by_cases hk : k < s.members.length
    · simp only [List.getElem?_append_left hk]
    · simp only
      rw [List.getElem?_append_right (by omega), List.getElem?_eq_none (l := s.members) (by omega)]
      cases k - s.members.length <;> simp [Listener.rinit, RState.jobs]
  | io k y =>
    simp only [Workers.step] at hx
    split at hx
    case isFalse => cases hx
    rename_i hy
    obtain ⟨m, t, hm, hr, hw⟩ := Workers.act_eq hx
    have hj : s'.jobs = setJobs s.jobs k t.jobs := by rw [hw]; exact Workers.jobs_set hm
    unfold AtWork
    rw [hj]
    by_cases hik : i = k
    · subst hik
      rw [setJobs_self, Workers.jobs_of hm]
      rcases RState.jobs_outer hy hr with ho | ⟨ho1, ho2⟩
      · rw [ho]
      · rw [ho1, ho2]
        simp
    · rw [setJobs_ne hik]
  | enter w k =>
    simp only [Workers.step] at hx
    split at hx
    case isFalse => cases hx
    cases hx
    exact hframes rfl
  | take w k lo hi =>
    simp only [Workers.step] at hx
    split at hx
    case h_1 => cases hx
    split at hx
    case isFalse => cases hx
    cases hx
    exact hframes rfl
  | split w k lo hi =>
    simp only [Workers.step] at hx
    obtain ⟨m, t, htop, hm, hr, hjm, -, hj', hF⟩ := Workers.work_good hx
    obtain ⟨ts, h1, h2, h3, h4⟩ := RState.jobs_split hr
    rw [h4] at hj'
    refine atWork_same (hjm.trans h1) hj' ?_ i j
    intro a b
    simp [(hg.tasks k ts (hjm.trans h1)).nd.mem_erase_iff]
  | begin w k lo hi =>
    simp only [Workers.step] at hx
    obtain ⟨m, t, htop, hm, hr, hjm, -, hj', hF⟩ := Workers.work_good hx
    obtain ⟨ts, h1, h2, h4⟩ := RState.jobs_begin hr
    rw [h4] at hj'
    refine atWork_same (hjm.trans h1) hj' ?_ i j
    intro a b
    simp [(hg.tasks k ts (hjm.trans h1)).nd.mem_erase_iff]
  | done w k hi =>
    simp only [Workers.step] at hx
    obtain ⟨m, t, htop, hm, hr, hjm, -, hj', hF⟩ := Workers.work_good hx
    obtain ⟨ts, h1, h2, h4⟩ := RState.jobs_done hr
    rw [h4] at hj'
    refine atWork_same (hjm.trans h1) hj' ?_ i j
    intro a b
    simp [(hg.tasks k ts (hjm.trans h1)).nd.mem_erase_iff]
  | call w k r hi =>
    simp only [Workers.step] at hx
    obtain ⟨m, t, htop, hm, hr, hjm, -, hj', hF⟩ := Workers.work_good hx
    obtain ⟨ts, h1, h2, -, h4⟩ := RState.jobs_call hr
    rw [h4] at hj'
    have hj := hjm.trans h1
    simp only
    unfold AtWork
    rw [hj']
    by_cases hik : i = k
    · subst hik
      rw [setJobs_self, hj]
      simp only [Option.some.injEq, exists_and_left, exists_eq_left', List.mem_cons, Task.inside.injEq,
        (hg.tasks i ts hj).nd.mem_erase_iff, ne_eq, reduceCtorEq, not_false_eq_true, true_and]
      constructor
      · rintro ⟨e, h5 | h5⟩
        · exact .inr h5.1
        · exact .inl ⟨e, h5⟩
      · rintro (⟨e, h5⟩ | h5)
        · exact ⟨e, .inr h5⟩
        · exact ⟨hi, .inl ⟨h5, rfl⟩⟩
    · rw [setJobs_ne hik]
      simp [hik]
  | finish w k r hi =>
    simp only [Workers.step] at hx
    obtain ⟨m, t, htop, hm, hr, hjm, -, hj', hF⟩ := Workers.work_good hx
    obtain ⟨ts, h1, h2, h4⟩ := RState.jobs_finish hr
    rw [h4] at hj'
    exact hend (new := [.between (r + 1) hi]) (hjm.trans h1) h2 hj' (by simp)
  | crash w k r hi =>
    simp only [Workers.step] at hx
    obtain ⟨m, t, htop, hm, hr, hjm, -, hj', hF⟩ := Workers.work_good hx
    obtain ⟨ts, h1, h2, h4⟩ := RState.jobs_crash hr
    rw [h4] at hj'
    exact hend (new := []) (hjm.trans h1) h2 hj' (by simp)
  | resume w k mid hi =>
    simp only [Workers.step] at hx
    split at hx
    case isFalse => cases hx
    cases hx
    exact hframes rfl
  | exit w k =>
    simp only [Workers.step] at hx
    split at hx
    case isFalse => cases hx
    obtain ⟨m, t, htop, hm, hr, hw⟩ := Workers.work_eq hx
    obtain ⟨hj0, hj1⟩ := RState.jobs_join hr
    have hj : s'.jobs = setJobs s.jobs k none := by
      rw [hw, ← hj1]
      exact Workers.jobs_set hm
    unfold AtWork
    rw [hj]
    by_cases hik : i = k
    · subst hik
      rw [setJobs_self, Workers.jobs_of hm, hj0]
      simp
    · rw [setJobs_ne hik]

/-- C105. With any number of threads, and whatever else changes the memory: those programs are running whose receivers are at work,
for every instance. -/
theorem C105_running {σ : Type} (n : Nat) (program : Nat → Nat → Packet → Address → Act σ) (m0 : σ) (ls : List (MemLabel σ))
    (s : PoolMemory σ) (h : (PoolMemory.mk (Deques.init n) m0 fun _ _ => none).run program ls = some s) (k r : Nat) :
    (s.running k r).isSome = true ↔ ∃ ts hi, s.pool.workers.jobs k = some ts ∧ .inside r hi ∈ ts := by
  have key : ∀ (ls : List (MemLabel σ)) (s0 s : PoolMemory σ), s0.pool.workers.Good →
      (∀ k r, (s0.running k r).isSome = true ↔ AtWork s0.pool.workers k r) → s0.run program ls = some s →
      ∀ k r, (s.running k r).isSome = true ↔ AtWork s.pool.workers k r := by
    intro ls
    induction ls with
    | nil =>
      intro s0 s _ h2 hr
      cases hr
      exact h2
    | cons x ls ih =>
      intro s0 s hg h2 hr
      simp only [PoolMemory.run] at hr
      split at hr
      case h_2 => cases hr
      rename_i s1 hs
      refine ih s1 s ?_ ?_ hr
      · cases x with
        | pool x =>
          simp only [PoolMemory.step] at hs
          split at hs
          case h_2 => cases hs
          rename_i t running ht _
          cases hs
          exact hg.step (Deques.step_plain ht)
        | touch k r =>
          simp only [PoolMemory.step] at hs
          split at hs
          case h_2 => cases hs
          cases hs
          exact hg
        | other f =>
          cases hs
          exact hg
      · intro i j
        cases x with
        | other f =>
          cases hs
          exact h2 i j
        | touch k r =>
          simp only [PoolMemory.step] at hs
          split at hs
          case h_2 => cases hs
          rename_i hk
          cases hs
          rw [← h2 i j]
          simp only
          split
          · rename_i hij
            rw [hij.1, hij.2, hk]
            simp
          · rfl
        | pool x =>
          simp only [PoolMemory.step] at hs
          split at hs
          case h_2 => cases hs
          rename_i t running ht hrun
          cases hs
          have hw := atWork_step hg (Deques.step_plain ht) i j
          simp only
          cases x with
          | steal w v k lo hi =>
            simp only [DLabel.plain] at hw
            simp only [followPool, Option.some.injEq] at hrun
            rw [← hrun, hw, h2]
          | «local» x =>
            simp only [DLabel.plain] at hw
            cases x with
            | call w k r hi =>
              simp only [followPool] at hrun
              split at hrun
              case h_2 => cases hrun
              cases hrun
              simp only at hw
              rw [hw, ← h2]
              by_cases hij : i = k ∧ j = r <;> simp [hij]
            | finish w k r hi =>
              simp only [followPool] at hrun
              split at hrun
              case h_2 => cases hrun
              cases hrun
              simp only at hw
              rw [hw, ← h2]
              by_cases hij : i = k ∧ j = r <;> simp [hij]
            | crash w k r hi =>
              simp only [followPool] at hrun
              split at hrun
              case h_2 => cases hrun
              cases hrun
              simp only at hw
              rw [hw, ← h2]
              by_cases hij : i = k ∧ j = r <;> simp [hij]
            | _ =>
              simp only [followPool, Option.some.injEq] at hrun
              simp only at hw
              rw [← hrun, hw, h2]
  exact key ls _ _ (Deques.good (n := n) (ls := []) rfl).2 (by
    intro k r
    simp [AtWork, Deques.init, Workers.jobs]) h k r

/-! ## One thread and two -/

/-- Reads a counter, and in a second section writes one more than it read. -/
def countOne : Act Nat := .step (fun m => .step (fun _ => .done) fun _ => m + 1) id

/-- An instance with two receivers that never panic. -/
def pairOfReceivers : Listener := ⟨[⟨fun _ _ => false, fun _ _ => []⟩, ⟨fun _ _ => false, fun _ _ => []⟩], 16⟩

/-- One thread hands out a packet each of two instances, to three receivers. -/
def oneThreadRun : List (MemLabel Nat) :=
  [.pool (.local (.io 0 .pollEvent)), .pool (.local (.io 0 .recv)), .pool (.local (.io 1 .pollEvent)),
   .pool (.local (.io 1 .recv)), .pool (.local (.enter 0 0)), .pool (.local (.take 0 0 0 2)), .pool (.local (.split 0 0 0 2)),
   .pool (.local (.begin 0 0 0 1)), .pool (.local (.call 0 0 0 1)), .touch 0 0, .touch 0 0, .pool (.local (.finish 0 0 0 1)),
   .pool (.local (.done 0 0 1)), .pool (.local (.take 0 0 1 2)), .pool (.local (.begin 0 0 1 2)),
   .pool (.local (.call 0 0 1 2)), .touch 0 1, .touch 0 1, .pool (.local (.finish 0 0 1 2)), .pool (.local (.done 0 0 2)),
   .pool (.local (.resume 0 0 1 2)), .pool (.local (.enter 0 1)), .pool (.local (.take 0 1 0 1)),
   .pool (.local (.begin 0 1 0 1)), .pool (.local (.call 0 1 0 1)), .touch 1 0]

/-- A datagram. -/
def plainDatagram : Datagram := ⟨[1, 2, 3], .v4 127 0 0 1 8090⟩

/-- What the example shows. -/
def PoolMemory.view (s : PoolMemory Nat) : Nat × Bool × List (RPhase × Nat × Nat) :=
  (s.memory, (s.running 1 0).isSome, s.pool.workers.members.map fun m =>
    (m.state.phase, returnsOf 0 m.state.trace, returnsOf 1 m.state.trace))

/-- Example: what C105 and C105_memory are about; the last receiver is in the middle of its work. -/
example : ∃ s, (PoolMemory.mk (Deques.init 1) 0 fun _ _ => none).run (fun _ _ _ _ => countOne)
      (.pool (.local (.launch pairOfReceivers [plainDatagram])) :: .pool (.local (.launch oneReceiver [plainDatagram])) ::
        oneThreadRun) = some s ∧
    s.memory = 2 ∧ (s.running 1 0).isSome = true ∧ oneThreadRun.filterMap MemLabel.mark =
      [.began 0 0, .over 0 0, .began 0 1, .over 0 1, .began 1 0] := by
  have h : (((PoolMemory.mk (Deques.init 1) 0 fun _ _ => none).run (fun _ _ _ _ => countOne)
      (.pool (.local (.launch pairOfReceivers [plainDatagram])) :: .pool (.local (.launch oneReceiver [plainDatagram])) ::
        oneThreadRun)).map fun s => (s.view.1, s.view.2.1)) = some (2, true) := by decide +kernel
  obtain ⟨s, hs, hv⟩ := Option.map_eq_some_iff.mp h
  simp only [PoolMemory.view, Prod.mk.injEq] at hv
  exact ⟨s, hs, hv.1, hv.2, rfl⟩

/-- A packet of an instance with two receivers, and two threads. -/
def twoThreadsRun : List (MemLabel Nat) :=
  [.pool (.local (.launch pairOfReceivers [plainDatagram])), .pool (.local (.io 0 .pollEvent)), .pool (.local (.io 0 .recv)),
   .pool (.local (.enter 0 0)), .pool (.local (.take 0 0 0 2)), .pool (.local (.split 0 0 0 2)),
   .pool (.local (.begin 0 0 0 1)), .pool (.steal 1 0 0 1 2), .pool (.local (.begin 1 0 1 2)),
   .pool (.local (.call 0 0 0 1)), .pool (.local (.call 1 0 1 2)), .touch 0 0, .touch 0 1, .touch 0 0, .touch 0 1,
   .pool (.local (.finish 0 0 0 1)), .pool (.local (.finish 1 0 1 2)), .pool (.local (.done 0 0 1)),
   .pool (.local (.done 1 0 2)), .pool (.local (.resume 0 0 1 2)), .pool (.local (.exit 0 0))]

/-- C105. With two threads this is not so: the second one steals, both receivers are at work at once, the marks are not those of any
sequence of rounds, and one of the increments is lost. -/
theorem C105_two : ∃ ls s, (PoolMemory.mk (Deques.init 2) 0 fun _ _ => none).run (fun _ _ _ _ => countOne)
      ls = some s ∧ (∀ f, .other f ∉ ls) ∧ s.memory = 1 ∧
    (s.pool.workers.members.map fun m => (m.state.phase, returnsOf 0 m.state.trace, returnsOf 1 m.state.trace)) =
      [(.polling, 1, 1)] ∧
    ∀ order now, ¬ Sequential s.pool.workers (ls.filterMap MemLabel.mark) order now := by
  have h : ((PoolMemory.mk (Deques.init 2) 0 fun _ _ => none).run (fun _ _ _ _ => countOne) twoThreadsRun).map
      PoolMemory.view = some (1, false, [(.polling, 1, 1)]) := by decide +kernel
  obtain ⟨s, hs, hv⟩ := Option.map_eq_some_iff.mp h
  simp only [PoolMemory.view, Prod.mk.injEq] at hv
  refine ⟨twoThreadsRun, s, hs, by simp [twoThreadsRun], hv.1, hv.2.2, ?_⟩
  · intro order now hs
    have h1 := hs.calls
    have h2 : order.flatMap Round.marks = (order.flatMap Round.calls).flatMap CallOf.marks := by
      rw [List.flatMap_assoc]
      congr 1
      funext r
      exact r.calls_marks.symm
    have h3 : ∃ (cs : List CallOf) (o : Option CallMark),
        order.flatMap Round.marks ++ (now.map Current.marks).getD [] = cs.flatMap CallOf.marks ++ o.toList := by
      cases now with
      | none => exact ⟨order.flatMap Round.calls, none, by simp [h2]⟩
      | some c =>
        exact ⟨order.flatMap Round.calls ++ c.round.calls, c.inside.map fun i => .began c.round.inst i, by
          simp [h2, Current.marks, Round.calls_marks]⟩
    obtain ⟨cs, o, h3⟩ := h3
    rw [h3] at h1
    simp only [twoThreadsRun, List.filterMap, MemLabel.mark, DLabel.mark] at h1
    cases cs with
    | nil => cases o <;> simp at h1
    | cons c cs => simp [CallOf.marks] at h1

/-! ## Cases for the theorems above -/

/-! ## Cases for the theorems above -/

/-- `C105_progress`: an instance in the middle of a datagram on a pool with one thread. -/
example (s : Deques) (h : (Deques.init 1).run [.local (.launch pairOfReceivers [plainDatagram]), .local (.io 0 .pollEvent),
      .local (.io 0 .recv)] = some s) : ∃ x : DLabel, x.plain.calm = true ∧ (s.step x).isSome = true := by
  obtain ⟨m, hm, hj⟩ : ∃ m, s.workers.members[0]? = some m ∧ m.state.jobs.isSome = true := by
    cases h
    exact ⟨_, rfl, rfl⟩
  exact C105_progress 1 (by decide) _ s h 0 m hm hj

/-- `C105_queues`: the same state. -/
example (s : Deques) (h : (Deques.init 1).run [.local (.launch pairOfReceivers [plainDatagram]), .local (.io 0 .pollEvent),
      .local (.io 0 .recv)] = some s) := C105_queues 1 _ s h

/-- `C105_running`: the run of the example for `C105`. -/
example (s : PoolMemory Nat) (h : (PoolMemory.mk (Deques.init 1) 0 fun _ _ => none).run (fun _ _ _ _ => countOne)
      (.pool (.local (.launch pairOfReceivers [plainDatagram])) :: .pool (.local (.launch oneReceiver [plainDatagram])) ::
        oneThreadRun) = some s) := C105_running 1 _ 0 _ s h 1 0

end Ipv8
