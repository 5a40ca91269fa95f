import Verif.Model.Locks
import Verif.Props.Queues
import Verif.Props.LiveWorkers
/-!
# Property C107: receivers that wait
-/

namespace Ipv8
open Spec

namespace Spec

/-- The discipline: locks are taken in increasing order, given back only by who has them, and none is kept; nothing else
is waited for.  `held` are the locks that are held. -/
def Orderly {σ : Type} : List Nat → Deed σ → Prop
  | held, .done => held = []
  | _, .panic => True
  | held, .step next _ => ∀ v, Orderly held (next v)
  | held, .lock m next => (∀ h ∈ held, h < m) ∧ ∀ b, Orderly (m :: held) (next b)
  | held, .unlock m next => m ∈ held ∧ Orderly (held.erase m) next
  | _, .await _ _ => False

/-- Steps of those who have something to do: not of the network, not of the operating system, and nothing new begins. -/
def Inward {σ : Type} : LockLabel σ → Prop
  | .pool (.local (.launch _ _)) => False
  | .pool (.local (.io _ _)) => False
  | .begin _ _ => False
  | _ => True

/-- Nothing that this does can make the condition true. -/
def Keeps {σ : Type} (cond : σ → Bool) : Deed σ → Prop
  | .done => True
  | .panic => True
  | .step next change => (∀ v, cond v = false → cond (change v) = false) ∧ ∀ v, Keeps cond (next v)
  | .lock _ next => ∀ b, Keeps cond (next b)
  | .unlock _ next => Keeps cond next
  | .await _ next => Keeps cond next

/-- The steps of pool, listening threads and network in an execution. -/
def poolSteps {σ : Type} : List (LockLabel σ) → List DLabel
  | [] => []
  | .pool x :: ls => x :: poolSteps ls
  | _ :: ls => poolSteps ls

/-- What the threads of the application begin in an execution. -/
def begunIn {σ : Type} : List (LockLabel σ) → List (Deed σ)
  | [] => []
  | .begin _ d :: ls => d :: begunIn ls
  | _ :: ls => begunIn ls

/-- The listening threads that are started. -/
def startedIn {σ : Type} : List (LockLabel σ) → List Listener
  | [] => []
  | .pool (.local (.launch l _)) :: ls => l :: startedIn ls
  | _ :: ls => startedIn ls

/-- The hypotheses under which waiting is harmless: every call of a receiver and everything the application begins in
this execution keeps the discipline. -/
def Disciplined {σ : Type} (program : Nat → Nat → Packet → Address → Deed σ) (ls : List (LockLabel σ)) : Prop :=
  (∀ k r p a, Orderly [] (program k r p a)) ∧ ∀ d ∈ begunIn ls, Orderly [] d

/-- Receivers that may panic (they do when what they have to do says so). -/
def MayPanic (l : Listener) : Prop := ∀ x ∈ l.receivers, ∀ p a, x.mayPanic p a = true

end Spec

/-! ## Plumbing -/

theorem poolSteps_append {σ : Type} (a b : List (LockLabel σ)) : poolSteps (a ++ b) = poolSteps a ++ poolSteps b := by
  induction a with
  | nil => rfl
  | cons x a ih => cases x <;> simp [poolSteps, ih]

theorem begunIn_append {σ : Type} (a b : List (LockLabel σ)) : begunIn (a ++ b) = begunIn a ++ begunIn b := by
  induction a with
  | nil => rfl
  | cons x a ih => cases x <;> simp [begunIn, ih]

theorem startedIn_append {σ : Type} (a b : List (LockLabel σ)) : startedIn (a ++ b) = startedIn a ++ startedIn b := by
  induction a with
  | nil => rfl
  | cons x a ih =>
    cases x with
    | pool x =>
      cases x with
      | «local» x => cases x <;> simp [startedIn, ih]
      | steal => simp [startedIn, ih]
    | _ => simp [startedIn, ih]

variable {σ : Type} {program : Nat → Nat → Packet → Address → Deed σ}

theorem Locked.run_append (s : Locked σ) (a b : List (LockLabel σ)) :
    s.run program (a ++ b) = (s.run program a).bind (fun s' => s'.run program b) := by
  induction a generalizing s with
  | nil => rfl
  | cons x a ih =>
    simp only [List.cons_append, Locked.run]
    cases s.step program x with
    | none => rfl
    | some s' => exact ih s'

theorem Locked.run_snoc (s s' : Locked σ) (a : List (LockLabel σ)) (x : LockLabel σ) :
    s.run program (a ++ [x]) = some s' ↔ ∃ m, s.run program a = some m ∧ m.step program x = some s' := by
  rw [Locked.run_append]
  cases s.run program a with
  | none => simp
  | some m =>
    simp only [Option.bind_some, Locked.run, Option.some.injEq, exists_eq_left']
    cases m.step program x <;> simp

theorem Locked.run_induction (s0 : Locked σ) (P : List (LockLabel σ) → Locked σ → Prop) (h0 : P [] s0)
    (hs : ∀ ls s x s', s0.run program ls = some s → P ls s → s.step program x = some s' → P (ls ++ [x]) s') :
    ∀ ls s, s0.run program ls = some s → P ls s := by
  intro ls
  induction hn : ls.length generalizing ls with
  | zero =>
    intro s h
    have : ls = [] := List.length_eq_zero_iff.mp hn
    subst this
    simp only [Locked.run, Option.some.injEq] at h
    exact h ▸ h0
  | succ n ih =>
    intro s h
    have hne : ls ≠ [] := by rintro rfl; simp at hn
    have hsplit := (List.dropLast_concat_getLast hne).symm
    rw [hsplit, Locked.run_snoc] at h
    obtain ⟨m, hm, hx⟩ := h
    rw [hsplit]
    exact hs _ m _ s hm (ih ls.dropLast (by simp [hn]) m hm) hx

@[simp] theorem Locked.set_pool (s : Locked σ) (h : Party) (d : Option (Deed σ)) : (s.set h d).pool = s.pool := rfl
@[simp] theorem Locked.unwind_pool (s : Locked σ) (h : Party) : (s.unwind h).pool = s.pool := rfl

theorem Locked.go_pool {s s' : Locked σ} {h : Party} (hg : s.go h = some s') : s'.pool = s.pool := by
  unfold Locked.go at hg
  split at hg
  · cases hg; rfl
  · split at hg
    · cases hg; rfl
    · cases hg
  · split at hg
    · cases hg; rfl
    · cases hg
  · split at hg
    · cases hg; rfl
    · cases hg
  · cases hg

theorem Locked.step_pool {s s' : Locked σ} {x : DLabel} (h : s.step program (.pool x) = some s') :
    ∃ t, s.pool.step x = some s'.pool ∧ s.follow program x = some t ∧ s' = { t with pool := s'.pool } := by
  simp only [Locked.step] at h
  split at h
  · rename_i t u h1 h2
    cases h
    exact ⟨u, h1, h2, rfl⟩
  · cases h

/-- Steps that are not of the pool leave the pool alone. -/
theorem Locked.step_other {s s' : Locked σ} {x : LockLabel σ} (h : s.step program x = some s')
    (hx : ∀ y, x ≠ .pool y) : s'.pool = s.pool := by
  cases x with
  | pool y => exact absurd rfl (hx y)
  | go p => exact Locked.go_pool h
  | begin n d =>
    simp only [Locked.step] at h
    split at h
    · cases h; rfl
    · cases h
  | leave n =>
    simp only [Locked.step] at h
    split at h
    · cases h; rfl
    · cases h; rfl
    · cases h

/-- C107. Locks and waiting add nothing to what the pool can do: its part of an execution is one of C105. -/
theorem C107_refines (n : Nat) (m0 : σ) (ls : List (LockLabel σ)) (s : Locked σ)
    (h : (Locked.init n m0).run program ls = some s) : (Deques.init n).run (poolSteps ls) = some s.pool := by
  refine Locked.run_induction (Locked.init n m0) (fun ls s => (Deques.init n).run (poolSteps ls) = some s.pool) rfl ?_ ls s h
  intro ls s x s' _ ih hx
  rw [poolSteps_append]
  cases x with
  | pool y =>
    obtain ⟨_, h1, _⟩ := Locked.step_pool hx
    have : ∀ (a : List DLabel) (s0 m t : Deques) (y : DLabel), s0.run a = some m → m.step y = some t →
        s0.run (a ++ [y]) = some t := by
      intro a
      induction a with
      | nil =>
        intro s0 m t y h1 h2
        cases h1
        simp [Deques.run, h2]
      | cons z a iha =>
        intro s0 m t y h1 h2
        simp only [Deques.run, List.cons_append] at h1 ⊢
        split at h1
        · exact iha _ _ _ _ h1 h2
        · cases h1
    exact this _ _ _ _ _ ih h1
  | _ =>
    rw [Locked.step_other hx (by intro y e; cases e)]
    simpa [poolSteps] using ih

/-- Nobody is called who is at work. -/
theorem not_atWork_of_call {s s' : Workers} (hg : s.Good) {w k r hi : Nat} (h : s.step (.call w k r hi) = some s') :
    ¬ AtWork s k r := by
  rintro ⟨ts, hi', h1, h2⟩
  obtain ⟨m, t, _, _, h3, h4, _⟩ := Workers.work_good (by simpa only [Workers.step] using h)
  obtain ⟨us, e1, e2, e3, _⟩ := RState.jobs_call h3
  rw [h4, e1] at h1
  cases h1
  have hd := hg.tasks k _ (h4.trans e1)
  have w2 := hd.wf _ h2
  simp only [Task.wf] at w2
  rcases Nat.lt_trichotomy hi hi' with hlt | he | hgt
  · have := hd.apart _ e2 _ h2 hlt
    simp only [Task.stop, Task.start] at this
    omega
  · have := eq_of_nodup_map hd.nodup e2 h2 (by simpa [Task.stop] using he)
    cases this
  · have := hd.apart _ h2 _ e2 hgt
    simp only [Task.stop, Task.start] at this
    omega

theorem Locked.good {n : Nat} {m0 : σ} {ls : List (LockLabel σ)} {s : Locked σ}
    (h : (Locked.init n m0).run program ls = some s) : s.pool.workers.threads = n ∧ s.pool.workers.Good :=
  Deques.good (C107_refines n m0 ls s h)

/-- C107. Those calls are running whose receivers are at work. -/
theorem C107_running (n : Nat) (m0 : σ) (ls : List (LockLabel σ)) (s : Locked σ)
    (h : (Locked.init n m0).run program ls = some s) (k r : Nat) :
    (s.running (.call k r)).isSome = true ↔ ∃ ts hi, s.pool.workers.jobs k = some ts ∧ .inside r hi ∈ ts := by
  change _ ↔ AtWork s.pool.workers k r
  revert k r
  refine Locked.run_induction (Locked.init n m0) (fun _ s => ∀ k r, (s.running (.call k r)).isSome = true ↔ AtWork s.pool.workers k r)
    ?_ ?_ ls s h
  · intro k r
    simp [Locked.init, AtWork, Deques.init, Workers.jobs]
  intro ls s x s' hr ih hx i j
  have hg := (Locked.good hr).2
  cases x with
  | go p =>
    rw [Locked.go_pool hx, ← ih]
    simp only [Locked.step] at hx
    have hset : ∀ (d d' : Deed σ), s.running p = some d →
        ((if Party.call i j = p then some d' else s.running (.call i j)).isSome = true ↔
          (s.running (.call i j)).isSome = true) := by
      intro d d' hd
      split
      · rename_i he; subst he; simp [hd]
      · rfl
    unfold Locked.go at hx
    split at hx
    · rename_i hd; cases hx; exact hset _ _ hd
    · rename_i hd
      split at hx
      · cases hx; exact hset _ _ hd
      · cases hx
    · rename_i hd
      split at hx
      · cases hx; exact hset _ _ hd
      · cases hx
    · rename_i hd
      split at hx
      · cases hx; exact hset _ _ hd
      · cases hx
    · cases hx
  | begin n d =>
    simp only [Locked.step] at hx
    split at hx
    · cases hx; simpa [Locked.set] using ih i j
    · cases hx
  | leave n =>
    simp only [Locked.step] at hx
    split at hx
    · cases hx; simpa [Locked.set] using ih i j
    · cases hx; simpa [Locked.unwind] using ih i j
    · cases hx
  | pool x =>
    obtain ⟨t, h1, h2, h3⟩ := Locked.step_pool hx
    have hw := atWork_step hg (Deques.step_plain h1) i j
    have hrun : s'.running = t.running := by rw [h3]
    rw [hrun]
    cases x with
    | steal w v k lo hi =>
      simp only [DLabel.plain] at hw
      simp only [Locked.follow, Option.some.injEq] at h2
      rw [← h2, hw, ih]
    | «local» x =>
      simp only [DLabel.plain] at hw
      cases x with
      | call w k r hi =>
        simp only [Locked.follow] at h2
        split at h2
        case h_2 => cases h2
        cases h2
        simp only at hw
        rw [hw, ← ih]
        by_cases hij : i = k ∧ j = r <;> simp [Locked.set, hij]
      | finish w k r hi =>
        simp only [Locked.follow] at h2
        split at h2
        case h_2 => cases h2
        cases h2
        simp only at hw
        rw [hw, ← ih]
        by_cases hij : i = k ∧ j = r <;> simp [Locked.set, hij]
      | crash w k r hi =>
        simp only [Locked.follow] at h2
        split at h2
        case h_2 => cases h2
        cases h2
        simp only at hw
        rw [hw, ← ih]
        by_cases hij : i = k ∧ j = r <;> simp [Locked.unwind, hij]
      | _ =>
        simp only [Locked.follow, Option.some.injEq] at h2
        simp only at hw
        rw [← h2, hw, ih]

/-! ## Who has which locks -/

/-- What `h` has still to do goes with the locks it has. -/
private def Fit (held : List Nat) : Option (Deed σ) → Prop
  | some d => Orderly held d
  | none => held = []

private structure LockInv (running : Party → Option (Deed σ)) (owner : Nat → Option Party) : Prop where
  bound : ∃ B, ∀ m h, owner m = some h → m < B
  held : ∀ h, ∃ held : List Nat, held.Nodup ∧ (∀ m, m ∈ held ↔ owner m = some h) ∧ Fit held (running h)

private theorem LockInv.set {running : Party → Option (Deed σ)} {owner : Nat → Option Party} (h : LockInv running owner)
    (p : Party) (d : Option (Deed σ)) (hd : ∀ held : List Nat, Fit held (running p) → Fit held d) :
    LockInv (fun i => if i = p then d else running i) owner where
  bound := h.bound
  held := by
    intro q
    obtain ⟨held, h1, h2, h3⟩ := h.held q
    refine ⟨held, h1, h2, ?_⟩
    split
    · rename_i he; subst he; exact hd held h3
    · exact h3

private theorem LockInv.unwind {running : Party → Option (Deed σ)} {owner : Nat → Option Party}
    (h : LockInv running owner) (p : Party) :
    LockInv (fun i => if i = p then none else running i) (fun m => if owner m = some p then none else owner m) where
  bound := by
    obtain ⟨B, hB⟩ := h.bound
    refine ⟨B, fun m q hq => hB m q ?_⟩
    split at hq
    · cases hq
    · exact hq
  held := by
    intro q
    by_cases he : q = p
    · subst he
      refine ⟨[], List.nodup_nil, ?_, by simp [Fit]⟩
      intro m
      simp only [List.not_mem_nil, false_iff]
      split <;> simp_all
    · obtain ⟨held, h1, h2, h3⟩ := h.held q
      refine ⟨held, h1, ?_, by simpa [he] using h3⟩
      intro m
      rw [h2]
      split
      · rename_i hm; rw [hm]; simp [Ne.symm he]
      · rfl

private theorem LockInv.lock {running : Party → Option (Deed σ)} {owner : Nat → Option Party}
    (h : LockInv running owner) (p : Party) (m : Nat) (next : Bool → Deed σ) (b : Bool)
    (hr : running p = some (.lock m next)) (ho : owner m = none) :
    LockInv (fun i => if i = p then some (next b) else running i) (fun i => if i = m then some p else owner i) where
  bound := by
    obtain ⟨B, hB⟩ := h.bound
    refine ⟨max B (m + 1), fun i q hq => ?_⟩
    split at hq
    · omega
    · have := hB i q hq; omega
  held := by
    intro q
    obtain ⟨held, h1, h2, h3⟩ := h.held q
    have hm : m ∉ held := by rw [h2, ho]; simp
    by_cases he : q = p
    · subst he
      rw [hr] at h3
      refine ⟨m :: held, List.nodup_cons.mpr ⟨hm, h1⟩, ?_, by simpa [Fit] using h3.2 b⟩
      intro i
      rw [List.mem_cons, h2]
      by_cases hi : i = m <;> simp [hi]
    · refine ⟨held, h1, ?_, by simpa [he] using h3⟩
      intro i
      rw [h2]
      by_cases hi : i = m
      · subst hi; simp [ho, Ne.symm he]
      · simp [hi]

private theorem LockInv.unlock {running : Party → Option (Deed σ)} {owner : Nat → Option Party}
    (h : LockInv running owner) (p : Party) (m : Nat) (next : Deed σ) (hr : running p = some (.unlock m next))
    (ho : owner m = some p) :
    LockInv (fun i => if i = p then some next else running i) (fun i => if i = m then none else owner i) where
  bound := by
    obtain ⟨B, hB⟩ := h.bound
    refine ⟨B, fun i q hq => ?_⟩
    split at hq
    · cases hq
    · exact hB i q hq
  held := by
    intro q
    obtain ⟨held, h1, h2, h3⟩ := h.held q
    by_cases he : q = p
    · subst he
      rw [hr] at h3
      refine ⟨held.erase m, h1.erase m, ?_, by simpa [Fit] using h3.2⟩
      intro i
      rw [h1.mem_erase_iff, h2]
      by_cases hi : i = m <;> simp [hi]
    · refine ⟨held, h1, ?_, by simpa [he] using h3⟩
      intro i
      rw [h2]
      by_cases hi : i = m
      · subst hi; simp [ho, Ne.symm he]
      · simp [hi]

private theorem lockInv_go {s s' : Locked σ} {p : Party} (ih : LockInv s.running s.owner) (hx : s.go p = some s') :
    LockInv s'.running s'.owner := by
  unfold Locked.go at hx
  split at hx
  · rename_i next change hd
    cases hx
    refine ih.set p _ ?_
    intro held hf
    rw [hd] at hf
    exact hf _
  · rename_i m next hd
    split at hx
    · rename_i ho
      cases hx
      exact ih.lock p m next _ hd ho
    · cases hx
  · rename_i m next hd
    split at hx
    · rename_i ho
      cases hx
      exact ih.unlock p m next hd ho
    · cases hx
  · rename_i c next hd
    obtain ⟨held, _, _, h3⟩ := ih.held p
    rw [hd] at h3
    exact h3.elim
  · cases hx

private theorem lockInv (n : Nat) (m0 : σ) (ls : List (LockLabel σ)) (s : Locked σ)
    (h : (Locked.init n m0).run program ls = some s) (hd : Disciplined program ls) : LockInv s.running s.owner := by
  obtain ⟨hp, hb⟩ := hd
  revert hb
  refine Locked.run_induction (Locked.init n m0) (fun ls s => (∀ d ∈ begunIn ls, Orderly [] d) → LockInv s.running s.owner)
    ?_ ?_ ls s h
  · intro _
    exact ⟨⟨0, fun _ _ h => by cases h⟩, fun _ => ⟨[], List.nodup_nil, by simp [Locked.init], rfl⟩⟩
  intro ls s x s' hr ih hx hb
  rw [begunIn_append] at hb
  replace ih := ih (fun d hd => hb d (List.mem_append_left _ hd))
  cases x with
  | go p => exact lockInv_go ih hx
  | begin i d =>
    simp only [Locked.step] at hx
    split at hx
    · rename_i hn
      cases hx
      refine ih.set _ _ ?_
      intro held hf
      rw [hn] at hf
      change held = [] at hf
      subst hf
      exact hb d (by simp [begunIn])
    · cases hx
  | leave i =>
    simp only [Locked.step] at hx
    split at hx
    · rename_i hn
      cases hx
      refine ih.set _ _ ?_
      intro held hf
      rw [hn] at hf
      exact hf
    · cases hx
      exact ih.unwind _
    · cases hx
  | pool x =>
    obtain ⟨t, h1, h2, h3⟩ := Locked.step_pool hx
    have hrun : s'.running = t.running := by rw [h3]
    have hown : s'.owner = t.owner := by rw [h3]
    rw [hrun, hown]
    cases x with
    | steal w v k lo hi =>
      simp only [Locked.follow, Option.some.injEq] at h2
      exact h2 ▸ ih
    | «local» x =>
      cases x with
      | call w k r hi =>
        simp only [Locked.follow] at h2
        split at h2
        case h_2 => cases h2
        cases h2
        refine ih.set _ _ ?_
        intro held hf
        have hnone : s.running (.call k r) = none := by
          cases hc : s.running (.call k r) with
          | none => rfl
          | some d =>
            refine absurd ?_ (not_atWork_of_call (Locked.good hr).2 (Deques.step_plain h1))
            exact (C107_running n m0 ls s hr k r).mp (by rw [hc]; rfl)
        rw [hnone] at hf
        change held = [] at hf
        subst hf
        exact hp _ _ _ _
      | finish w k r hi =>
        simp only [Locked.follow] at h2
        split at h2
        case h_2 => cases h2
        rename_i hn
        cases h2
        refine ih.set _ _ ?_
        intro held hf
        rw [hn] at hf
        exact hf
      | crash w k r hi =>
        simp only [Locked.follow] at h2
        split at h2
        case h_2 => cases h2
        cases h2
        exact ih.unwind _
      | _ =>
        simp only [Locked.follow, Option.some.injEq] at h2
        exact h2 ▸ ih

/-! ## The ranges -/

private def RoomFor (m : RMember) : Prop := ∀ ts, m.state.jobs = some ts → ∀ t ∈ ts, t.stop ≤ m.listener.receivers.length

private theorem roomFor_step {l : Listener} {s s' : RState} {y : RLabel} (h : l.rstep s y = some s') (hr : RoomFor ⟨l, s⟩) :
    RoomFor ⟨l, s'⟩ := by
  have hout : y.outer = true → RoomFor ⟨l, s'⟩ := by
    intro hy ts hts t ht
    rcases RState.jobs_outer hy h with he | ⟨_, he⟩
    · exact hr ts (he ▸ hts) t ht
    · rw [show (RMember.mk l s').state.jobs = s'.jobs from rfl, he] at hts
      cases hts
      simp only [List.mem_singleton] at ht
      subst ht
      exact Nat.le_refl _
  have hgen : ∀ ts new t0, s.jobs = some ts → t0 ∈ ts → s'.jobs = some (new ++ ts.erase t0) →
      (∀ t ∈ new, t.stop ≤ t0.stop) → RoomFor ⟨l, s'⟩ := by
    intro ts new t0 h1 h2 h3 h4 us hus t ht
    rw [show (RMember.mk l s').state.jobs = s'.jobs from rfl, h3] at hus
    cases hus
    rcases List.mem_append.mp ht with ht | ht
    · exact Nat.le_trans (h4 t ht) (hr ts h1 t0 h2)
    · exact hr ts h1 t (List.mem_of_mem_erase ht)
  cases y
  case split lo hi =>
    obtain ⟨ts, h1, h2, h3, h4⟩ := RState.jobs_split h
    refine hgen ts [_, _] _ h1 h2 h4 ?_
    simp [Task.stop]; omega
  case begin lo hi =>
    obtain ⟨ts, h1, h2, h4⟩ := RState.jobs_begin h
    exact hgen ts [_] _ h1 h2 h4 (by simp [Task.stop])
  case call r hi =>
    obtain ⟨ts, h1, h2, _, h4⟩ := RState.jobs_call h
    exact hgen ts [_] _ h1 h2 h4 (by simp [Task.stop])
  case finish r hi =>
    obtain ⟨ts, h1, h2, h4⟩ := RState.jobs_finish h
    exact hgen ts [_] _ h1 h2 h4 (by simp [Task.stop])
  case crash r hi =>
    obtain ⟨ts, h1, h2, h4⟩ := RState.jobs_crash h
    exact hgen ts [] _ h1 h2 h4 (by simp)
  case done hi =>
    obtain ⟨ts, h1, h2, h4⟩ := RState.jobs_done h
    exact hgen ts [] _ h1 h2 h4 (by simp)
  case join =>
    obtain ⟨h1, h2⟩ := RState.jobs_join h
    intro ts hts
    rw [show (RMember.mk l s').state.jobs = s'.jobs from rfl, h2] at hts
    cases hts
  all_goals exact hout rfl

private theorem members_inv (n : Nat) (m0 : σ) (ls : List (LockLabel σ)) (s : Locked σ)
    (h : (Locked.init n m0).run program ls = some s) (hl : ∀ l ∈ startedIn ls, MayPanic l) :
    ∀ m ∈ s.pool.workers.members, RoomFor m ∧ MayPanic m.listener := by
  revert hl
  refine Locked.run_induction (Locked.init n m0) (fun ls s => (∀ l ∈ startedIn ls, MayPanic l) →
    ∀ m ∈ s.pool.workers.members, RoomFor m ∧ MayPanic m.listener) ?_ ?_ ls s h
  · intro _ m hm
    simp [Locked.init, Deques.init] at hm
  intro ls s x s' _ ih hx hl
  rw [startedIn_append] at hl
  replace ih := ih (fun d hd => hl d (List.mem_append_left _ hd))
  cases x with
  | pool x =>
    obtain ⟨t, h1, _⟩ := Locked.step_pool hx
    obtain ⟨_, ⟨l, q, h2, e⟩ | ⟨_, e, _⟩ | ⟨_, k, y, m, t, e1, e2, e, _⟩⟩ := Workers.step_members (Deques.step_plain h1)
    · intro m hm
      rw [e] at hm
      rcases List.mem_append.mp hm with hm | hm
      · exact ih m hm
      · simp only [List.mem_singleton] at hm
        subst hm
        refine ⟨?_, ?_⟩
        · intro ts hts
          simp [RState.jobs, Listener.rinit] at hts
        · refine hl l (List.mem_append_right _ ?_)
          cases x with
          | steal => simp [DLabel.plain] at h2
          | «local» x =>
            simp only [DLabel.plain] at h2
            subst h2
            simp [startedIn]
    · rw [e]; exact ih
    · intro m' hm'
      rw [e] at hm'
      rcases List.mem_or_eq_of_mem_set hm' with hm' | rfl
      · exact ih m' hm'
      · have := ih m (List.mem_of_getElem? e1)
        exact ⟨roomFor_step e2 this.1, this.2⟩
  | _ =>
    rw [Locked.step_other hx (by intro y e; cases e)]
    exact ih

/-! ## No deadlock -/

/-- A call whose program has ended can end. -/
private theorem end_call {n : Nat} {m0 : σ} {ls : List (LockLabel σ)} {s : Locked σ}
    (h : (Locked.init n m0).run program ls = some s) (hl : ∀ l ∈ startedIn ls, MayPanic l) (k r : Nat)
    (d : Deed σ) (hd : s.running (.call k r) = some d) (he : d = .done ∨ d = .panic) :
    ∃ x, Inward x ∧ (s.step program x).isSome = true := by
  obtain ⟨ts, hi, h1, h2⟩ := (C107_running n m0 ls s h k r).mp (by rw [hd]; rfl)
  have hg := (Locked.good h).2
  obtain ⟨w, hw⟩ := hg.run k ts h1 _ h2 rfl
  have htop := Workers.top_of_mem hg.stacks hw rfl
  obtain ⟨m, e, p, a, pan, h3, h4⟩ := Workers.jobs_some h1
  rcases he with rfl | rfl
  · refine ⟨.pool (.local (.finish w k r hi)), trivial, ?_⟩
    have hs : (s.pool.workers.step (.finish w k r hi)).isSome = true :=
      Workers.work_isSome htop h3 (by simp [Listener.rstep, h4, h2])
    obtain ⟨t, ht⟩ := Option.isSome_iff_exists.mp hs
    simp [Locked.step, Deques.step, ht, queueStep, Locked.follow, hd]
  · refine ⟨.pool (.local (.crash w k r hi)), trivial, ?_⟩
    obtain ⟨hroom, hpan⟩ := members_inv n m0 ls s h hl m (List.mem_of_getElem? h3)
    have hlt : r < m.listener.receivers.length := by
      have := hroom ts (by rw [← Workers.jobs_of h3]; exact h1) _ h2
      have hw := (hg.tasks k ts h1).wf _ h2
      simp only [Task.wf, Task.stop] at this hw
      omega
    have hmp : m.listener.mayPanic r p a = true := by
      simp only [Listener.mayPanic, List.getElem?_eq_getElem hlt]
      exact hpan _ (List.getElem_mem hlt) p a
    have hs : (s.pool.workers.step (.crash w k r hi)).isSome = true :=
      Workers.work_isSome htop h3 (by simp [Listener.rstep, h4, h2, hmp])
    obtain ⟨t, ht⟩ := Option.isSome_iff_exists.mp hs
    simp [Locked.step, Deques.step, ht, queueStep, Locked.follow, hd]

/-- Somebody who has something to do can do something, or somebody with a greater lock can. -/
private theorem somebody {n : Nat} {m0 : σ} {ls : List (LockLabel σ)} {s : Locked σ}
    (h : (Locked.init n m0).run program ls = some s) (hd : Disciplined program ls)
    (hl : ∀ l ∈ startedIn ls, MayPanic l) (p : Party) (hp : (s.running p).isSome = true) :
    ∃ x, Inward x ∧ (s.step program x).isSome = true := by
  have hinv := lockInv n m0 ls s h hd
  obtain ⟨B, hB⟩ := hinv.bound
  have key : ∀ (gap : Nat) (p : Party), (s.running p).isSome = true →
      (∀ m next, s.running p = some (.lock m next) → s.owner m ≠ none → B ≤ m + gap) →
      ∃ x, Inward x ∧ (s.step program x).isSome = true := by
    intro gap
    induction gap with
    | zero =>
      intro p hp hlow
      obtain ⟨d, hd⟩ := Option.isSome_iff_exists.mp hp
      obtain ⟨held, _, h2, h3⟩ := hinv.held p
      rw [hd] at h3
      cases d with
      | done =>
        cases p with
        | call k r => exact end_call h hl k r _ hd (Or.inl rfl)
        | outside i => exact ⟨.leave i, trivial, by simp [Locked.step, hd]⟩
      | panic =>
        cases p with
        | call k r => exact end_call h hl k r _ hd (Or.inr rfl)
        | outside i => exact ⟨.leave i, trivial, by simp [Locked.step, hd]⟩
      | step next change => exact ⟨.go p, trivial, by simp [Locked.step, Locked.go, hd]⟩
      | lock m next =>
        by_cases ho : s.owner m = none
        · exact ⟨.go p, trivial, by simp [Locked.step, Locked.go, hd, ho]⟩
        · have := hlow m next hd ho
          obtain ⟨q, hq⟩ := Option.ne_none_iff_exists'.mp ho
          have := hB m q hq
          omega
      | unlock m next =>
        have ho := (h2 m).mp h3.1
        exact ⟨.go p, trivial, by simp [Locked.step, Locked.go, hd, ho]⟩
      | await c next => exact h3.elim
    | succ gap ih =>
      intro p hp hlow
      obtain ⟨d, hd⟩ := Option.isSome_iff_exists.mp hp
      obtain ⟨held, _, h2, h3⟩ := hinv.held p
      rw [hd] at h3
      cases d with
      | lock m next =>
        by_cases ho : s.owner m = none
        · exact ⟨.go p, trivial, by simp [Locked.step, Locked.go, hd, ho]⟩
        · have hb := hlow m next hd ho
          obtain ⟨q, hq⟩ := Option.ne_none_iff_exists'.mp ho
          obtain ⟨held', _, h2', h3'⟩ := hinv.held q
          have hm : m ∈ held' := (h2' m).mpr hq
          refine ih q ?_ ?_
          · cases hq' : s.running q with
            | none =>
              rw [hq'] at h3'
              change held' = [] at h3'
              rw [h3'] at hm
              cases hm
            | some _ => rfl
          · intro m' next' hr' _
            rw [hr'] at h3'
            have := h3'.1 m hm
            omega
      | _ => exact ih p hp (fun m next e => by rw [hd] at e; cases e)
  exact key B p hp (fun m _ _ ho => by omega)

/-- C107. Receivers and application threads that take locks in a common order, give them back and wait for nothing else, never
stop each other: as long as a call is running, an application thread has something to do, or a packet is being handed over,
somebody can make a step, without anything new from outside, however few threads the pool has, and also after panics. -/
theorem C107 (n : Nat) (hn : 1 ≤ n) (m0 : σ) (ls : List (LockLabel σ)) (s : Locked σ)
    (h : (Locked.init n m0).run program ls = some s) (hd : Disciplined program ls)
    (hl : ∀ l ∈ startedIn ls, MayPanic l)
    (hb : (∃ p, (s.running p).isSome = true) ∨
      ∃ (k : Nat) (m : RMember), s.pool.workers.members[k]? = some m ∧ m.state.jobs.isSome = true) :
    ∃ x, Inward x ∧ (s.step program x).isSome = true := by
  by_cases hp : ∃ p, (s.running p).isSome = true
  · obtain ⟨p, hp⟩ := hp
    exact somebody h hd hl p hp
  · obtain ⟨k, m, hm, hk⟩ := hb.resolve_left hp
    obtain ⟨x, hc, hx⟩ := C105_progress n hn _ _ (C107_refines n m0 ls s h) k m hm hk
    obtain ⟨t, ht⟩ := Option.isSome_iff_exists.mp hx
    have hplain := Deques.step_plain ht
    refine ⟨.pool x, ?_, ?_⟩
    · cases x with
      | steal => trivial
      | «local» x => cases x <;> first | trivial | cases hc
    · cases x with
      | steal => simp [Locked.step, ht, Locked.follow]
      | «local» x =>
        cases x with
        | call w k r hi =>
          obtain ⟨m', t', _, _, h3, h4, _⟩ := Workers.work_good (by simpa only [Workers.step, DLabel.plain] using hplain)
          obtain ⟨us, e1, _, _⟩ := RState.jobs_call h3
          obtain ⟨m'', e, p, a, pan, g1, g2⟩ := Workers.jobs_some (h4.trans e1)
          simp [Locked.step, ht, Locked.follow, Workers.packet, g1, g2]
        | finish w k r hi =>
          exfalso
          obtain ⟨m', t', _, _, h3, h4, _⟩ := Workers.work_good (by simpa only [Workers.step, DLabel.plain] using hplain)
          obtain ⟨us, e1, e2, _⟩ := RState.jobs_finish h3
          exact hp ⟨.call k r, (C107_running n m0 ls s h k r).mpr ⟨us, hi, h4.trans e1, e2⟩⟩
        | crash => cases hc
        | _ => simp [Locked.step, ht, Locked.follow]

/-! ## Everything comes to an end -/

/-- One step less to do. -/
private inductive Less : Option (Deed σ) → Option (Deed σ) → Prop
  | gone (d) : Less none (some d)
  | step (next change v) : Less (some (next v)) (some (.step next change))
  | lock (m next b) : Less (some (next b)) (some (.lock m next))
  | unlock (m next) : Less (some next) (some (.unlock m next))
  | await (c next) : Less (some next) (some (.await c next))

private theorem less_acc (d : Option (Deed σ)) : Acc (Less (σ := σ)) d := by
  have hnone : Acc (Less (σ := σ)) none := ⟨_, fun _ h => by cases h⟩
  cases d with
  | none => exact hnone
  | some d =>
    induction d with
    | done => exact ⟨_, fun _ h => by cases h; exact hnone⟩
    | panic => exact ⟨_, fun _ h => by cases h; exact hnone⟩
    | step next change ih =>
      refine ⟨_, fun _ h => ?_⟩
      cases h
      · exact hnone
      · exact ih _
    | lock m next ih =>
      refine ⟨_, fun _ h => ?_⟩
      cases h
      · exact hnone
      · exact ih _
    | unlock m next ih =>
      refine ⟨_, fun _ h => ?_⟩
      cases h
      · exact hnone
      · exact ih
    | await c next ih =>
      refine ⟨_, fun _ h => ?_⟩
      cases h
      · exact hnone
      · exact ih

/-- One of them has less to do. -/
private inductive Shrink : List (Option (Deed σ)) → List (Option (Deed σ)) → Prop
  | head {x y : Option (Deed σ)} (l) : Less y x → Shrink (y :: l) (x :: l)
  | tail (x) {l l' : List (Option (Deed σ))} : Shrink l' l → Shrink (x :: l') (x :: l)

private theorem shrink_acc (l : List (Option (Deed σ))) : Acc (Shrink (σ := σ)) l := by
  induction l with
  | nil => exact ⟨_, fun _ h => by cases h⟩
  | cons x l ih =>
    have hx := less_acc x
    induction hx generalizing l with
    | intro x _ ihx =>
      induction ih with
      | intro l hl ihl =>
        refine ⟨_, fun _ h => ?_⟩
        cases h with
        | head _ h => exact ihx _ h l ⟨_, hl⟩
        | tail _ h => exact ihl _ h

private theorem shrink_map (L : List Party) (hL : L.Nodup) (f : Party → Option (Deed σ)) (p : Party) (hp : p ∈ L)
    (d : Option (Deed σ)) (hd : Less d (f p)) : Shrink (L.map fun i => if i = p then d else f i) (L.map f) := by
  induction L with
  | nil => cases hp
  | cons q L ih =>
    obtain ⟨hq, hL⟩ := List.nodup_cons.mp hL
    simp only [List.map_cons]
    by_cases he : q = p
    · subst he
      have : (L.map fun i => if i = q then d else f i) = L.map f := by
        refine List.map_congr_left fun i hi => ?_
        have : i ≠ q := fun e => hq (e ▸ hi)
        simp [this]
      rw [this, if_pos rfl]
      exact .head _ hd
    · rw [if_neg he]
      refine .tail _ (ih hL ?_)
      rcases List.mem_cons.mp hp with e | h
      · exact absurd e.symm he
      · exact h

/-- A step that is not of the pool is one of somebody who has less to do afterwards. -/
private theorem Locked.step_less {s s' : Locked σ} {x : LockLabel σ} (hi : Inward x) (hx : ∀ y, x ≠ .pool y)
    (h : s.step program x = some s') :
    ∃ p d, (s.running p).isSome = true ∧ Less d (s.running p) ∧ s'.running = fun i => if i = p then d else s.running i := by
  cases x with
  | pool y => exact absurd rfl (hx y)
  | begin => exact hi.elim
  | leave n =>
    simp only [Locked.step] at h
    split at h
    · rename_i hn; cases h; exact ⟨.outside n, none, by simp [hn], by rw [hn]; exact .gone _, rfl⟩
    · rename_i hn; cases h; exact ⟨.outside n, none, by simp [hn], by rw [hn]; exact .gone _, rfl⟩
    · cases h
  | go p =>
    simp only [Locked.step, Locked.go] at h
    split at h
    · rename_i hn; cases h; exact ⟨p, _, by simp [hn], by rw [hn]; exact .step _ _ _, rfl⟩
    · rename_i hn
      split at h
      · cases h; exact ⟨p, _, by simp [hn], by rw [hn]; exact .lock _ _ _, rfl⟩
      · cases h
    · rename_i hn
      split at h
      · cases h; exact ⟨p, _, by simp [hn], by rw [hn]; exact .unlock _ _, rfl⟩
      · cases h
    · rename_i hn
      split at h
      · cases h; exact ⟨p, _, by simp [hn], by rw [hn]; exact .await _ _, rfl⟩
      · cases h
    · cases h

/-- Only finitely many have something to do. -/
private theorem finite_running (n : Nat) (m0 : σ) (ls : List (LockLabel σ)) (s : Locked σ)
    (h : (Locked.init n m0).run program ls = some s) :
    ∃ L : List Party, L.Nodup ∧ ∀ p, (s.running p).isSome = true → p ∈ L := by
  refine Locked.run_induction (Locked.init n m0)
    (fun _ s => ∃ L : List Party, L.Nodup ∧ ∀ p, (s.running p).isSome = true → p ∈ L) ⟨[], List.nodup_nil, ?_⟩ ?_ ls s h
  · intro p hp; cases hp
  intro ls s x s' _ ⟨L, h1, h2⟩ hx
  have hset : ∀ (p : Party) (d : Option (Deed σ)), s'.running = (fun i => if i = p then d else s.running i) →
      ∃ L : List Party, L.Nodup ∧ ∀ p, (s'.running p).isSome = true → p ∈ L := by
    intro p d e
    rw [e]
    by_cases hp : p ∈ L
    · refine ⟨L, h1, fun q hq => ?_⟩
      dsimp only at hq
      split at hq
      · rename_i he; exact he ▸ hp
      · exact h2 q hq
    · refine ⟨p :: L, List.nodup_cons.mpr ⟨hp, h1⟩, fun q hq => ?_⟩
      dsimp only at hq
      split at hq
      · rename_i he; exact he ▸ List.mem_cons_self
      · exact List.mem_cons_of_mem _ (h2 q hq)
  cases x with
  | begin n d =>
    simp only [Locked.step] at hx
    split at hx
    · cases hx; exact hset _ _ rfl
    · cases hx
  | go p =>
    obtain ⟨p, d, _, _, e⟩ := Locked.step_less (x := .go p) trivial (by intro y e; cases e) hx
    exact hset _ _ e
  | leave p =>
    obtain ⟨p, d, _, _, e⟩ := Locked.step_less (x := .leave p) trivial (by intro y e; cases e) hx
    exact hset _ _ e
  | pool x =>
    obtain ⟨t, _, hf, h3⟩ := Locked.step_pool hx
    have hrun : s'.running = t.running := by rw [h3]
    cases x with
    | steal w v k lo hi =>
      simp only [Locked.follow, Option.some.injEq] at hf
      rw [hrun, ← hf]
      exact ⟨L, h1, h2⟩
    | «local» x =>
      cases x with
      | call w k r hi =>
        simp only [Locked.follow] at hf
        split at hf
        case h_2 => cases hf
        cases hf
        exact hset _ _ hrun
      | finish w k r hi =>
        simp only [Locked.follow] at hf
        split at hf
        case h_2 => cases hf
        cases hf
        exact hset _ _ hrun
      | crash w k r hi =>
        simp only [Locked.follow] at hf
        split at hf
        case h_2 => cases hf
        cases hf
        exact hset _ _ hrun
      | _ =>
        simp only [Locked.follow, Option.some.injEq] at hf
        rw [hrun, ← hf]
        exact ⟨L, h1, h2⟩

/-- How many steps of the pool there can be for what has been taken from the sockets (C89). -/
private def Locked.budget (s : Locked σ) : Nat :=
  (s.pool.workers.members.map fun m => (takenIn m.state.trace).length * (15 * m.listener.receivers.length + 11)).sum

private def Locked.spent (ls : List (LockLabel σ)) : Nat := ((poolSteps ls).map DLabel.plain).countP TLabel.ofPool

private theorem sum_set_same {α : Type} (f : α → Nat) (l : List α) (k : Nat) (a b : α) (h : l[k]? = some a) (he : f b = f a) :
    ((l.set k b).map f).sum = (l.map f).sum := by
  induction l generalizing k with
  | nil => simp at h
  | cons x l ih =>
    cases k with
    | zero => simp at h; subst h; simp [he]
    | succ k =>
      simp only [List.getElem?_cons_succ] at h
      simp only [List.set_cons_succ, List.map_cons, List.sum_cons, ih k h]

private theorem budget_step {s s' : Locked σ} {x : LockLabel σ} (hi : Inward x) (h : s.step program x = some s') :
    s'.budget = s.budget := by
  by_cases hx : ∀ y, x ≠ .pool y
  · simp only [Locked.budget, Locked.step_other h hx]
  · have : ∃ y, x = .pool y := Classical.byContradiction fun hn => hx fun y e => hn ⟨y, e⟩
    obtain ⟨y, rfl⟩ := this
    obtain ⟨t, h1, _, _⟩ := Locked.step_pool h
    have hp := Deques.step_plain h1
    have hout : (∀ l q, y.plain ≠ .launch l q) ∧ ∀ k z, y.plain ≠ .io k z := by
      cases y with
      | steal => exact ⟨(fun _ _ e => by cases e), (fun _ _ e => by cases e)⟩
      | «local» y => cases y <;> first | exact hi.elim | exact ⟨(fun _ _ e => by cases e), (fun _ _ e => by cases e)⟩
    obtain ⟨_, ⟨l, q, e, _⟩ | ⟨_, e, _⟩ | ⟨_, k, z, m, t, e1, e2, e, hj, _⟩⟩ := Workers.step_members hp
    · exact absurd e (hout.1 l q)
    · simp only [Locked.budget, e]
    · simp only [Locked.budget, e]
      refine sum_set_same _ _ _ _ _ e1 ?_
      rcases rstep_taken e2 with ht | ⟨ht, _⟩
      · simp only [ht]
      · exfalso
        subst ht
        cases hy : y.plain with
        | io j z => exact hout.2 j z hy
        | launch l q => exact hout.1 l q hy
        | _ => rw [hy] at hj; simp only [jobsAt] at hj; (try split at hj) <;> simp at hj

private theorem spent_le {n : Nat} {m0 : σ} {ls : List (LockLabel σ)} {s : Locked σ}
    (h : (Locked.init n m0).run program ls = some s) : Locked.spent ls ≤ s.budget :=
  C89_ends n _ _ (C105_refines n _ _ (C107_refines n m0 ls s h))

/-- If every way on is finite after a step of the pool, every way on is finite. -/
private theorem inner {n : Nat} {m0 : σ} (N : Nat)
    (ih : ∀ (ls : List (LockLabel σ)) (s : Locked σ), (Locked.init n m0).run program ls = some s →
      s.budget + 1 ≤ Locked.spent ls + N → Acc (fun s' s : Locked σ => ∃ x, Inward x ∧ s.step program x = some s') s)
    (ls : List (LockLabel σ)) (s : Locked σ) (h : (Locked.init n m0).run program ls = some s)
    (hb : s.budget ≤ Locked.spent ls + N) :
    Acc (fun s' s : Locked σ => ∃ x, Inward x ∧ s.step program x = some s') s := by
  obtain ⟨L, h1, h2⟩ := finite_running n m0 ls s h
  have hacc := shrink_acc (L.map s.running)
  generalize hl : L.map s.running = l at hacc
  induction hacc generalizing ls s with
  | intro l _ ihl =>
    refine ⟨_, ?_⟩
    rintro s' ⟨x, hi, hx⟩
    have hrun : (Locked.init n m0).run program (ls ++ [x]) = some s' := (Locked.run_snoc _ _ _ _).mpr ⟨s, h, hx⟩
    have hbud := budget_step hi hx
    by_cases hp : ∀ y, x ≠ .pool y
    · obtain ⟨p, d, g1, g2, g3⟩ := Locked.step_less hi hp hx
      refine ihl (L.map s'.running) ?_ (ls ++ [x]) s' hrun ?_ ?_ rfl
      · rw [← hl, g3]
        exact shrink_map L h1 s.running p (h2 p g1) d g2
      · have : Locked.spent (ls ++ [x]) = Locked.spent ls := by
          cases x with
          | pool y => exact absurd rfl (hp y)
          | _ => simp [Locked.spent, poolSteps_append, poolSteps]
        omega
      · intro q hq
        rw [g3] at hq
        dsimp only at hq
        split at hq
        · rename_i he; exact he ▸ h2 p g1
        · exact h2 q hq
    · have : ∃ y, x = .pool y := Classical.byContradiction fun hn => hp fun y e => hn ⟨y, e⟩
      obtain ⟨y, rfl⟩ := this
      refine ih (ls ++ [.pool y]) s' hrun ?_
      have : Locked.spent (ls ++ [.pool y]) = Locked.spent ls + 1 := by
        simp only [Locked.spent, poolSteps_append, poolSteps, List.map_append, List.countP_append, List.map_cons,
          List.map_nil, List.countP_cons, List.countP_nil]
        have : y.plain.ofPool = true := by
          cases y with
          | steal => rfl
          | «local» y => cases y <;> first | rfl | exact hi.elim
        simp [this]
      omega

/-- No way on is endless. -/
private theorem C107_ends_acc (n : Nat) (m0 : σ) (ls : List (LockLabel σ)) (s : Locked σ)
    (h : (Locked.init n m0).run program ls = some s) :
    Acc (fun s' s : Locked σ => ∃ x, Inward x ∧ s.step program x = some s') s := by
  have key : ∀ (N : Nat) (ls : List (LockLabel σ)) (s : Locked σ), (Locked.init n m0).run program ls = some s →
      s.budget ≤ Locked.spent ls + N → Acc (fun s' s : Locked σ => ∃ x, Inward x ∧ s.step program x = some s') s := by
    intro N
    induction N with
    | zero =>
      intro ls s h hb
      exact inner 0 (fun ls s h hb => by
        have := spent_le h
        omega) ls s h hb
    | succ N ih => exact inner (N + 1) (fun ls s h hb => ih ls s h (by omega))
  exact key s.budget ls s h (by omega)

/-- C107. Whatever the receivers and the application do and wait for: without anything new from outside, only finitely
many steps are possible. -/
theorem C107_ends (n : Nat) (m0 : σ) (ls : List (LockLabel σ)) (s : Locked σ)
    (h : (Locked.init n m0).run program ls = some s) :
    ¬ ∃ f : Nat → Locked σ, f 0 = s ∧ ∀ i, ∃ x, Inward x ∧ (f i).step program x = some (f (i + 1)) := by
  have hacc := C107_ends_acc n m0 ls s h
  clear h
  induction hacc with
  | intro s _ ih =>
    rintro ⟨f, hf, hs⟩
    refine ih (f 1) ?_ ⟨fun i => f (i + 1), rfl, fun i => hs (i + 1)⟩
    rw [← hf]
    exact hs 0

/-- The end of all work: no call running, no application thread at work, no lock held, no packet being handed over, and each
receiver in front of which nobody panicked has been called with every packet that was taken from the socket. -/
def Spec.WorkDone (ls : List (LockLabel σ)) (s : Locked σ) : Prop :=
  (∀ p, s.running p = none) ∧ (∀ i, s.owner i = none) ∧
    ∀ (k : Nat) (m : RMember), s.pool.workers.members[k]? = some m → m.state.jobs = none ∧
      ∀ r, r < m.listener.receivers.length →
        (∀ q, q < r → ¬ panickedIn q (jobsAt k ((poolSteps ls).map DLabel.plain))) →
        callsOf r m.state.trace = takenIn m.state.trace

/-- C107. With the discipline of C107, when nobody can make a step all work is done. -/
theorem C107_stuck (n : Nat) (hn : 1 ≤ n) (m0 : σ) (ls : List (LockLabel σ)) (s : Locked σ)
    (h : (Locked.init n m0).run program ls = some s) (hd : Disciplined program ls)
    (hl : ∀ l ∈ startedIn ls, MayPanic l) (hs : ∀ x, Inward x → s.step program x = none) : WorkDone ls s := by
  have hb : ¬ ((∃ p, (s.running p).isSome = true) ∨
      ∃ (k : Nat) (m : RMember), s.pool.workers.members[k]? = some m ∧ m.state.jobs.isSome = true) := by
    intro hb
    obtain ⟨x, hi, hx⟩ := C107 n hn m0 ls s h hd hl hb
    rw [hs x hi] at hx
    cases hx
  have h1 : ∀ p, s.running p = none := by
    intro p
    cases hp : s.running p with
    | none => rfl
    | some d => exact absurd (.inl ⟨p, by rw [hp]; rfl⟩) hb
  refine ⟨h1, ?_, ?_⟩
  · intro i
    cases ho : s.owner i with
    | none => rfl
    | some p =>
      obtain ⟨held, _, g2, g3⟩ := (lockInv n m0 ls s h hd).held p
      rw [h1 p] at g3
      change held = [] at g3
      have := (g2 i).mpr ho
      rw [g3] at this
      cases this
  · intro k m hm
    have hj : m.state.jobs = none := by
      cases hj : m.state.jobs with
      | none => rfl
      | some ts => exact absurd (.inr ⟨k, m, hm, by rw [hj]; rfl⟩) hb
    refine ⟨hj, fun r hr hq => ?_⟩
    obtain ⟨queued, _, h2⟩ := C89 n _ _ (C105_refines n _ _ (C107_refines n m0 ls s h)) k m hm
    refine C86_first m.listener queued _ m.state h2 ?_ r hr hq
    unfold RState.jobs at hj
    split at hj
    · cases hj
    · rename_i hp
      unfold RPhase.outside
      split
      · rename_i he; exact absurd he (hp _ _ _ _ _)
      · rfl

/-- C107. And some finite way on, without anything new from outside, ends there. -/
theorem C107_rest (n : Nat) (hn : 1 ≤ n) (m0 : σ) (ls : List (LockLabel σ)) (s : Locked σ)
    (h : (Locked.init n m0).run program ls = some s) (hd : Disciplined program ls)
    (hl : ∀ l ∈ startedIn ls, MayPanic l) :
    ∃ more s', (∀ x ∈ more, Inward x) ∧ s.run program more = some s' ∧ WorkDone (ls ++ more) s' := by
  have hacc := C107_ends_acc n m0 ls s h
  induction hacc generalizing ls with
  | intro s _ ih =>
    by_cases hb : ∃ x, Inward x ∧ (s.step program x).isSome = true
    · obtain ⟨x, hi, hx⟩ := hb
      obtain ⟨t, ht⟩ := Option.isSome_iff_exists.mp hx
      have hbeg : begunIn [x] = [] := by cases x <;> first | rfl | exact hi.elim
      have hst : startedIn [x] = [] := by
        cases x with
        | pool x =>
          cases x with
          | steal => rfl
          | «local» x => cases x <;> first | rfl | exact hi.elim
        | _ => rfl
      obtain ⟨more, s', g1, g2, g3⟩ := ih t ⟨x, hi, ht⟩ (ls ++ [x]) ((Locked.run_snoc _ _ _ _).mpr ⟨s, h, ht⟩)
        ⟨hd.1, by rw [begunIn_append, hbeg, List.append_nil]; exact hd.2⟩
        (by rw [startedIn_append, hst, List.append_nil]; exact hl)
      refine ⟨x :: more, s', ?_, by simp only [Locked.run, ht, g2], by simpa using g3⟩
      intro y hy
      rcases List.mem_cons.mp hy with rfl | hy
      · exact hi
      · exact g1 y hy
    · refine ⟨[], s, (fun _ hx => by cases hx), rfl, ?_⟩
      rw [List.append_nil]
      refine C107_stuck n hn m0 ls s h hd hl fun x hi => ?_
      cases hx : s.step program x with
      | none => rfl
      | some t => exact absurd ⟨x, hi, by rw [hx]; rfl⟩ hb

/-! ## Waiting for ever -/

/-- What a step does to what is running. -/
theorem Locked.step_effect {n : Nat} {m0 : σ} {ls : List (LockLabel σ)} {s s' : Locked σ} {x : LockLabel σ}
    (hr : (Locked.init n m0).run program ls = some s) (hx : s.step program x = some s') :
    (∃ p, s.go p = some s') ∨
    (∃ p d, s.running p = none ∧ s'.running = (fun i => if i = p then some d else s.running i) ∧ s'.owner = s.owner ∧
      (s'.memory = s.memory ∧ s'.poisoned = s.poisoned) ∧
      ((∃ i, x = .begin i d ∧ p = .outside i) ∨ ∃ w k r hi pk a, x = .pool (.local (.call w k r hi)) ∧ p = .call k r ∧
        s.pool.workers.packet k = some (pk, a) ∧ d = program k r pk a)) ∨
    (∃ p d, s.running p = some d ∧ (d = .done ∨ d = .panic) ∧
      s'.running = (fun i => if i = p then none else s.running i) ∧ s'.memory = s.memory ∧
      (∀ m q, q ≠ p → s.owner m = some q → s'.owner m = some q) ∧
      ((d = .done ∧ s'.owner = s.owner ∧ s'.poisoned = s.poisoned) ∨
        (d = .panic ∧ s'.owner = (s.unwind p).owner ∧ s'.poisoned = (s.unwind p).poisoned))) ∨
    (s'.running = s.running ∧ s'.owner = s.owner ∧ s'.memory = s.memory ∧ s'.poisoned = s.poisoned) := by
  have hun : ∀ (p : Party) (m : Nat) (q : Party), q ≠ p → s.owner m = some q → (s.unwind p).owner m = some q := by
    intro p m q hq ho
    simp [Locked.unwind, ho, hq]
  cases x with
  | go p => exact .inl ⟨p, hx⟩
  | begin i d =>
    simp only [Locked.step] at hx
    split at hx
    · rename_i hn
      cases hx
      exact .inr (.inl ⟨.outside i, d, hn, rfl, rfl, ⟨rfl, rfl⟩, .inl ⟨i, rfl, rfl⟩⟩)
    · cases hx
  | leave i =>
    simp only [Locked.step] at hx
    split at hx
    · rename_i hn
      cases hx
      exact .inr (.inr (.inl ⟨.outside i, _, hn, .inl rfl, rfl, rfl, fun _ _ _ ho => ho, .inl ⟨rfl, rfl, rfl⟩⟩))
    · rename_i hn
      cases hx
      exact .inr (.inr (.inl ⟨.outside i, _, hn, .inr rfl, rfl, rfl, hun _, .inr ⟨rfl, rfl, rfl⟩⟩))
    · cases hx
  | pool x =>
    obtain ⟨t, h1, h2, h3⟩ := Locked.step_pool hx
    have e1 : s'.running = t.running := by rw [h3]
    have e2 : s'.owner = t.owner := by rw [h3]
    have e3 : s'.memory = t.memory := by rw [h3]
    have e4 : s'.poisoned = t.poisoned := by rw [h3]
    rw [e1, e2, e3]
    cases x with
    | steal w v k lo hi =>
      simp only [Locked.follow, Option.some.injEq] at h2
      subst h2
      exact .inr (.inr (.inr ⟨rfl, rfl, rfl, e4⟩))
    | «local» x =>
      cases x with
      | call w k r hi =>
        simp only [Locked.follow] at h2
        split at h2
        case h_2 => cases h2
        rename_i pk a hpk
        cases h2
        have hnone : s.running (.call k r) = none := by
          cases hc : s.running (.call k r) with
          | none => rfl
          | some d =>
            refine absurd ?_ (not_atWork_of_call (Locked.good hr).2 (Deques.step_plain h1))
            exact (C107_running n m0 ls s hr k r).mp (by rw [hc]; rfl)
        exact .inr (.inl ⟨.call k r, _, hnone, rfl, rfl, ⟨rfl, e4⟩, .inr ⟨w, k, r, hi, pk, a, rfl, rfl, hpk, rfl⟩⟩)
      | finish w k r hi =>
        simp only [Locked.follow] at h2
        split at h2
        case h_2 => cases h2
        rename_i hn
        cases h2
        exact .inr (.inr (.inl ⟨.call k r, _, hn, .inl rfl, rfl, rfl, fun _ _ _ ho => ho, .inl ⟨rfl, rfl, e4⟩⟩))
      | crash w k r hi =>
        simp only [Locked.follow] at h2
        split at h2
        case h_2 => cases h2
        rename_i hn
        cases h2
        exact .inr (.inr (.inl ⟨.call k r, _, hn, .inr rfl, rfl, rfl, hun _, .inr ⟨rfl, rfl, e4⟩⟩))
      | _ =>
        simp only [Locked.follow, Option.some.injEq] at h2
        subst h2
        exact .inr (.inr (.inr ⟨rfl, rfl, rfl, e4⟩))

/-- What a party that is not waiting does to the others. -/
theorem Locked.go_effect {s s' : Locked σ} {p : Party} (hg : s.go p = some s') :
    (∀ q, q ≠ p → s'.running q = s.running q) ∧
    (∀ m q, q ≠ p → s.owner m = some q → s'.owner m = some q) ∧
    (∀ m next, s.running p = some (.lock m next) → s.owner m = none) ∧
    (∀ c next, s.running p = some (.await c next) → c s.memory = true) ∧
    ∀ (c : σ → Bool) d, s.running p = some d → Keeps c d → (∀ d', s'.running p = some d' → Keeps c d') ∧
      (c s.memory = false → c s'.memory = false) := by
  have hr : ∀ (d : Option (Deed σ)) (q : Party), q ≠ p → (if q = p then d else s.running q) = s.running q :=
    fun d q hq => by simp [hq]
  unfold Locked.go at hg
  split at hg
  · rename_i next change hd
    cases hg
    refine ⟨fun q hq => hr _ q hq, fun _ _ _ ho => ho, ?_, ?_, ?_⟩
    · intro m next' e; rw [hd] at e; cases e
    · intro m next' e; rw [hd] at e; cases e
    · intro c d e hk
      rw [hd] at e
      cases e
      refine ⟨?_, hk.1 _⟩
      intro d' e'
      simp [Locked.set] at e'
      subst e'
      exact hk.2 _
  · rename_i m next hd
    split at hg
    · rename_i ho
      cases hg
      refine ⟨fun q hq => hr _ q hq, ?_, ?_, ?_, ?_⟩
      · intro m' q _ ho'
        have : m' ≠ m := by intro e; rw [e, ho] at ho'; cases ho'
        simpa [Locked.set, this] using ho'
      · intro m' next' e; rw [hd] at e; cases e; exact ho
      · intro m next' e; rw [hd] at e; cases e
      · intro c d e hk
        rw [hd] at e
        cases e
        refine ⟨?_, id⟩
        intro d' e'
        simp [Locked.set] at e'
        subst e'
        exact hk _
    · cases hg
  · rename_i m next hd
    split at hg
    · rename_i ho
      cases hg
      refine ⟨fun q hq => hr _ q hq, ?_, ?_, ?_, ?_⟩
      · intro m' q hq ho'
        have : m' ≠ m := by
          intro e
          rw [e, ho] at ho'
          cases ho'
          exact hq rfl
        simpa [Locked.set, this] using ho'
      · intro m next' e; rw [hd] at e; cases e
      · intro m next' e; rw [hd] at e; cases e
      · intro c d e hk
        rw [hd] at e
        cases e
        refine ⟨?_, id⟩
        intro d' e'
        simp [Locked.set] at e'
        subst e'
        exact hk
    · cases hg
  · rename_i c next hd
    split at hg
    · rename_i hc
      cases hg
      refine ⟨fun q hq => hr _ q hq, fun _ _ _ ho => ho, ?_, ?_, ?_⟩
      · intro m next' e; rw [hd] at e; cases e
      · intro m next' e; rw [hd] at e; cases e; exact hc
      · intro c d e hk
        rw [hd] at e
        cases e
        refine ⟨?_, id⟩
        intro d' e'
        simp [Locked.set] at e'
        subst e'
        exact hk
    · cases hg
  · cases hg

/-- The parties in `B` wait for each other and for the conditions in `C`. -/
private structure Knot (B : Party → Prop) (C : (σ → Bool) → Prop) (s : Locked σ) : Prop where
  waits : ∀ p, B p → (∃ m next q, s.running p = some (.lock m next) ∧ s.owner m = some q ∧ B q) ∨
    ∃ c next, s.running p = some (.await c next) ∧ C c
  cond : ∀ c, C c → c s.memory = false ∧ ∀ p d, ¬ B p → s.running p = some d → Keeps c d

private theorem Knot.step {B : Party → Prop} {C : (σ → Bool) → Prop} {n : Nat} {m0 : σ} {ls : List (LockLabel σ)}
    {s s' : Locked σ} {x : LockLabel σ} (hk : Knot B C s) (hr : (Locked.init n m0).run program ls = some s)
    (hx : s.step program x = some s') (hb : ∀ i d, x = .begin i d → ∀ c, C c → Keeps c d)
    (hp : ∀ w k r hi pk a, x = .pool (.local (.call w k r hi)) → s.pool.workers.packet k = some (pk, a) →
      ∀ c, C c → Keeps c (program k r pk a)) :
    Knot B C s' ∧ ∀ p, B p → s'.running p = s.running p := by
  -- what is needed in all cases
  have fin : (∀ p, B p → s'.running p = s.running p) → (∀ m q, B q → s.owner m = some q → s'.owner m = some q) →
      (∀ c, C c → c s'.memory = false ∧ ∀ p d, ¬ B p → s'.running p = some d → Keeps c d) →
      Knot B C s' ∧ ∀ p, B p → s'.running p = s.running p := by
    intro h1 h2 h3
    refine ⟨⟨fun p hp => ?_, h3⟩, h1⟩
    rcases hk.waits p hp with ⟨m, next, q, g1, g2, g3⟩ | ⟨c, next, g1, g2⟩
    · exact .inl ⟨m, next, q, (h1 p hp).trans g1, h2 m q g3 g2, g3⟩
    · exact .inr ⟨c, next, (h1 p hp).trans g1, g2⟩
  rcases Locked.step_effect hr hx with ⟨p, hg⟩ | ⟨p, d, h1, h2, h3, h4, h5⟩ | ⟨p, d, h1, h2, h3, h4, h5, _⟩ | ⟨h1, h2, h3, _⟩
  · obtain ⟨g1, g2, g3, g4, g5⟩ := Locked.go_effect hg
    have hnot : ¬ B p := by
      intro hB
      rcases hk.waits p hB with ⟨m, next, q, e1, e2, _⟩ | ⟨c, next, e1, e2⟩
      · rw [g3 m next e1] at e2; cases e2
      · have := g4 c next e1
        rw [(hk.cond c e2).1] at this
        cases this
    have hne : ∀ q, B q → q ≠ p := fun q hq e => hnot (e ▸ hq)
    refine fin (fun q hq => g1 q (hne q hq)) (fun m q hq => g2 m q (hne q hq)) ?_
    intro c hc
    obtain ⟨e1, e2⟩ := hk.cond c hc
    obtain ⟨d, hd⟩ : ∃ d, s.running p = some d := by
      cases hd : s.running p with
      | some d => exact ⟨d, rfl⟩
      | none => simp [Locked.go, hd] at hg
    obtain ⟨e3, e4⟩ := g5 c d hd (e2 p d hnot hd)
    refine ⟨e4 e1, fun q d' hq hd' => ?_⟩
    by_cases he : q = p
    · subst he; exact e3 d' hd'
    · rw [g1 q he] at hd'
      exact e2 q d' hq hd'
  · have hnot : ¬ B p := by
      intro hB
      rcases hk.waits p hB with ⟨m, next, q, e1, e2, _⟩ | ⟨c, next, e1, e2⟩
      · rw [h1] at e1; cases e1
      · rw [h1] at e1; cases e1
    refine fin (fun q hq => ?_) (fun m q _ ho => by rw [h3]; exact ho) ?_
    · have : q ≠ p := fun e => hnot (e ▸ hq)
      rw [h2]
      simp [this]
    · intro c hc
      obtain ⟨e1, e2⟩ := hk.cond c hc
      refine ⟨by rw [h4.1]; exact e1, fun q d' hq hd' => ?_⟩
      rw [h2] at hd'
      dsimp only at hd'
      split at hd'
      · cases hd'
        rcases h5 with ⟨i, e, _⟩ | ⟨w, k, r, hi, pk, a, f1, f2, f3, rfl⟩
        · exact hb i _ e c hc
        · exact hp w k r hi pk a f1 f3 c hc
      · exact e2 q d' hq hd'
  · have hnot : ¬ B p := by
      intro hB
      rcases hk.waits p hB with ⟨m, next, q, e1, e2, _⟩ | ⟨c, next, e1, e2⟩
      · rw [h1] at e1; rcases h2 with rfl | rfl <;> cases e1
      · rw [h1] at e1; rcases h2 with rfl | rfl <;> cases e1
    have hne : ∀ q, B q → q ≠ p := fun q hq e => hnot (e ▸ hq)
    refine fin (fun q hq => ?_) (fun m q hq => h5 m q (hne q hq)) ?_
    · rw [h3]
      simp [hne q hq]
    · intro c hc
      obtain ⟨e1, e2⟩ := hk.cond c hc
      refine ⟨by rw [h4]; exact e1, fun q d' hq hd' => ?_⟩
      rw [h3] at hd'
      dsimp only at hd'
      split at hd'
      · cases hd'
      · exact e2 q d' hq hd'
  · refine fin (fun q _ => by rw [h1]) (fun m q _ ho => by rw [h2]; exact ho) ?_
    intro c hc
    rw [h1, h3]
    exact hk.cond c hc

/-- A listening thread hands over one packet after the other. -/
private theorem packet_step {s s' : Workers} {x : TLabel} (h : s.step x = some s') (k : Nat) (v : Packet × Address)
    (hv : s.packet k = some v) (hj : (s'.jobs k).isSome = true) : s'.packet k = some v := by
  have hpk : ∀ {l : Listener} {t t' : RState} {y : RLabel} {e p a ts pan}, l.rstep t y = some t' →
      t.phase = .scope e p a ts pan → t'.jobs.isSome = true → ∃ e' ts' pan', t'.phase = .scope e' p a ts' pan' := by
    intro l t t' y e p a ts pan hs hp hj
    have hnj : y ≠ .join := by
      rintro rfl
      rw [(RState.jobs_join hs).2] at hj
      cases hj
    cases y <;> simp only [Listener.rstep, hp] at hs
    case arrive d => cases hs; exact ⟨_, _, _, rfl⟩
    case split => split at hs <;> cases hs; exact ⟨_, _, _, rfl⟩
    case begin => split at hs <;> cases hs; exact ⟨_, _, _, rfl⟩
    case call => split at hs <;> cases hs; exact ⟨_, _, _, rfl⟩
    case finish => split at hs <;> cases hs; exact ⟨_, _, _, rfl⟩
    case crash => split at hs <;> cases hs; exact ⟨_, _, _, rfl⟩
    case done => split at hs <;> cases hs; exact ⟨_, _, _, rfl⟩
    case join => exact absurd rfl hnj
    all_goals cases hs
  unfold Workers.packet at hv
  split at hv
  case h_2 => cases hv
  rename_i m hm
  split at hv
  case h_2 => cases hv
  rename_i e p a ts pan hph
  cases hv
  have hlt : k < s.members.length := (List.getElem?_eq_some_iff.mp hm).1
  obtain ⟨_, ⟨l, q, _, e⟩ | ⟨_, e, _⟩ | ⟨_, j, y, mj, t, e1, e2, e, _⟩⟩ := Workers.step_members h
  · simp [Workers.packet, e, List.getElem?_append_left hlt, hm, hph]
  · simp [Workers.packet, e, hm, hph]
  · by_cases he : k = j
    · subst he
      rw [hm] at e1
      cases e1
      have hg : s'.members[k]? = some ⟨m.listener, t⟩ := by rw [e, List.getElem?_set_self hlt]
      obtain ⟨e', ts', pan', hph'⟩ := hpk e2 hph (by rw [← Workers.jobs_of hg]; exact hj)
      simp [Workers.packet, hg, hph']
    · simp [Workers.packet, e, List.getElem?_set_ne (Ne.symm he), hm, hph]

/-- What waits for a condition can wait for ever: nobody outside of `B` who has something to do, nothing that begins in `more`, and
no call of a receiver can make the condition true.  Of the calls those count that can come while `B` waits: an instance one of
whose calls is in `B` calls its receivers with the packet it is handing over only. -/
def Spec.Hopeless (program : Nat → Nat → Packet → Address → Deed σ) (s : Locked σ) (B : Party → Prop)
    (more : List (LockLabel σ)) (cond : σ → Bool) : Prop :=
  cond s.memory = false ∧ (∀ p d, ¬ B p → s.running p = some d → Keeps cond d) ∧ (∀ d ∈ begunIn more, Keeps cond d) ∧
    ∀ k r pk a, (∀ i, B (.call k i) → s.pool.workers.packet k = some (pk, a)) → Keeps cond (program k r pk a)

/-- C107. If each of some parties (calls of receivers or application threads) waits for a lock that one of them has, or hopelessly for a
condition, they wait for ever, whatever the others do and whatever arrives; and the instances whose receivers are among
them never take a datagram from their sockets again. -/
theorem C107_knot (n : Nat) (m0 : σ) (ls : List (LockLabel σ)) (s : Locked σ)
    (h : (Locked.init n m0).run program ls = some s) (B : Party → Prop) (more : List (LockLabel σ))
    (hB : ∀ p, B p → (∃ m next q, s.running p = some (.lock m next) ∧ s.owner m = some q ∧ B q) ∨
      ∃ c next, s.running p = some (.await c next) ∧ Hopeless program s B more c)
    (s' : Locked σ) (h' : s.run program more = some s') :
    (∀ p, B p → s'.running p = s.running p) ∧
      ∀ k r, B (.call k r) → ∃ m m', s.pool.workers.members[k]? = some m ∧ s'.pool.workers.members[k]? = some m' ∧
        m'.state.jobs.isSome = true ∧ takenIn m'.state.trace = takenIn m.state.trace := by
  have hatw : ∀ (ls : List (LockLabel σ)) (s1 : Locked σ), (Locked.init n m0).run program ls = some s1 →
      ∀ k r, (s1.running (.call k r)).isSome = true → (s1.pool.workers.jobs k).isSome = true := by
    intro ls s1 h1 k r hr
    obtain ⟨ts, hi, g1, _⟩ := (C107_running n m0 ls s1 h1 k r).mp hr
    rw [g1]; rfl
  have hsome : ∀ k r, B (.call k r) → (s.running (.call k r)).isSome = true := by
    intro k r hb
    rcases hB _ hb with ⟨m, next, q, e, _⟩ | ⟨c, next, e, _⟩ <;> rw [e] <;> rfl
  have hmem : ∀ k r, B (.call k r) → ∃ m, s.pool.workers.members[k]? = some m := by
    intro k r hb
    obtain ⟨ts, hts⟩ := Option.isSome_iff_exists.mp (hatw ls s h k r (hsome k r hb))
    obtain ⟨m, _, _, _, _, hm, _⟩ := Workers.jobs_some hts
    exact ⟨m, hm⟩
  -- along the way
  have key : ∀ (todo : List (LockLabel σ)) (done : List (LockLabel σ)) (s1 : Locked σ),
      (Locked.init n m0).run program (ls ++ done) = some s1 → more = done ++ todo →
      Knot B (fun c => Hopeless program s B more c) s1 →
      (∀ p, B p → s1.running p = s.running p) →
      (∀ k r, B (.call k r) → s1.pool.workers.packet k = s.pool.workers.packet k) →
      (∀ k r m, B (.call k r) → s.pool.workers.members[k]? = some m →
        ∃ m', s1.pool.workers.members[k]? = some m' ∧ takenIn m'.state.trace = takenIn m.state.trace) →
      s1.run program todo = some s' →
      (∀ p, B p → s'.running p = s.running p) ∧
        (∀ k r, B (.call k r) → (s'.pool.workers.jobs k).isSome = true) ∧
        ∀ k r m, B (.call k r) → s.pool.workers.members[k]? = some m →
          ∃ m', s'.pool.workers.members[k]? = some m' ∧ takenIn m'.state.trace = takenIn m.state.trace := by
    intro todo
    induction todo with
    | nil =>
      intro done s1 g1 _ _ g4 _ g6 g7
      cases g7
      refine ⟨g4, fun k r hb => hatw _ _ g1 k r ?_, g6⟩
      rw [g4 _ hb]
      exact hsome k r hb
    | cons x todo ih =>
      intro done s1 g1 g2 g3 g4 g5 g6 g7
      simp only [Locked.run] at g7
      split at g7
      case h_2 => cases g7
      rename_i s2 hx
      have g1' : (Locked.init n m0).run program (ls ++ (done ++ [x])) = some s2 := by
        rw [← List.append_assoc]
        exact (Locked.run_snoc _ _ _ _).mpr ⟨s1, g1, hx⟩
      obtain ⟨k1, k2⟩ := g3.step g1 hx
        (by
          rintro i d rfl c ⟨_, _, hc, _⟩
          refine hc d ?_
          rw [g2, begunIn_append]
          exact List.mem_append_right _ List.mem_cons_self)
        (by
          rintro w k r hi pk a rfl hpk c ⟨_, _, _, hc⟩
          refine hc k r pk a ?_
          intro i hb
          rw [← g5 k i hb, hpk])
      have hrun2 : ∀ p, B p → s2.running p = s.running p := fun p hp => (k2 p hp).trans (g4 p hp)
      have hjobs2 : ∀ k r, B (.call k r) → (s2.pool.workers.jobs k).isSome = true := fun k r hb =>
        hatw _ _ g1' k r (by rw [hrun2 _ hb]; exact hsome k r hb)
      refine ih (done ++ [x]) s2 g1' (by simpa using g2) k1 hrun2 ?_ ?_ g7
      · intro k r hb
        rw [← g5 k r hb]
        by_cases hp : ∀ y, x ≠ .pool y
        · rw [Locked.step_other hx hp]
        · obtain ⟨y, rfl⟩ : ∃ y, x = .pool y := Classical.byContradiction fun hn => hp fun y e => hn ⟨y, e⟩
          obtain ⟨_, f1, _⟩ := Locked.step_pool hx
          obtain ⟨ts, hts⟩ := Option.isSome_iff_exists.mp (hatw _ _ g1 k r (by rw [g4 _ hb]; exact hsome k r hb))
          obtain ⟨m, e, p, a, pan, f2, f3⟩ := Workers.jobs_some hts
          have hv : s1.pool.workers.packet k = some (p, a) := by simp [Workers.packet, f2, f3]
          rw [hv]
          exact packet_step (Deques.step_plain f1) k _ hv (hjobs2 k r hb)
      · intro k r m hb hm
        obtain ⟨m1, f1, f2⟩ := g6 k r m hb hm
        by_cases hp : ∀ y, x ≠ .pool y
        · rw [Locked.step_other hx hp]
          exact ⟨m1, f1, f2⟩
        · obtain ⟨y, rfl⟩ : ∃ y, x = .pool y := Classical.byContradiction fun hn => hp fun y e => hn ⟨y, e⟩
          obtain ⟨_, f3, _⟩ := Locked.step_pool hx
          have hj := hatw _ _ g1 k r (by rw [g4 _ hb]; exact hsome k r hb)
          obtain ⟨m2, e1, e2⟩ := Workers.step_taken (Deques.step_plain f3) f1 (by
            rw [← Workers.jobs_of f1]
            intro e
            rw [e] at hj
            cases hj)
          exact ⟨m2, e1, e2.trans f2⟩
  obtain ⟨r1, r2, r3⟩ := key more [] s (by simpa using h) rfl
    ⟨hB, fun c hc => ⟨hc.1, hc.2.1⟩⟩ (fun _ _ => rfl) (fun _ _ _ => rfl) (fun k r m _ hm => ⟨m, hm, rfl⟩) h'
  refine ⟨r1, fun k r hb => ?_⟩
  obtain ⟨m, hm⟩ := hmem k r hb
  obtain ⟨m', hm', ht⟩ := r3 k r m hb hm
  exact ⟨m, m', hm, hm', by rw [← Workers.jobs_of hm']; exact r2 k r hb, ht⟩

/-- C107. A receiver that waits for something that only a later datagram of the same instance could bring waits for ever, and the instance
is dead. -/
theorem C107_wait (n : Nat) (m0 : σ) (ls : List (LockLabel σ)) (s : Locked σ)
    (h : (Locked.init n m0).run program ls = some s) (k r : Nat) (cond : σ → Bool) (next : Deed σ)
    (hw : s.running (.call k r) = some (.await cond next)) (hc : cond s.memory = false)
    (more : List (LockLabel σ))
    (hothers : ∀ p d, p ≠ .call k r → s.running p = some d → Keeps cond d) (hbegun : ∀ d ∈ begunIn more, Keeps cond d)
    (helse : ∀ j i p a, j ≠ k → Keeps cond (program j i p a))
    (hsame : ∀ i p a, s.pool.workers.packet k = some (p, a) → Keeps cond (program k i p a))
    (s' : Locked σ) (h' : s.run program more = some s') :
    s'.running (.call k r) = some (.await cond next) ∧
      ∃ m m', s.pool.workers.members[k]? = some m ∧ s'.pool.workers.members[k]? = some m' ∧
        takenIn m'.state.trace = takenIn m.state.trace := by
  obtain ⟨h1, h2⟩ := C107_knot n m0 ls s h (· = .call k r) more (by
    rintro p rfl
    refine .inr ⟨cond, next, hw, hc, hothers, hbegun, ?_⟩
    intro j i pk a hj
    by_cases he : j = k
    · subst he
      exact hsame i pk a (hj r rfl)
    · exact helse j i pk a he) s' h'
  obtain ⟨m, m', g1, g2, _, g3⟩ := h2 k r rfl
  exact ⟨(h1 _ rfl).trans hw, m, m', g1, g2, g3⟩

/-- C107. If the receiver calls that occupy all threads of the pool wait for each other's locks, or for conditions that nothing
outside of the pool makes true, no receiver of any instance is called any more, whatever the receivers would do and
whatever arrives. -/
theorem C107_full (n : Nat) (m0 : σ) (ls : List (LockLabel σ)) (s : Locked σ)
    (h : (Locked.init n m0).run program ls = some s) (hfull : s.pool.workers.calls = n) (B : Party → Prop)
    (hall : ∀ k r, (s.running (.call k r)).isSome = true → B (.call k r)) (more : List (LockLabel σ))
    (hB : ∀ p, B p → (∃ m next q, s.running p = some (.lock m next) ∧ s.owner m = some q ∧ B q) ∨
      ∃ c next, s.running p = some (.await c next) ∧ c s.memory = false ∧
        (∀ p d, ¬ B p → s.running p = some d → Keeps c d) ∧ ∀ d ∈ begunIn more, Keeps c d)
    (s' : Locked σ) (h' : s.run program more = some s') (k : Nat) (m' : RMember)
    (hm' : s'.pool.workers.members[k]? = some m') (r : Nat) :
    callsOf r m'.state.trace =
      match s.pool.workers.members[k]? with
      | some m => callsOf r m.state.trace
      | none => [] := by
  have hplain : ∀ (a : List (LockLabel σ)) (u v : Locked σ), u.run program a = some v →
      u.pool.workers.run ((poolSteps a).map DLabel.plain) = some v.pool.workers := by
    intro a
    induction a with
    | nil => intro u v h; cases h; rfl
    | cons x a ih =>
      intro u v h
      simp only [Locked.run] at h
      split at h
      case h_2 => cases h
      rename_i u' hx
      by_cases hp : ∀ y, x ≠ .pool y
      · have e := Locked.step_other hx hp
        have : poolSteps (x :: a) = poolSteps a := by
          cases x with
          | pool y => exact absurd rfl (hp y)
          | _ => rfl
        rw [this, ← e]
        exact ih u' v h
      · obtain ⟨y, rfl⟩ : ∃ y, x = .pool y := Classical.byContradiction fun hn => hp fun y e => hn ⟨y, e⟩
        obtain ⟨_, f, _⟩ := Locked.step_pool hx
        simp only [poolSteps, List.map_cons, Workers.run, Deques.step_plain f]
        exact ih u' v h
  have hinit := C105_refines n _ _ (C107_refines n m0 ls s h)
  have blocked : ∀ (a : List (LockLabel σ)) (v : Locked σ), s.run program a = some v →
      (∀ y ∈ poolSteps a, y.plain.ends = false) → ∀ (k : Nat) (m' : RMember), v.pool.workers.members[k]? = some m' → ∀ r,
      callsOf r m'.state.trace =
        match s.pool.workers.members[k]? with
        | some m => callsOf r m.state.trace
        | none => [] := by
    intro a v ha hends k m' hm' r
    refine C89_blocked n _ _ _ _ hinit hfull (hplain a s v ha) ?_ k m' hm' r
    intro x hx
    obtain ⟨y, hy, rfl⟩ := List.mem_map.mp hx
    exact hends y hy
  have key : ∀ (todo done : List (LockLabel σ)) (s1 : Locked σ), s.run program done = some s1 → more = done ++ todo →
      Knot B (fun c => c s.memory = false ∧ (∀ p d, ¬ B p → s.running p = some d → Keeps c d) ∧
        ∀ d ∈ begunIn more, Keeps c d) s1 →
      (∀ k r, (s1.running (.call k r)).isSome = true → B (.call k r)) →
      (∀ y ∈ poolSteps done, y.plain.ends = false) → s1.run program todo = some s' →
      ∀ y ∈ poolSteps more, y.plain.ends = false := by
    intro todo
    induction todo with
    | nil =>
      intro done s1 _ g2 _ _ g5 _
      rw [g2, List.append_nil]
      exact g5
    | cons x todo ih =>
      intro done s1 g1 g2 g3 g4 g5 g7
      simp only [Locked.run] at g7
      split at g7
      case h_2 => cases g7
      rename_i s2 hx
      have g1' : s.run program (done ++ [x]) = some s2 := (Locked.run_snoc _ _ _ _).mpr ⟨s1, g1, hx⟩
      have hreach : (Locked.init n m0).run program (ls ++ done) = some s1 := by
        rw [Locked.run_append, h]; exact g1
      -- nobody ends
      have hends : ∀ y ∈ poolSteps (done ++ [x]), y.plain.ends = false := by
        intro y hy
        rw [poolSteps_append] at hy
        rcases List.mem_append.mp hy with hy | hy
        · exact g5 y hy
        · cases x with
          | pool z =>
            simp only [poolSteps, List.mem_singleton] at hy
            subst hy
            have hno : ∀ k r d, s1.running (.call k r) = some d → d ≠ .done ∧ d ≠ .panic := by
              intro k r d hd
              rcases g3.waits _ (g4 k r (by rw [hd]; rfl)) with ⟨m, nx, q, e, _⟩ | ⟨c, nx, e, _⟩ <;> rw [hd] at e <;>
                cases e <;> exact ⟨nofun, nofun⟩
            obtain ⟨t, _, f, _⟩ := Locked.step_pool hx
            cases y with
            | steal => rfl
            | «local» y =>
              cases y with
              | finish w k r hi =>
                simp only [Locked.follow] at f
                split at f
                · rename_i e; exact absurd rfl (hno k r _ e).1
                · cases f
              | crash w k r hi =>
                simp only [Locked.follow] at f
                split at f
                · rename_i e; exact absurd rfl (hno k r _ e).2
                · cases f
              | _ => rfl
          | _ => simp [poolSteps] at hy
      -- nobody is called
      have hnocall : ∀ w k r hi, x ≠ .pool (.local (.call w k r hi)) := by
        rintro w k r hi rfl
        obtain ⟨t, f, _, _⟩ := Locked.step_pool hx
        have fp := Deques.step_plain f
        simp only [DLabel.plain, Workers.step] at fp
        obtain ⟨m, t', _, e2, e3, e4⟩ := Workers.work_eq fp
        have hlt : k < s1.pool.workers.members.length := (List.getElem?_eq_some_iff.mp e2).1
        have hm2 : s2.pool.workers.members[k]? = some ⟨m.listener, t'⟩ := by
          rw [e4]
          simp [List.getElem?_set_self hlt]
        have c1 := blocked done s1 g1 g5 k m e2 r
        have c2 := blocked _ s2 g1' hends k _ hm2 r
        rw [← c1] at c2
        simp only [Listener.rstep] at e3
        split at e3
        · split at e3
          · cases e3
            simp [callsOf] at c2
          · cases e3
        · cases e3
      obtain ⟨k1, k2⟩ := g3.step hreach hx
        (by
          rintro i d rfl c ⟨_, _, hc⟩
          refine hc d ?_
          rw [g2, begunIn_append]
          exact List.mem_append_right _ List.mem_cons_self)
        (by
          intro w k r hi pk a e
          exact absurd e (hnocall w k r hi))
      refine ih (done ++ [x]) s2 g1' (by simpa using g2) k1 ?_ hends g7
      intro k r hk
      rcases Locked.step_effect hreach hx with ⟨p, hg⟩ | ⟨p, d, f1, f2, _, _, f5⟩ | ⟨p, d, f1, f2, f3, _⟩ | ⟨f1, _⟩
      · by_cases he : Party.call k r = p
        · subst he
          refine g4 k r ?_
          cases hd : s1.running (.call k r) with
          | some d => rfl
          | none => simp [Locked.go, hd] at hg
        · exact g4 k r (by rw [← (Locked.go_effect hg).1 _ he]; exact hk)
      · rw [f2] at hk
        rcases f5 with ⟨i, _, rfl⟩ | ⟨w, k', r', hi, _, _, e, _⟩
        · exact g4 k r (by simpa using hk)
        · exact absurd e (hnocall w k' r' hi)
      · rw [f3] at hk
        dsimp only at hk
        split at hk
        · cases hk
        · exact g4 k r hk
      · exact g4 k r (by rw [← f1]; exact hk)
  exact blocked more s' h' (key more [] s rfl rfl ⟨hB, fun c hc => ⟨hc.1, hc.2.1⟩⟩ hall (fun _ hy => by cases hy) h')
    k m' hm' r

/-- C107. So if the pool has one thread, one receiver that waits for something that only another receiver, of whichever instance,
could bring stops all receivers of all instances for ever. -/
theorem C107_single (m0 : σ) (ls : List (LockLabel σ)) (s : Locked σ)
    (h : (Locked.init 1 m0).run program ls = some s) (k r : Nat) (cond : σ → Bool) (next : Deed σ)
    (hw : s.running (.call k r) = some (.await cond next)) (hc : cond s.memory = false) (more : List (LockLabel σ))
    (hothers : ∀ i d, s.running (.outside i) = some d → Keeps cond d) (hbegun : ∀ d ∈ begunIn more, Keeps cond d)
    (s' : Locked σ) (h' : s.run program more = some s') (j : Nat) (m' : RMember)
    (hm' : s'.pool.workers.members[j]? = some m') (i : Nat) :
    callsOf i m'.state.trace =
      match s.pool.workers.members[j]? with
      | some m => callsOf i m.state.trace
      | none => [] := by
  obtain ⟨ht, hg⟩ := Locked.good h
  have hat := (C107_running 1 m0 ls s h k r).mp (by rw [hw]; rfl)
  -- the only call
  have honly : ∀ k' r', (s.running (.call k' r')).isSome = true → Party.call k' r' = .call k r := by
    intro k' r' hk'
    obtain ⟨ts, hi, h1, h2⟩ := hat
    obtain ⟨ts', hi', h1', h2'⟩ := (C107_running 1 m0 ls s h k' r').mp hk'
    obtain ⟨w, hw⟩ := hg.run k ts h1 _ h2 rfl
    obtain ⟨w', hw'⟩ := hg.run k' ts' h1' _ h2' rfl
    have e1 := hg.stacks.owner _ hw
    have e2 := hg.stacks.owner _ hw'
    have htop := Workers.top_of_mem hg.stacks hw rfl
    have htop' := Workers.top_of_mem hg.stacks hw' rfl
    have : w = w' := by
      simp only [ht] at e1 e2
      omega
    subst this
    rw [htop] at htop'
    simp only [Task.stop, Option.some.injEq, Frame.leaf.injEq] at htop'
    obtain ⟨rfl, rfl⟩ := htop'
    rw [h1] at h1'
    cases h1'
    have := eq_of_nodup_map (hg.tasks k ts h1).nodup h2 h2' rfl
    cases this
    rfl
  have hcalls : s.pool.workers.calls = 1 := by
    have hle := C89_bound 1 _ _ (C105_refines 1 _ _ (C107_refines 1 m0 ls s h))
    have hge : 1 ≤ s.pool.workers.calls := by
      obtain ⟨ts, hi, h1, h2⟩ := hat
      obtain ⟨m, e, p, a, pan, g1, g2⟩ := Workers.jobs_some h1
      have h3 : 1 ≤ m.state.calls := by
        rw [RState.calls_eq, ← Workers.jobs_of g1, h1]
        exact List.countP_pos_iff.mpr ⟨_, h2, rfl⟩
      have h4 : m.state.calls ≤ s.pool.workers.calls := by
        have hmem := List.mem_of_getElem? g1
        unfold Workers.calls
        generalize s.pool.workers.members = ms at hmem
        induction ms with
        | nil => cases hmem
        | cons x ms ih =>
          simp only [List.map_cons, List.sum_cons]
          rcases List.mem_cons.mp hmem with rfl | hmem
          · omega
          · have := ih hmem; omega
      omega
    omega
  refine C107_full 1 m0 ls s h hcalls (· = .call k r) honly more ?_ s' h' j m' hm' i
  rintro p rfl
  refine .inr ⟨cond, next, hw, hc, ?_, hbegun⟩
  intro p d hp hd
  cases p with
  | call k' r' => exact absurd (honly k' r' (by rw [hd]; rfl)) hp
  | outside i => exact hothers i d hd

/-! ## Examples -/

/-- Two receivers that may panic. -/
def nervousPair : Listener := ⟨[⟨fun _ _ => true, fun _ _ => []⟩, ⟨fun _ _ => true, fun _ _ => []⟩], 16⟩

/-- Lock `a`, then lock `b`, count, give both back; panic if the first lock is poisoned (`lock().unwrap()`). -/
def countUnder (a b : Nat) : Deed Nat :=
  .lock a fun bad => if bad then .panic else
    .lock b fun _ => .step (fun _ => .unlock b (.unlock a .done)) (· + 1)

theorem countUnder_orderly : Orderly [] (countUnder 0 1) := by
  refine ⟨by simp, fun b => ?_⟩
  cases b
  · refine ⟨by simp, fun _ _ => ?_⟩
    refine ⟨by simp, ?_⟩
    refine ⟨by simp, ?_⟩
    rfl
  · trivial

/-- Both receivers are called, on two threads; each takes its first lock if it can. -/
def bothCalled : List (LockLabel Nat) :=
  [.pool (.local (.launch nervousPair [plainDatagram])), .pool (.local (.io 0 .pollEvent)), .pool (.local (.io 0 .recv)),
   .pool (.local (.enter 0 0)), .pool (.local (.take 0 0 0 2)), .pool (.local (.split 0 0 0 2)),
   .pool (.local (.begin 0 0 0 1)), .pool (.steal 1 0 0 1 2), .pool (.local (.begin 1 0 1 2)),
   .pool (.local (.call 0 0 0 1)), .pool (.local (.call 1 0 1 2)), .go (.call 0 0)]

/-- Example: what C107 is about.  One receiver has a lock that the other one, and a thread of the application, wait for. -/
example : ∃ s, (Locked.init 2 0).run (fun _ _ _ _ => countUnder 0 1) (bothCalled ++ [.begin 7 (countUnder 0 1)]) = some s ∧
    Disciplined (fun _ _ _ _ => countUnder 0 1) (bothCalled ++ [.begin 7 (countUnder 0 1)]) ∧
    (∀ l ∈ startedIn (bothCalled ++ [.begin 7 (countUnder 0 1)]), MayPanic l) ∧
    s.owner 0 = some (.call 0 0) ∧ (s.running (.call 0 1)).isSome = true ∧ (s.running (.outside 7)).isSome = true ∧
    s.go (.call 0 1) = none ∧ s.go (.outside 7) = none := by
  have h : ((Locked.init 2 0).run (fun _ _ _ _ => countUnder 0 1) (bothCalled ++ [.begin 7 (countUnder 0 1)])).map
      (fun s => (s.owner 0, (s.running (.call 0 1)).isSome, (s.running (.outside 7)).isSome,
        (s.go (.call 0 1)).isSome, (s.go (.outside 7)).isSome)) =
      some (some (.call 0 0), true, true, false, false) := by decide +kernel
  obtain ⟨s, hs, hv⟩ := Option.map_eq_some_iff.mp h
  simp only [Prod.mk.injEq] at hv
  refine ⟨s, hs, ⟨fun _ _ _ _ => countUnder_orderly, ?_⟩, ?_, hv.1, hv.2.1, hv.2.2.1, ?_, ?_⟩
  · simp [bothCalled, begunIn, countUnder_orderly]
  · simp [bothCalled, startedIn, MayPanic, nervousPair]
  · exact Option.isSome_eq_false_iff.mp hv.2.2.2.1 |> Option.isNone_iff_eq_none.mp
  · exact Option.isSome_eq_false_iff.mp hv.2.2.2.2 |> Option.isNone_iff_eq_none.mp

/-- The receivers take the two locks in opposite orders. -/
def crosswise (_ r : Nat) (_ : Packet) (_ : Address) : Deed Nat := if r = 0 then countUnder 0 1 else countUnder 1 0

/-- What is awaited. -/
def Deed.wants : Option (Deed Nat) → Option Nat
  | some (.lock m _) => some m
  | _ => none

theorem Deed.wants_eq {d : Option (Deed Nat)} {m : Nat} (h : Deed.wants d = some m) : ∃ next, d = some (.lock m next) := by
  unfold Deed.wants at h
  split at h
  · cases h; exact ⟨_, rfl⟩
  · cases h

/-- C107. Without the common order this is not so: two receivers that take two locks in opposite orders can stop each other, and the
instance, for ever. -/
theorem C107_cross : ∃ ls s, (Locked.init 2 0).run crosswise ls = some s ∧
    (∀ k r p a, ∃ a' b, a' ≠ b ∧ crosswise k r p a = countUnder a' b) ∧
    ∀ more s', s.run crosswise more = some s' → ∃ m m', s.pool.workers.members[0]? = some m ∧
      s'.pool.workers.members[0]? = some m' ∧ m'.state.jobs.isSome = true ∧
      takenIn m'.state.trace = takenIn m.state.trace ∧ (takenIn m'.state.trace).length = 1 := by
  have h : ((Locked.init 2 0).run crosswise (bothCalled ++ [.go (.call 0 1)])).map
      (fun s => (Deed.wants (s.running (.call 0 0)), s.owner 1, Deed.wants (s.running (.call 0 1)), s.owner 0,
        s.pool.workers.members.map fun m => (takenIn m.state.trace).length)) =
      some (some 1, some (.call 0 1), some 0, some (.call 0 0), [1]) := by decide +kernel
  obtain ⟨s, hs, hv⟩ := Option.map_eq_some_iff.mp h
  simp only [Prod.mk.injEq] at hv
  obtain ⟨v1, v2, v3, v4, v5⟩ := hv
  refine ⟨_, s, hs, ?_, ?_⟩
  · intro k r p a
    unfold crosswise
    split
    · exact ⟨0, 1, by decide, rfl⟩
    · exact ⟨1, 0, by decide, rfl⟩
  intro more s' h'
  obtain ⟨_, hk⟩ := C107_knot 2 0 _ s hs (fun p => p = .call 0 0 ∨ p = .call 0 1) more (by
    rintro p (rfl | rfl)
    · obtain ⟨next, e⟩ := Deed.wants_eq v1
      exact .inl ⟨1, next, _, e, v2, .inr rfl⟩
    · obtain ⟨next, e⟩ := Deed.wants_eq v3
      exact .inl ⟨0, next, _, e, v4, .inl rfl⟩) s' h'
  obtain ⟨m, m', g1, g2, g3, g4⟩ := hk 0 0 (.inl rfl)
  refine ⟨m, m', g1, g2, g3, g4, ?_⟩
  rw [g4]
  have := congrArg (fun l : List Nat => l[0]?) v5
  simpa [g1] using this

/-- A receiver that waits until the counter is one; the other one counts. -/
def handshake (_ r : Nat) (_ : Packet) (_ : Address) : Deed Nat :=
  if r = 0 then .await (fun n => decide (1 ≤ n)) .done else .step (fun _ => .done) (· + 1)

/-- What is awaited is not so. -/
def Locked.waiting (s : Locked Nat) (p : Party) : Bool :=
  match s.running p with
  | some (.await c _) => !c s.memory
  | _ => false

theorem Locked.waiting_eq {s : Locked Nat} {p : Party} (h : s.waiting p = true) :
    ∃ c next, s.running p = some (.await c next) ∧ c s.memory = false := by
  unfold Locked.waiting at h
  split at h
  · rename_i c next e; exact ⟨c, next, e, by simpa using h⟩
  · cases h

/-- One thread: the first receiver waits for the second one, whose turn never comes. -/
def firstCalled : List (LockLabel Nat) :=
  [.pool (.local (.launch nervousPair [plainDatagram])), .pool (.local (.io 0 .pollEvent)), .pool (.local (.io 0 .recv)),
   .pool (.local (.enter 0 0)), .pool (.local (.take 0 0 0 2)), .pool (.local (.split 0 0 0 2)),
   .pool (.local (.begin 0 0 0 1)), .pool (.local (.call 0 0 0 1))]

/-- Two threads: the second one calls the other receiver, and the first one goes on. -/
def secondCalled : List (LockLabel Nat) :=
  firstCalled ++ [.pool (.steal 1 0 0 1 2), .pool (.local (.begin 1 0 1 2)), .pool (.local (.call 1 0 1 2)),
    .go (.call 0 1), .go (.call 0 0), .pool (.local (.finish 0 0 0 1)), .pool (.local (.finish 1 0 1 2)),
    .pool (.local (.done 0 0 1)), .pool (.local (.done 1 0 2)), .pool (.local (.resume 0 0 1 2)), .pool (.local (.exit 0 0))]

/-- C107. How many threads the pool has decides: receivers that meet each other are called and return with two threads; with one thread
the second one is never called, in no way on in which no thread of the application interferes. -/
theorem C107_meet :
    (∃ s, (Locked.init 2 0).run handshake secondCalled = some s ∧
      (s.pool.workers.members.map fun m => (returnsOf 0 m.state.trace, returnsOf 1 m.state.trace)) = [(1, 1)]) ∧
    ∃ s, (Locked.init 1 0).run handshake firstCalled = some s ∧
      ∀ more s', begunIn more = [] → s.run handshake more = some s' →
        ∀ m', s'.pool.workers.members[0]? = some m' → callsOf 1 m'.state.trace = [] := by
  constructor
  · have h : ((Locked.init 2 0).run handshake secondCalled).map (fun s => s.pool.workers.members.map fun m =>
      (returnsOf 0 m.state.trace, returnsOf 1 m.state.trace)) = some [(1, 1)] := by decide +kernel
    exact Option.map_eq_some_iff.mp h
  · have h : ((Locked.init 1 0).run handshake firstCalled).map (fun s => (s.waiting (.call 0 0),
      s.pool.workers.members.map fun m => (callsOf 1 m.state.trace).length)) = some (true, [0]) := by decide +kernel
    obtain ⟨s, hs, hv⟩ := Option.map_eq_some_iff.mp h
    simp only [Prod.mk.injEq] at hv
    refine ⟨s, hs, ?_⟩
    intro more s' hb h' m' hm'
    obtain ⟨c, next, hw, hc⟩ := Locked.waiting_eq hv.1
    rw [C107_single 0 firstCalled s hs 0 0 c next hw hc more ?_ (by rw [hb]; simp) s' h' 0 m' hm' 1]
    · have := congrArg (fun l : List Nat => l[0]?) hv.2
      cases hm : s.pool.workers.members[0]? with
      | none => rfl
      | some m =>
        simp only [List.getElem?_map, hm, Option.map_some] at this
        simpa using this
    · intro i d hd
      exfalso
      have : ∀ (ls : List (LockLabel Nat)) (s : Locked Nat), (Locked.init 1 0).run handshake ls = some s →
          begunIn ls = [] → ∀ i, s.running (.outside i) = none := by
        refine Locked.run_induction (Locked.init 1 0) (fun ls s => begunIn ls = [] → ∀ i, s.running (.outside i) = none)
          (fun _ _ => rfl) ?_
        intro ls s x s' hr ih hx hb i
        rw [begunIn_append, List.append_eq_nil_iff] at hb
        have ih := ih hb.1 i
        rcases Locked.step_effect hr hx with ⟨p, hg⟩ | ⟨p, d, f1, f2, _, _, f5⟩ | ⟨p, d, f1, f2, f3, _⟩ | ⟨f1, _⟩
        · rw [(Locked.go_effect hg).1, ih]
          rintro rfl
          simp [Locked.go, ih] at hg
        · rcases f5 with ⟨i', rfl, _⟩ | ⟨w, k, r, hi, _, _, _, rfl, _⟩
          · simp [begunIn] at hb
          · rw [f2]
            simpa using ih
        · rw [f3]
          dsimp only
          split
          · rfl
          · exact ih
        · rw [f1]; exact ih
      rw [this _ s hs rfl i] at hd
      cases hd

/-- A receiver that, on a first message, waits for a second one. -/
def twoMessages (_ _ : Nat) (p : Packet) (_ : Address) : Deed Nat :=
  if p.bytes = [1, 2, 3] then .await (fun n => decide (1 ≤ n)) .done else .step (fun _ => .done) (· + 1)

/-- The first message is there, the second one is queued. -/
def firstMessage : List (LockLabel Nat) :=
  [.pool (.local (.launch nervousPair [plainDatagram, ⟨[4, 5, 6], .v4 127 0 0 1 8090⟩])), .pool (.local (.io 0 .pollEvent)),
   .pool (.local (.io 0 .recv)), .pool (.local (.enter 0 0)), .pool (.local (.take 0 0 0 2)),
   .pool (.local (.split 0 0 0 2)), .pool (.local (.begin 0 0 0 1)), .pool (.local (.call 0 0 0 1))]

/-- Example: what C107_wait is about.  The second message would do, but is never taken, with however many threads. -/
example : ∃ s c next, (Locked.init 3 0).run twoMessages firstMessage = some s ∧
    s.running (.call 0 0) = some (.await c next) ∧ c s.memory = false ∧
    (s.pool.workers.members.map fun m => m.state.queue.map (·.bytes)) = [[[4, 5, 6]]] ∧
    (∀ i p a, s.pool.workers.packet 0 = some (p, a) → ∃ next', twoMessages 0 i p a = .await c next') ∧
    ∃ f : Nat → Nat, ∀ i a, twoMessages 0 i ⟨[4, 5, 6]⟩ a = .step (fun _ => .done) f ∧ c (f s.memory) = true := by
  have h : ((Locked.init 3 0).run twoMessages firstMessage).map (fun s =>
      (s.memory, s.pool.workers.members.map fun m => m.state.queue.map (·.bytes))) =
      some (0, [[[4, 5, 6]]]) := by decide +kernel
  have h1 : ((Locked.init 3 0).run twoMessages firstMessage).map (fun s =>
      (s.pool.workers.packet 0).map (·.1.bytes)) = some (some [1, 2, 3]) := by decide +kernel
  have h2 : ((Locked.init 3 0).run twoMessages firstMessage).map (fun s => s.running (.call 0 0)) =
      some (some (.await (fun n => decide (1 ≤ n)) .done)) := rfl
  obtain ⟨s, hs, hv⟩ := Option.map_eq_some_iff.mp h
  simp only [Prod.mk.injEq] at hv
  rw [hs] at h1 h2
  simp only [Option.map_some, Option.some.injEq] at h1 h2
  refine ⟨s, _, _, hs, h2, ?_, hv.2, ?_, (· + 1), ?_⟩
  · simp [hv.1]
  · intro i p a hp
    rw [hp] at h1
    simp only [Option.map_some, Option.some.injEq] at h1
    exact ⟨.done, by simp [twoMessages, h1]⟩
  · intro i a
    exact ⟨rfl, by simp⟩

/-! ## What a lock is -/

/-- C107. A lock changes hands in no other way than this: who takes it found it free; who had it gives it back, or panics, which poisons
it; and nothing else poisons a lock, or heals it. -/
theorem C107_owner (s s' : Locked σ) (x : LockLabel σ) (hx : s.step program x = some s') (m : Nat) :
    (s'.owner m = s.owner m ∧ s'.poisoned m = s.poisoned m) ∨
    (∃ p next, x = .go p ∧ s.running p = some (.lock m next) ∧ s.owner m = none ∧ s'.owner m = some p ∧
      s'.poisoned m = s.poisoned m ∧ s'.running p = some (next (s.poisoned m)) ∧ s'.memory = s.memory) ∨
    (∃ p next, x = .go p ∧ s.running p = some (.unlock m next) ∧ s.owner m = some p ∧ s'.owner m = none ∧
      s'.poisoned m = s.poisoned m) ∨
    ∃ p, s.running p = some .panic ∧ s'.running p = none ∧ s.owner m = some p ∧ s'.owner m = none ∧
      s'.poisoned m = true := by
  have hun : ∀ p, s.running p = some .panic →
      ((s.unwind p).owner m = s.owner m ∧ (s.unwind p).poisoned m = s.poisoned m) ∨
      ((s.unwind p).running p = none ∧ s.owner m = some p ∧ (s.unwind p).owner m = none ∧ (s.unwind p).poisoned m = true) := by
    intro p _
    by_cases ho : s.owner m = some p
    · exact .inr (by simp [Locked.unwind, ho])
    · exact .inl (by simp [Locked.unwind, ho])
  cases x with
  | go p =>
    simp only [Locked.step, Locked.go] at hx
    split at hx
    · cases hx; exact .inl ⟨rfl, rfl⟩
    · rename_i i next hd
      split at hx
      · rename_i ho
        cases hx
        by_cases hi : m = i
        · subst hi
          exact .inr (.inl ⟨p, next, rfl, hd, ho, by simp, rfl, by simp [Locked.set], rfl⟩)
        · exact .inl ⟨by simp [hi], rfl⟩
      · cases hx
    · rename_i i next hd
      split at hx
      · rename_i ho
        cases hx
        by_cases hi : m = i
        · subst hi
          exact .inr (.inr (.inl ⟨p, next, rfl, hd, ho, by simp, rfl⟩))
        · exact .inl ⟨by simp [hi], rfl⟩
      · cases hx
    · split at hx
      · cases hx; exact .inl ⟨rfl, rfl⟩
      · cases hx
    · cases hx
  | begin i d =>
    simp only [Locked.step] at hx
    split at hx
    · cases hx; exact .inl ⟨rfl, rfl⟩
    · cases hx
  | leave i =>
    simp only [Locked.step] at hx
    split at hx
    · cases hx; exact .inl ⟨rfl, rfl⟩
    · rename_i hn
      cases hx
      rcases hun _ hn with h | ⟨h1, h2, h3, h4⟩
      · exact .inl h
      · exact .inr (.inr (.inr ⟨_, hn, h1, h2, h3, h4⟩))
    · cases hx
  | pool x =>
    obtain ⟨t, h1, h2, h3⟩ := Locked.step_pool hx
    have e1 : s'.owner = t.owner := by rw [h3]
    have e2 : s'.poisoned = t.poisoned := by rw [h3]
    have e3 : s'.running = t.running := by rw [h3]
    have e4 : s'.memory = t.memory := by rw [h3]
    rw [e1, e2, e3, e4]
    cases x with
    | steal w v k lo hi =>
      simp only [Locked.follow, Option.some.injEq] at h2
      subst h2
      exact .inl ⟨rfl, rfl⟩
    | «local» x =>
      cases x with
      | call w k r hi =>
        simp only [Locked.follow] at h2
        split at h2
        · cases h2; exact .inl ⟨rfl, rfl⟩
        · cases h2
      | finish w k r hi =>
        simp only [Locked.follow] at h2
        split at h2
        · cases h2; exact .inl ⟨rfl, rfl⟩
        · cases h2
      | crash w k r hi =>
        simp only [Locked.follow] at h2
        split at h2
        · rename_i hn
          cases h2
          rcases hun _ hn with h | ⟨h1, h2, h3, h4⟩
          · exact .inl h
          · exact .inr (.inr (.inr ⟨_, hn, h1, h2, h3, h4⟩))
        · cases h2
      | _ =>
        simp only [Locked.follow, Option.some.injEq] at h2
        subst h2
        exact .inl ⟨rfl, rfl⟩

/-! ## Cases for the theorems above -/

/-- `C107_rest` and `C107_ends`: that state can be worked off, and must be. -/
example (s : Locked Nat) (h : (Locked.init 2 0).run (fun _ _ _ _ => countUnder 0 1) (bothCalled ++ [.begin 7 (countUnder 0 1)]) = some s)
    (hd : Disciplined (fun _ _ _ _ => countUnder 0 1) (bothCalled ++ [.begin 7 (countUnder 0 1)]))
    (hp : ∀ l ∈ startedIn (bothCalled ++ [.begin 7 (countUnder 0 1)]), MayPanic l) :
    (∃ more s', (∀ x ∈ more, Inward x) ∧ s.run (fun _ _ _ _ => countUnder 0 1) more = some s') ∧
    ¬ ∃ f : Nat → Locked Nat, f 0 = s ∧ ∀ i, ∃ x, Inward x ∧ (f i).step (fun _ _ _ _ => countUnder 0 1) x = some (f (i + 1)) := by
  obtain ⟨more, s', h1, h2, -⟩ := C107_rest 2 (by decide) 0 _ s h hd hp
  exact ⟨⟨more, s', h1, h2⟩, C107_ends 2 0 _ s h⟩

/-- `C107_owner`: the lock of the receiver that has it changes hands only when that receiver gives it back. -/
example (s s' : Locked Nat) (ho : s.owner 0 = some (.call 0 0)) (next : Deed Nat)
    (hr : s.running (.call 0 0) = some (.unlock 0 next))
    (hx : s.step (fun _ _ _ _ => countUnder 0 1) (.go (.call 0 1)) = some s') :
    s'.owner 0 = s.owner 0 := by
  rcases C107_owner s s' _ hx 0 with h | ⟨p, n, -, -, h, -⟩ | ⟨p, n, h1, -, h2, -⟩ | ⟨p, h1, -, h2, -⟩
  · exact h.1
  · rw [ho] at h
    cases h
  · cases h1
    rw [ho] at h2
    cases h2
  · rw [ho] at h2
    cases h2
    rw [hr] at h1
    cases h1

/-- `C107_full` (`C107_knot` and `C107_single` are used in `C107_cross` and `C107_meet`): both threads are in receivers that wait for each other's lock; no receiver is called any more. -/
example (s : Locked Nat) (h : (Locked.init 2 0).run crosswise (bothCalled ++ [.go (.call 0 1)]) = some s)
    (hcalls : ∀ k r, (s.running (.call k r)).isSome = true → k = 0 ∧ (r = 0 ∨ r = 1))
    (more : List (LockLabel Nat)) (s' : Locked Nat) (h' : s.run crosswise more = some s') (m m' : RMember)
    (hm : s.pool.workers.members[0]? = some m) (hm' : s'.pool.workers.members[0]? = some m') (r : Nat) :
    callsOf r m'.state.trace = callsOf r m.state.trace := by
  have hv : s.pool.workers.calls = 2 ∧ Deed.wants (s.running (.call 0 0)) = some 1 ∧ s.owner 1 = some (.call 0 1) ∧
      Deed.wants (s.running (.call 0 1)) = some 0 ∧ s.owner 0 = some (.call 0 0) := by
    cases h
    decide +kernel
  obtain ⟨v1, v2, v3, v4, v5⟩ := hv
  have := C107_full 2 0 _ s h v1 (fun p => p = .call 0 0 ∨ p = .call 0 1) (by
    intro k r hr
    obtain ⟨rfl, rfl | rfl⟩ := hcalls k r hr
    · exact .inl rfl
    · exact .inr rfl) more (by
    rintro p (rfl | rfl)
    · obtain ⟨next, e⟩ := Deed.wants_eq v2
      exact .inl ⟨1, next, _, e, v3, .inr rfl⟩
    · obtain ⟨next, e⟩ := Deed.wants_eq v4
      exact .inl ⟨0, next, _, e, v5, .inl rfl⟩) s' h' 0 m' hm' r
  rw [hm] at this
  exact this

/-- `C107_stuck`: when the receivers of `bothCalled` are done and everything is at rest, nothing is left. -/
example (more : List (LockLabel Nat)) (hm : more = [.go (.call 0 0), .go (.call 0 0), .go (.call 0 0), .go (.call 0 0)])
    (s : Locked Nat) (h : (Locked.init 2 0).run (fun _ _ _ _ => countUnder 0 1) (bothCalled ++ more) = some s) :
    ¬ ∀ x, Inward x → s.step (fun _ _ _ _ => countUnder 0 1) x = none := by
  subst hm
  intro hs
  have := (C107_stuck 2 (by decide) 0 _ s h ⟨fun _ _ _ _ => countUnder_orderly, by simp [bothCalled, begunIn]⟩
    (by simp [bothCalled, startedIn, MayPanic, nervousPair]) hs).1 (.call 0 1)
  have hr : (s.running (.call 0 1)).isSome = true := by
    cases h
    decide +kernel
  rw [this] at hr
  cases hr

end Ipv8
