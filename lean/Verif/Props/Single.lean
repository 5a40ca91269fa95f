import Verif.Props.Nested
/-!
# Property C110: a pool of one thread
-/

namespace Ipv8
open Spec

variable {σ : Type}

namespace Spec

/-- These locks are poisoned now. -/
def poisonAll {σ : Type} (held : List Nat) (st : σ × (Nat → Bool)) : σ × (Nat → Bool) :=
  (st.1, fun m => if m ∈ held then true else st.2 m)

/-- What one thread does that has nothing else to do: the memory and the poisoned locks afterwards, and whether it returned.  There is no
pool here: the halves of a join are done one after the other, the second one also if the first panics. -/
def plainly {σ : Type} : List Nat → Chore σ → σ × (Nat → Bool) → (σ × (Nat → Bool)) × Bool
  | _, .done, st => (st, true)
  | held, .panic, st => (poisonAll held st, false)
  | held, .step next change, st => plainly held (next st.1) (change st.1, st.2)
  | held, .lock m next, st => plainly (m :: held) (next (st.2 m)) st
  | held, .unlock m next, st => plainly (held.erase m) next st
  | held, .both a b next, st =>
    let p := plainly [] a st
    let q := plainly [] b p.1
    if p.2 && q.2 then plainly held next q.1 else (poisonAll held q.1, false)
  | held, .spawn c next, st =>
    let p := plainly [] c st
    if p.2 then plainly held next p.1 else (poisonAll held p.1, false)

/-- The same for several things, one after the other, and whether each of them returned. -/
def plainInTurn {σ : Type} : List (Chore σ) → σ × (Nat → Bool) → (σ × (Nat → Bool)) × List Bool
  | [], st => (st, [])
  | c :: cs, st =>
    let p := plainly [] c st
    let q := plainInTurn cs p.1
    (q.1, p.2 :: q.2)

/-- Nobody takes a lock that he has already, or that is held by somebody who waits for him (`above`); locks are given back only by who has
them, and none is kept.  There is no order of locks, and they may be held while waiting. -/
def Nestable {σ : Type} : List Nat → List Nat → Chore σ → Prop
  | _, held, .done => held = []
  | _, _, .panic => True
  | above, held, .step next _ => ∀ v, Nestable above held (next v)
  | above, held, .lock m next => m ∉ held ∧ m ∉ above ∧ ∀ b, Nestable above (m :: held) (next b)
  | above, held, .unlock m next => m ∈ held ∧ Nestable above (held.erase m) next
  | above, held, .both a b next =>
    Nestable (held ++ above) [] a ∧ Nestable (held ++ above) [] b ∧ Nestable above held next
  | above, held, .spawn c next => Nestable (held ++ above) [] c ∧ Nestable above held next

/-- What threads outside the pool do here: they have things done by the pool, one after the other, and wait for each. -/
def Delegates {σ : Type} : Chore σ → Prop
  | .done => True
  | .panic => True
  | .both a b next => Nestable [] [] a ∧ Nestable [] [] b ∧ Delegates next
  | .spawn c next => Nestable [] [] c ∧ Delegates next
  | _ => False

/-- These are hand-overs of packets as listening threads begin them; the calls of the receivers of each are given. -/
def Packets {σ : Type} : List (List (Chore σ)) → List (Chore σ) → Prop
  | [], [] => True
  | calls :: ps, c :: cs => (∃ t, c = .spawn t .done ∧ HandsOver calls t) ∧ Packets ps cs
  | _, _ => False

/-- What is put into the pool from outside in this step. -/
def putNow {σ : Type} (s : Nested σ) : NestLabel σ → List (Chore σ)
  | .go w =>
    if s.threads ≤ w then
      match s.stack w with
      | i :: _ =>
        match s.jobs[i]? with
        | some (.running (.both a b _) []) => [.both a b .done]
        | some (.running (.spawn c _) []) => [.spawn c .done]
        | _ => []
      | [] => []
    else []
  | _ => []

/-- Of that, what a thread of the pool begins with in this step: which job, and what it does. -/
def takenNow {σ : Type} (s : Nested σ) : NestLabel σ → List (Nat × Chore σ)
  | .take _ none =>
    match s.injector with
    | j :: _ =>
      match s.jobs[j]? with
      | some (.queued c) => [(j, c)]
      | _ => []
    | [] => []
  | _ => []

/-- What there is in the steps of an execution, one after the other. -/
def along {σ α : Type} (f : Nested σ → NestLabel σ → List α) (s : Nested σ) : List (NestLabel σ) → List α
  | [] => []
  | x :: ls =>
    f s x ++
      match s.step x with
      | some s' => along f s' ls
      | none => []

end Spec

theorem along_snoc {α : Type} (f : Nested σ → NestLabel σ → List α) (s s' : Nested σ) (ls : List (NestLabel σ)) (x : NestLabel σ)
    (h : s.run ls = some s') : along f s (ls ++ [x]) = along f s ls ++ f s' x := by
  induction ls generalizing s with
  | nil =>
    cases h
    simp only [List.nil_append, along]
    cases s'.step x <;> simp
  | cons y ls ih =>
    simp only [Nested.run] at h
    simp only [List.cons_append, along]
    cases hs : s.step y with
    | none => rw [hs] at h; cases h
    | some t =>
      rw [hs] at h
      simp only [ih t h, List.append_assoc]

/-! ## First come, first served -/

/-- The jobs at these indices are in a queue, with these things to do. -/
private def Waiting (s : Nested σ) : List Nat → List (Chore σ) → Prop
  | [], [] => True
  | j :: js, c :: cs => s.jobs[j]? = some (.queued c) ∧ Waiting s js cs
  | _, _ => False

private theorem Waiting.mono {s s' : Nested σ} {js : List Nat} {cs : List (Chore σ)} (h : Waiting s js cs)
    (hj : ∀ j ∈ js, s'.jobs[j]? = s.jobs[j]?) : Waiting s' js cs := by
  induction js generalizing cs with
  | nil => cases cs <;> exact h
  | cons j js ih =>
    cases cs with
    | nil => exact h
    | cons c cs =>
      exact ⟨by rw [hj j List.mem_cons_self]; exact h.1, ih h.2 fun k hk => hj k (List.mem_cons_of_mem _ hk)⟩

private theorem Waiting.add {s : Nested σ} {js : List Nat} {cs : List (Chore σ)} (h : Waiting s js cs) {j : Nat} {c : Chore σ}
    (hj : s.jobs[j]? = some (.queued c)) : Waiting s (js ++ [j]) (cs ++ [c]) := by
  induction js generalizing cs with
  | nil =>
    cases cs with
    | nil => exact ⟨hj, trivial⟩
    | cons => exact h.elim
  | cons k js ih =>
    cases cs with
    | nil => exact h.elim
    | cons d cs => exact ⟨h.1, ih h.2⟩

private theorem keep_set {α : Type} {l : List α} {i j : Nat} {q : α} (h : l[j]? = some q) (hne : j ≠ i) (y : α) :
    (l.set i y)[j]? = some q := by
  rw [List.getElem?_set, if_neg (Ne.symm hne), h]

private theorem keep_add {α : Type} {l : List α} {j : Nat} {q : α} (h : l[j]? = some q) (more : List α) :
    (l ++ more)[j]? = some q := by
  have : j < l.length := (List.getElem?_eq_some_iff.mp h).1
  rw [List.getElem?_append_left this, h]

/-- A job that is not run by anybody stays as it is when a thread goes on. -/
private theorem go_keeps {s s' : Nested σ} {w : Nat} (hx : s.step (.go w) = some s') {j : Nat} {q : JobState σ}
    (hj : s.jobs[j]? = some q) (hne : ∀ rest, s.stack w ≠ j :: rest) : s'.jobs[j]? = some q := by
  simp only [Nested.step, Nested.go] at hx
  split at hx
  · cases hx
  rename_i i rest hs
  have hij : j ≠ i := fun e => hne rest (by rw [hs, e])
  split at hx
  · rename_i c hi
    cases c with
    | done => simp only [Nested.advance, Option.some.injEq] at hx; subst hx; exact keep_set hj hij _
    | panic => simp only [Nested.advance, Option.some.injEq] at hx; subst hx; exact keep_set hj hij _
    | step => simp only [Nested.advance, Option.some.injEq] at hx; subst hx; exact keep_set hj hij _
    | lock m next =>
      simp only [Nested.advance] at hx
      split at hx
      · cases hx; exact keep_set hj hij _
      · cases hx
    | unlock m next =>
      simp only [Nested.advance] at hx
      split at hx
      · cases hx; exact keep_set hj hij _
      · cases hx
    | both a b next =>
      simp only [Nested.advance] at hx
      split at hx <;> (cases hx; exact keep_add (keep_set hj hij _) _)
    | spawn c next =>
      simp only [Nested.advance] at hx
      split at hx <;> (cases hx; exact keep_add (keep_set hj hij _) _)
  · split at hx
    · cases hx; exact keep_set hj hij _
    · cases hx
  · cases hx

/-- What the queue from outside is after a step. -/
private theorem waiting_step {s s' : Nested σ} {x : NestLabel σ} (hg : NestSound s) (hx : s.step x = some s') {cs : List (Chore σ)}
    (h : Waiting s s.injector cs) : ∃ cs', Waiting s' s'.injector cs' ∧ cs ++ putNow s x = (takenNow s x).map Prod.snd ++ cs' := by
  have hqueued : ∀ j ∈ s.injector, ∃ q, s.jobs[j]? = some (.queued q) := fun j hj => (hg.queued j).mpr ⟨none, hj⟩
  cases x with
  | begin w c =>
    simp only [Nested.step] at hx
    split at hx
    · cases hx
      refine ⟨cs, h.mono fun j hj => ?_, by simp [putNow, takenNow]⟩
      obtain ⟨q, hq⟩ := hqueued j hj
      rw [hq]; exact keep_add hq _
    · cases hx
  | go w =>
    have hkeep : ∀ j ∈ s.injector, s'.jobs[j]? = s.jobs[j]? := by
      intro j hj
      obtain ⟨q, hq⟩ := hqueued j hj
      rw [hq]
      refine go_keeps hx hq fun rest hs => ?_
      obtain ⟨d, ws, hd⟩ := (hg.stacked j).mpr ⟨w, by rw [hs]; exact List.mem_cons_self⟩
      rw [hq] at hd; cases hd
    have hold := h.mono hkeep
    simp only [Nested.step, Nested.go] at hx
    split at hx
    · cases hx
    rename_i i rest hs
    simp only [putNow, takenNow, hs, List.map_nil, List.nil_append]
    split at hx
    · rename_i c hi
      have hil := Nested.lt_of hi
      simp only [hi]
      cases c with
      | done => simp only [Nested.advance, Option.some.injEq] at hx; subst hx; exact ⟨cs, hold, by simp⟩
      | panic => simp only [Nested.advance, Option.some.injEq] at hx; subst hx; exact ⟨cs, hold, by simp⟩
      | step => simp only [Nested.advance, Option.some.injEq] at hx; subst hx; exact ⟨cs, hold, by simp⟩
      | lock m next =>
        simp only [Nested.advance] at hx
        split at hx
        · cases hx; exact ⟨cs, hold, by simp⟩
        · cases hx
      | unlock m next =>
        simp only [Nested.advance] at hx
        split at hx
        · cases hx; exact ⟨cs, hold, by simp⟩
        · cases hx
      | both a b next =>
        simp only [Nested.advance] at hx
        split at hx
        · cases hx; exact ⟨cs, hold, by simp; omega⟩
        · cases hx
          refine ⟨cs ++ [.both a b .done], hold.add ?_, by simp; omega⟩
          rw [nest_look_set_add hi]; simp; omega
      | spawn c next =>
        simp only [Nested.advance] at hx
        split at hx
        · cases hx; exact ⟨cs, hold, by simp; omega⟩
        · cases hx
          refine ⟨cs ++ [.spawn c .done], hold.add ?_, by simp; omega⟩
          rw [nest_look_set_add hi]; simp; omega
    · rename_i c j js hi
      split at hx
      · cases hx; exact ⟨cs, hold, by simp [hi]⟩
      · cases hx
    · cases hx
  | take w source =>
    simp only [Nested.step, Nested.take] at hx
    split at hx
    case isFalse => cases hx
    have other : ∀ j p, j ∈ s.place (some p) → ∀ k ∈ s.injector, k ≠ j := by
      rintro j p hj k hk rfl
      cases hg.oneQueue (some p) none k hj hk
    split at hx
    · rename_i j rest v hd
      split at hx
      case isFalse => cases hx
      simp only [Nested.start] at hx
      split at hx
      case h_2 => cases hx
      cases hx
      refine ⟨cs, h.mono fun k hk => ?_, by simp [putNow, takenNow]⟩
      obtain ⟨q, hq⟩ := hqueued k hk
      rw [hq]
      exact keep_set hq (other j w (by simp [Nested.place, hd]) k hk) _
    · cases hx
    · rename_i v hd
      split at hx
      case h_2 => cases hx
      rename_i j hlast
      simp only [Nested.start] at hx
      split at hx
      case h_2 => cases hx
      cases hx
      refine ⟨cs, h.mono fun k hk => ?_, by simp [putNow, takenNow]⟩
      obtain ⟨q, hq⟩ := hqueued k hk
      rw [hq]
      exact keep_set hq (other j v (by simpa [Nested.place] using List.mem_of_getLast? hlast) k hk) _
    · split at hx
      case h_2 => cases hx
      rename_i j rest hinj
      simp only [Nested.start] at hx
      split at hx
      case h_2 => cases hx
      rename_i c hj
      cases hx
      rw [hinj] at h
      cases cs with
      | nil => exact h.elim
      | cons d cs =>
        have hd : d = c := by
          have := h.1.symm.trans hj
          simpa using this
        subst hd
        refine ⟨cs, h.2.mono fun k hk => ?_, by simp [putNow, takenNow, hinj, hj]⟩
        obtain ⟨q, hq⟩ := hqueued k (by rw [hinj]; exact List.mem_cons_of_mem _ hk)
        rw [hq]
        refine keep_set hq ?_ _
        rintro rfl
        have := hg.nodupQueue none
        simp only [Nested.place, hinj, List.nodup_cons] at this
        exact this.1 hk

/-- C110. First come, first served, in pools of any size: what is put into the pool from outside is begun in this order, whoever it
comes from; nothing is left out and nothing is begun twice. -/
theorem C110_order (n : Nat) (m0 : σ) (ls : List (NestLabel σ)) (s : Nested σ) (h : (Nested.init n m0).run ls = some s) :
    ∃ cs, along putNow (Nested.init n m0) ls = (along takenNow (Nested.init n m0) ls).map Prod.snd ++ cs ∧ cs.length = s.injector.length := by
  have key : ∃ cs, Waiting s s.injector cs ∧
      along putNow (Nested.init n m0) ls = (along takenNow (Nested.init n m0) ls).map Prod.snd ++ cs := by
    refine Nested.run_induction (Nested.init n m0) (fun ls s => ∃ cs, Waiting s s.injector cs ∧
      along putNow (Nested.init n m0) ls = (along takenNow (Nested.init n m0) ls).map Prod.snd ++ cs) ⟨[], trivial, rfl⟩ ?_ ls s h
    rintro ls u x u' hu ⟨cs, h1, h2⟩ hx
    obtain ⟨cs', h3, h4⟩ := waiting_step (nest_sound hu).2 hx h1
    refine ⟨cs', h3, ?_⟩
    rw [along_snoc _ _ u _ _ hu, along_snoc _ _ u _ _ hu, h2, List.append_assoc, h4, List.map_append, List.append_assoc]
  obtain ⟨cs, h1, h2⟩ := key
  refine ⟨cs, h2, ?_⟩
  clear h2 h
  generalize s.injector = js at h1
  induction js generalizing cs with
  | nil => cases cs with
    | nil => rfl
    | cons => exact h1.elim
  | cons j js ih => cases cs with
    | nil => exact h1.elim
    | cons c cs => simp [ih cs h1.2]

/-! ## One thread -/

private abbrev Plain (σ : Type) := σ × (Nat → Bool)

/-- The job goes on with `c`, then comes `K`. -/
private def goOn (K : Bool → Plain σ → Plain σ × Bool) (held : List Nat) (c : Chore σ) (st : Plain σ) : Plain σ × Bool :=
  K (plainly held c st).2 (plainly held c st).1

/-- What it goes on with after it has waited. -/
private def thenNext (ok : Bool) (next : Chore σ) : Chore σ := if ok = true then next else .panic

private theorem goOn_both (K : Bool → Plain σ → Plain σ × Bool) (held : List Nat) (a b next : Chore σ) (st : Plain σ) :
    goOn K held (.both a b next) st =
      goOn (fun ok st => goOn K held (thenNext ((plainly [] b st).2 && ok) next) (plainly [] b st).1) [] a st := by
  simp only [goOn, plainly, thenNext]
  generalize plainly [] a st = p
  obtain ⟨st1, r1⟩ := p
  dsimp only
  generalize plainly [] b st1 = q
  obtain ⟨st2, r2⟩ := q
  cases r1 <;> cases r2 <;> rfl

private theorem goOn_spawn (K : Bool → Plain σ → Plain σ × Bool) (held : List Nat) (c next : Chore σ) (st : Plain σ) :
    goOn K held (.spawn c next) st = goOn K held (thenNext ((plainly [] c st).2 && true) next) (plainly [] c st).1 := by
  simp only [goOn, plainly, thenNext]
  generalize plainly [] c st = p
  obtain ⟨st1, r1⟩ := p
  cases r1 <;> rfl

/-- Job `i` has these locks. -/
private structure Has (s : Nested σ) (i : Nat) (held : List Nat) : Prop where
  nodup : held.Nodup
  mem : ∀ m, m ∈ held ↔ s.owner m = some i

/-- The stack and the queue below job `t`, the locks that are held there, and what will happen when `t` has ended. -/
private inductive Below (s : Nested σ) (root : Option Nat) : Nat → List Nat → List Nat → List Nat → (Bool → Plain σ → Plain σ × Bool) → Prop
  | root (t : Nat) (ht : root = some t) : Below s root t [] [] [] fun ok st => (st, ok)
  | last (t i : Nat) (ks rest D above held : List Nat) (K : Bool → Plain σ → Plain σ × Bool) (next : Chore σ) (r : Bool)
      (hi : s.jobs[i]? = some (.running next (t :: ks)))
      (hks : ∀ k ∈ ks, ∃ b, s.jobs[k]? = some (.ended b)) (hr : r = ks.all s.fine)
      (hB : Below s root i rest D above K) (hn : Nestable above held next) (hh : Has s i held) :
      Below s root t (i :: rest) D (held ++ above) fun ok st => goOn K held (thenNext (ok && r) next) st
  | first (t i jb : Nat) (rest D above held : List Nat) (K : Bool → Plain σ → Plain σ × Bool) (next b : Chore σ)
      (hi : s.jobs[i]? = some (.running next [jb, t])) (hb : s.jobs[jb]? = some (.queued b))
      (hB : Below s root i rest D above K) (hn : Nestable above held next) (hnb : Nestable (held ++ above) [] b) (hh : Has s i held) :
      Below s root t (i :: rest) (jb :: D) (held ++ above) fun ok st =>
        goOn K held (thenNext ((plainly [] b st).2 && ok) next) (plainly [] b st).1

/-- The thread with this stack and queue, and what will have happened when the stack is empty. -/
private inductive Doing (s : Nested σ) (root : Option Nat) : List Nat → List Nat → (Plain σ → Plain σ × Bool) → Prop
  | idle (r : Bool) (hr : ∀ t, root = some t → s.jobs[t]? = some (.ended r)) : Doing s root [] [] fun st => (st, r)
  | run (i : Nat) (rest D above held : List Nat) (K : Bool → Plain σ → Plain σ × Bool) (c : Chore σ)
      (hi : s.jobs[i]? = some (.running c [])) (hB : Below s root i rest D above K) (hn : Nestable above held c) (hh : Has s i held) :
      Doing s root (i :: rest) D (goOn K held c)
  | wait (i j : Nat) (ks rest D above held : List Nat) (K : Bool → Plain σ → Plain σ × Bool) (next q : Chore σ) (r : Bool)
      (hi : s.jobs[i]? = some (.running next (j :: ks))) (hj : s.jobs[j]? = some (.queued q))
      (hks : ∀ k ∈ ks, ∃ b, s.jobs[k]? = some (.ended b)) (hr : r = ks.all s.fine)
      (hB : Below s root i rest D above K) (hn : Nestable above held next) (hnq : Nestable (held ++ above) [] q) (hh : Has s i held) :
      Doing s root (i :: rest) (j :: D) fun st => goOn K held (thenNext ((plainly [] q st).2 && r) next) (plainly [] q st).1
  | over (i : Nat) (ws rest D above held : List Nat) (K : Bool → Plain σ → Plain σ × Bool) (next : Chore σ) (r : Bool)
      (hi : s.jobs[i]? = some (.running next ws)) (hne : ws ≠ [])
      (hws : ∀ k ∈ ws, ∃ b, s.jobs[k]? = some (.ended b)) (hr : r = ws.all s.fine)
      (hB : Below s root i rest D above K) (hn : Nestable above held next) (hh : Has s i held) :
      Doing s root (i :: rest) D (goOn K held (thenNext r next))

private theorem fine_of {s : Nested σ} {k : Nat} {b : Bool} (h : s.jobs[k]? = some (.ended b)) : s.fine k = b := by
  simp [Nested.fine, h]

private theorem all_fine {s s' : Nested σ} {ks : List Nat} (hks : ∀ k ∈ ks, ∃ b, s.jobs[k]? = some (.ended b))
    (he : ∀ (j : Nat) (b : Bool), s.jobs[j]? = some (.ended b) → s'.jobs[j]? = some (.ended b)) :
    (∀ k ∈ ks, ∃ b, s'.jobs[k]? = some (.ended b)) ∧ ks.all s.fine = ks.all s'.fine := by
  refine ⟨fun k hk => (hks k hk).imp fun b hb => he k b hb, ?_⟩
  induction ks with
  | nil => rfl
  | cons k ks ih =>
    obtain ⟨b, hb⟩ := hks k List.mem_cons_self
    simp only [List.all_cons, fine_of hb, fine_of (he k b hb), ih fun k hk => hks k (List.mem_cons_of_mem _ hk)]

private theorem Has.mono {s s' : Nested σ} {i : Nat} {held : List Nat} (h : Has s i held)
    (ho : ∀ m, s'.owner m = some i ↔ s.owner m = some i) : Has s' i held :=
  ⟨h.nodup, fun m => by rw [ho]; exact h.mem m⟩

private theorem Below.mono {s s' : Nested σ} {root : Option Nat} {t : Nat} {st D L : List Nat} {K : Bool → Plain σ → Plain σ × Bool} (h : Below s root t st D L K)
    (hst : ∀ j ∈ st, s'.jobs[j]? = s.jobs[j]?) (hD : ∀ j ∈ D, s'.jobs[j]? = s.jobs[j]?)
    (he : ∀ (j : Nat) (b : Bool), s.jobs[j]? = some (.ended b) → s'.jobs[j]? = some (.ended b))
    (ho : ∀ i ∈ st, ∀ m, s'.owner m = some i ↔ s.owner m = some i) : Below s' root t st D L K := by
  induction h with
  | root t ht => exact .root t ht
  | last t i ks rest D above held K next r hi hks hr hB hn hh ih =>
    obtain ⟨h1, h2⟩ := all_fine hks he
    exact .last t i ks rest D above held K next r (by rw [hst i List.mem_cons_self]; exact hi) h1 (by rw [hr, h2])
      (ih (fun j hj => hst j (List.mem_cons_of_mem _ hj)) hD fun j hj => ho j (List.mem_cons_of_mem _ hj)) hn
      (hh.mono (ho i List.mem_cons_self))
  | first t i jb rest D above held K next b hi hb hB hn hnb hh ih =>
    exact .first t i jb rest D above held K next b (by rw [hst i List.mem_cons_self]; exact hi)
      (by rw [hD jb List.mem_cons_self]; exact hb)
      (ih (fun j hj => hst j (List.mem_cons_of_mem _ hj)) (fun j hj => hD j (List.mem_cons_of_mem _ hj))
        fun j hj => ho j (List.mem_cons_of_mem _ hj)) hn hnb (hh.mono (ho i List.mem_cons_self))

private theorem Below.locks {s : Nested σ} {root : Option Nat} {t : Nat} {st D L : List Nat} {K : Bool → Plain σ → Plain σ × Bool} (h : Below s root t st D L K) {i m : Nat}
    (hi : i ∈ st) (ho : s.owner m = some i) : m ∈ L := by
  induction h with
  | root t _ => cases hi
  | last t k ks rest D above held K next r hk hks hr hB hn hh ih =>
    rcases List.mem_cons.mp hi with rfl | hi
    · exact List.mem_append_left _ ((hh.mem m).mpr ho)
    · exact List.mem_append_right _ (ih hi)
  | first t k jb rest D above held K next b hk hb hB hn hnb hh ih =>
    rcases List.mem_cons.mp hi with rfl | hi
    · exact List.mem_append_left _ ((hh.mem m).mpr ho)
    · exact List.mem_append_right _ (ih hi)

/-- If nothing of this thread changes. -/
private theorem Doing.mono {s s' : Nested σ} {root : Option Nat} {st D : List Nat} {F : Plain σ → Plain σ × Bool} (h : Doing s root st D F)
    (hst : ∀ j ∈ st, s'.jobs[j]? = s.jobs[j]?) (hD : ∀ j ∈ D, s'.jobs[j]? = s.jobs[j]?)
    (he : ∀ (j : Nat) (b : Bool), s.jobs[j]? = some (.ended b) → s'.jobs[j]? = some (.ended b))
    (ho : s'.owner = s.owner) : Doing s' root st D F := by
  have ho' : ∀ i m, s'.owner m = some i ↔ s.owner m = some i := fun i m => by rw [ho]
  cases h with
  | idle r hr => exact .idle r fun t ht => he t r (hr t ht)
  | run i rest D above held K c hi hB hn hh =>
    exact .run i rest D above held K c (by rw [hst i List.mem_cons_self]; exact hi)
      (hB.mono (fun j hj => hst j (List.mem_cons_of_mem _ hj)) hD he fun i _ => ho' i) hn (hh.mono (ho' i))
  | wait i j ks rest D above held K next q r hi hj hks hr hB hn hnq hh =>
    obtain ⟨h1, h2⟩ := all_fine hks he
    exact .wait i j ks rest D above held K next q r (by rw [hst i List.mem_cons_self]; exact hi)
      (by rw [hD j List.mem_cons_self]; exact hj) h1 (by rw [hr, h2])
      (hB.mono (fun j hj => hst j (List.mem_cons_of_mem _ hj)) (fun j hj => hD j (List.mem_cons_of_mem _ hj)) he fun i _ => ho' i)
      hn hnq (hh.mono (ho' i))
  | over i ws rest D above held K next r hi hne hws hr hB hn hh =>
    obtain ⟨h1, h2⟩ := all_fine hws he
    exact .over i ws rest D above held K next r (by rw [hst i List.mem_cons_self]; exact hi) hne h1 (by rw [hr, h2])
      (hB.mono (fun j hj => hst j (List.mem_cons_of_mem _ hj)) hD he fun i _ => ho' i) hn (hh.mono (ho' i))

/-- The innermost job has ended, with `b`, and is off the stack. -/
private theorem Below.pop {s s' : Nested σ} {root : Option Nat} {t : Nat} {st D L : List Nat} {K : Bool → Plain σ → Plain σ × Bool} (h : Below s root t st D L K)
    (hst : ∀ j ∈ st, s'.jobs[j]? = s.jobs[j]?) (hD : ∀ j ∈ D, s'.jobs[j]? = s.jobs[j]?)
    (he : ∀ (j : Nat) (b : Bool), s.jobs[j]? = some (.ended b) → s'.jobs[j]? = some (.ended b))
    (ho : ∀ i ∈ st, ∀ m, s'.owner m = some i ↔ s.owner m = some i) {b : Bool} (ht : s'.jobs[t]? = some (.ended b)) :
    Doing s' root st D (K b) := by
  have h' := h.mono hst hD he ho
  cases h' with
  | root t hroot =>
    refine .idle b fun t' ht' => ?_
    rw [hroot] at ht'
    cases ht'
    exact ht
  | last t i ks rest D above held K next r hi hks hr hB hn hh =>
    refine .over i (t :: ks) rest D above held K next (b && r) hi (by simp) ?_ (by simp [fine_of ht, hr]) hB hn hh
    intro k hk
    rcases List.mem_cons.mp hk with rfl | hk
    · exact ⟨b, ht⟩
    · exact hks k hk
  | first t i jb rest D above held K next q hi hb hB hn hnb hh =>
    refine .wait i jb [t] rest D above held K next q b hi hb ?_ (by simp [fine_of ht]) hB hn hnb hh
    intro k hk
    rw [List.mem_singleton.mp hk]
    exact ⟨b, ht⟩

/-- What holds of a pool of one thread; when its stack is empty memory and poisoned locks will be `target`. -/
private structure Serial (s : Nested σ) (root : Option Nat) (target : Plain σ × Bool) : Prop where
  threads : s.threads = 1
  doing : ∃ F, Doing s root (s.stack 0) (s.deque 0) F ∧ F (s.memory, s.poisoned) = target
  mine : ∀ m i, s.owner m = some i → i ∈ s.stack 0
  outside : ∀ w, 1 ≤ w → ∀ i ∈ s.stack w, ∃ (c : Chore σ) (ws : List Nat), s.jobs[i]? = some (.running c ws) ∧ Delegates c
  queue : ∀ j ∈ s.injector, ∃ c : Chore σ, s.jobs[j]? = some (.queued c) ∧ Nestable [] [] c

private theorem serial_init (m0 : σ) : Serial (Nested.init 1 m0) none ((m0, fun _ => false), true) where
  threads := rfl
  doing := ⟨_, .idle true (fun _ h => nomatch h), rfl⟩
  mine := by simp [Nested.init]
  outside := by simp [Nested.init]
  queue := by simp [Nested.init]

/-- If the thread of the pool does nothing. -/
private theorem Serial.quiet {s s' : Nested σ} {root : Option Nat} {target : Plain σ × Bool} (h : Serial s root target) (hg : NestSound s) (ht : s'.threads = s.threads)
    (hst : s'.stack 0 = s.stack 0) (hd : s'.deque 0 = s.deque 0) (hm : s'.memory = s.memory) (hp : s'.poisoned = s.poisoned)
    (ho : s'.owner = s.owner)
    (hj : ∀ (j : Nat) (q : JobState σ), s.jobs[j]? = some q → (∀ w, 1 ≤ w → j ∉ s.stack w) → s'.jobs[j]? = some q)
    (hout : ∀ w, 1 ≤ w → ∀ i ∈ s'.stack w, ∃ (c : Chore σ) (ws : List Nat), s'.jobs[i]? = some (.running c ws) ∧ Delegates c)
    (hq : ∀ j ∈ s'.injector, ∃ c : Chore σ, s'.jobs[j]? = some (.queued c) ∧ Nestable [] [] c) : Serial s' root target where
  threads := by rw [ht]; exact h.threads
  doing := by
    obtain ⟨F, hF, hv⟩ := h.doing
    refine ⟨F, ?_, by rw [hm, hp]; exact hv⟩
    rw [hst, hd]
    have hkeep : ∀ (j : Nat) (q : JobState σ), s.jobs[j]? = some q → (∀ c ws, q = .running c ws → j ∈ s.stack 0) →
        s'.jobs[j]? = some q := by
      intro j q hq hq'
      refine hj j q hq fun w hw hmem => ?_
      obtain ⟨c, ws, hc⟩ := (hg.stacked j).mpr ⟨w, hmem⟩
      rw [hq] at hc
      have := hg.one 0 w j (hq' c ws (Option.some.inj hc)) hmem
      omega
    refine hF.mono ?_ ?_ ?_ ho
    · intro j hmem
      obtain ⟨c, ws, hc⟩ := (hg.stacked j).mpr ⟨0, hmem⟩
      rw [hc]
      exact hkeep j _ hc fun _ _ _ => hmem
    · intro j hmem
      obtain ⟨c, hc⟩ := (hg.queued j).mpr ⟨some 0, hmem⟩
      rw [hc]
      exact hkeep j _ hc fun _ _ e => by cases e
    · intro j b hb
      exact hkeep j _ hb fun _ _ e => by cases e
  mine := by rw [ho, hst]; exact h.mine
  outside := hout
  queue := hq

/-- If only the thread of the pool does something. -/
private theorem Serial.own {s s' : Nested σ} {root root' : Option Nat} {target target' : Plain σ × Bool} (h : Serial s root target) (ht : s'.threads = s.threads)
    (hdo : ∃ F, Doing s' root' (s'.stack 0) (s'.deque 0) F ∧ F (s'.memory, s'.poisoned) = target')
    (hmine : ∀ m i, s'.owner m = some i → i ∈ s'.stack 0)
    (hst : ∀ w, 1 ≤ w → s'.stack w = s.stack w) (hinj : ∀ j ∈ s'.injector, j ∈ s.injector)
    (hj : ∀ (j : Nat) (q : JobState σ), s.jobs[j]? = some q → (∀ w, 1 ≤ w → j ∈ s.stack w → s'.jobs[j]? = some q) ∧
      (j ∈ s'.injector → s'.jobs[j]? = some q)) : Serial s' root' target' where
  threads := by rw [ht]; exact h.threads
  doing := hdo
  mine := hmine
  outside := by
    intro w hw i hi
    rw [hst w hw] at hi
    obtain ⟨c, ws, hc, hd⟩ := h.outside w hw i hi
    exact ⟨c, ws, (hj i _ hc).1 w hw hi, hd⟩
  queue := by
    intro j hmem
    obtain ⟨c, hc, hn⟩ := h.queue j (hinj j hmem)
    exact ⟨c, (hj j _ hc).2 hmem, hn⟩

/-- A thread outside goes on. -/
private theorem serial_go_out {s s' : Nested σ} {root : Option Nat} {target : Plain σ × Bool} {w : Nat} (h : Serial s root target) (hg : NestSound s) (hw : 1 ≤ w)
    (hx : s.step (.go w) = some s') : Serial s' root target := by
  have hth := h.threads
  have hx' := hx
  simp only [Nested.step, Nested.go] at hx
  split at hx
  · cases hx
  rename_i i rest hs
  have himem : i ∈ s.stack w := by rw [hs]; exact List.mem_cons_self
  have hi0 : i ∉ s.stack 0 := fun e => by have := hg.one 0 w i e himem; omega
  obtain ⟨c, ws, hi, hdel⟩ := h.outside w hw i himem
  have hil := Nested.lt_of hi
  have hown : ∀ m, s.owner m ≠ some i := fun m e => hi0 (h.mine m i e)
  have hkeep : ∀ (j : Nat) (q : JobState σ), s.jobs[j]? = some q → j ≠ i → s'.jobs[j]? = some q :=
    fun j q hq hne => go_keeps hx' hq fun r e => hne (by rw [hs] at e; exact (List.cons.inj e).1.symm)
  have hj : ∀ (j : Nat) (q : JobState σ), s.jobs[j]? = some q → (∀ w, 1 ≤ w → j ∉ s.stack w) → s'.jobs[j]? = some q :=
    fun j q hq hno => hkeep j q hq fun e => hno w hw (e ▸ himem)
  have hinjOld : ∀ j ∈ s.injector, ∃ c : Chore σ, s'.jobs[j]? = some (.queued c) ∧ Nestable [] [] c := by
    intro j hmem
    obtain ⟨c, hc, hn⟩ := h.queue j hmem
    exact ⟨c, hkeep j _ hc (fun e => by rw [e, hi] at hc; exact nomatch hc), hn⟩
  have houtOld : ∀ v, 1 ≤ v → ∀ k ∈ s.stack v, k ≠ i →
      ∃ (c : Chore σ) (ws : List Nat), s'.jobs[k]? = some (.running c ws) ∧ Delegates c := by
    intro v hv k hk hne
    obtain ⟨c, ws, hc, hd⟩ := h.outside v hv k hk
    exact ⟨c, ws, hkeep k _ hc hne, hd⟩
  -- if `i` goes on with `d`
  have hon : ∀ (d : Chore σ) (vs : List Nat), s'.jobs[i]? = some (.running d vs) → Delegates d → s'.stack = s.stack →
      ∀ v, 1 ≤ v → ∀ k ∈ s'.stack v, ∃ (c : Chore σ) (ws : List Nat), s'.jobs[k]? = some (.running c ws) ∧ Delegates c := by
    intro d vs hd hdd hstk v hv k hk
    rw [hstk] at hk
    by_cases e : k = i
    · subst e; exact ⟨d, vs, hd, hdd⟩
    · exact houtOld v hv k hk e
  -- if it ends
  have hoff : (s'.stack = fun v => if v = w then rest else s.stack v) →
      ∀ v, 1 ≤ v → ∀ k ∈ s'.stack v, ∃ (c : Chore σ) (ws : List Nat), s'.jobs[k]? = some (.running c ws) ∧ Delegates c := by
    intro hstk v hv k hk
    rw [hstk] at hk
    dsimp only at hk
    split at hk
    · rename_i e
      subst e
      refine houtOld v hv k (by rw [hs]; exact List.mem_cons_of_mem _ hk) ?_
      rintro rfl
      have := hg.nodup v
      rw [hs] at this
      exact (List.nodup_cons.mp this).1 hk
    · rename_i e
      refine houtOld v hv k hk ?_
      rintro rfl
      exact e (hg.one v w k hk himem)
  simp only [hi] at hx
  cases ws with
  | nil =>
    dsimp only at hx
    cases c with
    | done =>
      simp only [Nested.advance, Option.some.injEq] at hx
      have hw0 : (0 : Nat) ≠ w := by omega
      subst hx
      exact h.quiet hg rfl (by simp [Nested.setStack, Nested.setJob, hw0]) rfl rfl rfl rfl hj (hoff rfl) hinjOld
    | panic =>
      simp only [Nested.advance, Option.some.injEq] at hx
      have hw0 : (0 : Nat) ≠ w := by omega
      subst hx
      exact h.quiet hg rfl (by simp [Nested.setStack, Nested.setJob, hw0]) rfl rfl (by simp [hown]) (by simp [hown]) hj (hoff rfl) hinjOld
    | step => exact hdel.elim
    | lock => exact hdel.elim
    | unlock => exact hdel.elim
    | both a b next =>
      simp only [Nested.advance] at hx
      rw [if_neg (by omega)] at hx
      cases hx
      refine h.quiet hg rfl rfl rfl rfl rfl rfl hj (hon next [s.jobs.length] ?_ hdel.2.2 rfl) ?_
      · rw [nest_look_set_add hi]; simp
      · intro j hmem
        rcases List.mem_append.mp hmem with hmem | hmem
        · exact hinjOld j hmem
        · rw [List.mem_singleton.mp hmem]
          refine ⟨.both a b .done, ?_, hdel.1, hdel.2.1, rfl⟩
          rw [nest_look_set_add hi]; simp; omega
    | spawn c next =>
      simp only [Nested.advance] at hx
      rw [if_neg (by omega)] at hx
      cases hx
      refine h.quiet hg rfl rfl rfl rfl rfl rfl hj (hon next [s.jobs.length] ?_ hdel.2 rfl) ?_
      · rw [nest_look_set_add hi]; simp
      · intro j hmem
        rcases List.mem_append.mp hmem with hmem | hmem
        · exact hinjOld j hmem
        · rw [List.mem_singleton.mp hmem]
          refine ⟨.spawn c .done, ?_, hdel.1, rfl⟩
          rw [nest_look_set_add hi]; simp; omega
  | cons j js =>
    dsimp only at hx
    split at hx
    · cases hx
      refine h.quiet hg rfl rfl rfl rfl rfl rfl hj (hon (if (j :: js).all s.fine = true then c else .panic) [] ?_ ?_ rfl) hinjOld
      · simp only [Nested.setJob]
        rw [nest_look_set hi, if_pos rfl]
      · split
        · exact hdel
        · trivial
    · cases hx

/-- The thread of the pool goes on with its innermost job. -/
private theorem Serial.ownGo {s s' : Nested σ} {root : Option Nat} {target : Plain σ × Bool} (h : Serial s root target) (hg : NestSound s)
    (hx : s.step (.go 0) = some s') {i : Nat} {rest : List Nat} (hs : s.stack 0 = i :: rest) (ht : s'.threads = s.threads)
    (hdo : ∃ F, Doing s' root (s'.stack 0) (s'.deque 0) F ∧ F (s'.memory, s'.poisoned) = target)
    (hmine : ∀ m i, s'.owner m = some i → i ∈ s'.stack 0) (hst : ∀ w, 1 ≤ w → s'.stack w = s.stack w)
    (hinj : s'.injector = s.injector) : Serial s' root target := by
  have himem : i ∈ s.stack 0 := by rw [hs]; exact List.mem_cons_self
  refine h.own ht hdo hmine hst (fun j hj => by rw [← hinj]; exact hj) fun j q hq => ⟨fun w hw hmem => ?_, fun hmem => ?_⟩
  · refine go_keeps hx hq fun r e => ?_
    have := hg.one 0 w j (by rw [e]; exact List.mem_cons_self) hmem
    omega
  · refine go_keeps hx hq fun r e => ?_
    rw [hinj] at hmem
    obtain ⟨c, hc⟩ := (hg.queued j).mpr ⟨none, hmem⟩
    obtain ⟨d, ws, hd⟩ := (hg.stacked j).mpr ⟨0, by rw [e]; exact List.mem_cons_self⟩
    rw [hc] at hd
    cases hd

private theorem serial_go_own {s s' : Nested σ} {root : Option Nat} {target : Plain σ × Bool} (h : Serial s root target) (hg : NestSound s)
    (hx : s.step (.go 0) = some s') : Serial s' root target := by
  have hth := h.threads
  obtain ⟨F, hF, hv⟩ := h.doing
  have hmine := h.mine
  have hx' := hx
  have he : ∀ (j : Nat) (b : Bool), s.jobs[j]? = some (.ended b) → s'.jobs[j]? = some (.ended b) := fun j b hb => nest_ended_step hx' hb
  have hDq : ∀ j ∈ s.deque 0, s'.jobs[j]? = s.jobs[j]? := by
    intro j hj
    obtain ⟨c, hc⟩ := (hg.queued j).mpr ⟨some 0, hj⟩
    rw [hc]
    refine go_keeps hx' hc fun r e => ?_
    obtain ⟨d, ws, hd⟩ := (hg.stacked j).mpr ⟨0, by rw [e]; exact List.mem_cons_self⟩
    rw [hc] at hd
    cases hd
  have hrestk : ∀ i rest, s.stack 0 = i :: rest → i ∉ rest ∧ ∀ j ∈ rest, s'.jobs[j]? = s.jobs[j]? := by
    intro i rest hs
    have hnd := hg.nodup 0
    rw [hs, List.nodup_cons] at hnd
    refine ⟨hnd.1, fun j hj => ?_⟩
    obtain ⟨d, ws, hd⟩ := (hg.stacked j).mpr ⟨0, by rw [hs]; exact List.mem_cons_of_mem _ hj⟩
    rw [hd]
    refine go_keeps hx' hd fun r e => ?_
    rw [hs] at e
    exact hnd.1 ((List.cons.inj e).1 ▸ hj)
  generalize hst : s.stack 0 = st at hF hrestk hmine
  generalize hdq : s.deque 0 = D at hF hDq
  cases hF with
  | idle r hr => simp [Nested.step, Nested.go, hst] at hx
  | run i rest D above held K c hi hB hn hh =>
    obtain ⟨hnot, hrest⟩ := hrestk i rest rfl
    have hil := Nested.lt_of hi
    simp only [Nested.step, Nested.go, hst, hi] at hx
    have hsame : s'.owner = s.owner → ∀ k ∈ rest, ∀ m, s'.owner m = some k ↔ s.owner m = some k := fun e k _ m => by rw [e]
    cases c with
    | done =>
      have hheld : held = [] := hn
      subst hheld
      simp only [Nested.advance, Option.some.injEq] at hx
      have e1 : s'.stack 0 = rest := by rw [← hx]; simp [Nested.setStack]
      have e2 : s'.deque 0 = D := by rw [← hx]; exact hdq
      have e3 : s'.jobs[i]? = some (.ended true) := by
        rw [← hx]
        simp only [Nested.setJob, Nested.setStack]
        rw [nest_look_set hi, if_pos rfl]
      have e4 : s'.owner = s.owner := by rw [← hx]; rfl
      refine h.ownGo hg hx' hst (by rw [← hx]; rfl) ⟨K true, ?_, by rw [← hx]; exact hv⟩ ?_ ?_ (by rw [← hx]; rfl)
      · rw [e1, e2]
        exact hB.pop hrest hDq he (hsame e4) e3
      · intro m k hk
        rw [e4] at hk
        rw [e1]
        rcases List.mem_cons.mp (hmine m k hk) with rfl | hm
        · exact absurd ((hh.mem m).mpr hk) (by simp)
        · exact hm
      · intro w hw
        have : w ≠ 0 := by omega
        rw [← hx]; simp [Nested.setStack, Nested.setJob, this]
    | panic =>
      simp only [Nested.advance, Option.some.injEq] at hx
      have e1 : s'.stack 0 = rest := by rw [← hx]; simp [Nested.setStack]
      have e2 : s'.deque 0 = D := by rw [← hx]; exact hdq
      have e3 : s'.jobs[i]? = some (.ended false) := by
        rw [← hx]
        simp only [Nested.setJob, Nested.setStack]
        rw [nest_look_set hi, if_pos rfl]
      have e4 : s'.owner = fun l => if s.owner l = some i then none else s.owner l := by rw [← hx]
      have e5 : (s'.memory, s'.poisoned) = poisonAll held (s.memory, s.poisoned) := by
        rw [← hx]
        simp only [poisonAll, Prod.mk.injEq]
        refine ⟨rfl, ?_⟩
        funext m
        simp only [hh.mem m]
      refine h.ownGo hg hx' hst (by rw [← hx]; rfl) ⟨K false, ?_, by rw [e5]; exact hv⟩ ?_ ?_ (by rw [← hx]; rfl)
      · rw [e1, e2]
        refine hB.pop hrest hDq he ?_ e3
        intro k hk m
        rw [e4]
        dsimp only
        split
        · rename_i e
          rw [e]
          constructor
          · intro h; cases h
          · intro h; cases h; exact absurd hk hnot
        · rfl
      · intro m k hk
        rw [e4] at hk
        dsimp only at hk
        rw [e1]
        split at hk
        · cases hk
        · rename_i hne
          rcases List.mem_cons.mp (hmine m k hk) with rfl | hm
          · exact absurd hk hne
          · exact hm
      · intro w hw
        have : w ≠ 0 := by omega
        rw [← hx]; simp [Nested.setStack, Nested.setJob, this]
    | step next change =>
      simp only [Nested.advance, Option.some.injEq] at hx
      have e1 : s'.stack 0 = i :: rest := by rw [← hx]; exact hst
      have e2 : s'.deque 0 = D := by rw [← hx]; exact hdq
      have e3 : s'.jobs[i]? = some (.running (next s.memory) []) := by
        rw [← hx]
        simp only [Nested.setJob]
        rw [nest_look_set hi, if_pos rfl]
      have e4 : s'.owner = s.owner := by rw [← hx]; rfl
      refine h.ownGo hg hx' hst (by rw [← hx]; rfl) ⟨goOn K held (next s.memory), ?_, by rw [← hx]; exact hv⟩ ?_ (fun w _ => by rw [← hx]; rfl)
        (by rw [← hx]; rfl)
      · rw [e1, e2]
        exact .run i rest D above held K _ e3 (hB.mono hrest hDq he (hsame e4)) (hn _) (hh.mono fun m => by rw [e4])
      · rw [e1, e4]; exact hmine
    | lock m next =>
      simp only [Nested.advance] at hx
      split at hx
      case isFalse => cases hx
      rename_i hfree
      simp only [Option.some.injEq] at hx
      have e1 : s'.stack 0 = i :: rest := by rw [← hx]; exact hst
      have e2 : s'.deque 0 = D := by rw [← hx]; exact hdq
      have e3 : s'.jobs[i]? = some (.running (next (s.poisoned m)) []) := by
        rw [← hx]
        simp only [Nested.setJob]
        rw [nest_look_set hi, if_pos rfl]
      have e4 : s'.owner = fun l => if l = m then some i else s.owner l := by rw [← hx]
      refine h.ownGo hg hx' hst (by rw [← hx]; rfl) ⟨goOn K (m :: held) (next (s.poisoned m)), ?_, by rw [← hx]; exact hv⟩ ?_
        (fun w _ => by rw [← hx]; rfl) (by rw [← hx]; rfl)
      · rw [e1, e2]
        refine .run i rest D above (m :: held) K _ e3 (hB.mono hrest hDq he ?_) (hn.2.2 _) ⟨List.nodup_cons.mpr ⟨hn.1, hh.nodup⟩, ?_⟩
        · intro k hk l
          rw [e4]
          dsimp only
          split
          · rename_i e
            subst e
            rw [hfree]
            constructor
            · intro h; cases h; exact absurd hk hnot
            · intro h; cases h
          · rfl
        · intro l
          rw [e4]
          dsimp only
          rw [List.mem_cons, hh.mem]
          split
          · rename_i e; simp [e]
          · rename_i e; simp [e]
      · intro l k hk
        rw [e4] at hk
        dsimp only at hk
        rw [e1]
        split at hk
        · cases hk; exact List.mem_cons_self
        · exact hmine l k hk
    | unlock m next =>
      simp only [Nested.advance] at hx
      split at hx
      case isFalse => cases hx
      rename_i hmy
      simp only [Option.some.injEq] at hx
      have e1 : s'.stack 0 = i :: rest := by rw [← hx]; exact hst
      have e2 : s'.deque 0 = D := by rw [← hx]; exact hdq
      have e3 : s'.jobs[i]? = some (.running next []) := by
        rw [← hx]
        simp only [Nested.setJob]
        rw [nest_look_set hi, if_pos rfl]
      have e4 : s'.owner = fun l => if l = m then none else s.owner l := by rw [← hx]
      refine h.ownGo hg hx' hst (by rw [← hx]; rfl) ⟨goOn K (held.erase m) next, ?_, by rw [← hx]; exact hv⟩ ?_
        (fun w _ => by rw [← hx]; rfl) (by rw [← hx]; rfl)
      · rw [e1, e2]
        refine .run i rest D above (held.erase m) K _ e3 (hB.mono hrest hDq he ?_) hn.2 ⟨hh.nodup.erase m, ?_⟩
        · intro k hk l
          rw [e4]
          dsimp only
          split
          · rename_i e
            subst e
            rw [hmy]
            constructor
            · intro h; cases h
            · intro h; cases h; exact absurd hk hnot
          · rfl
        · intro l
          rw [e4]
          dsimp only
          rw [hh.nodup.mem_erase_iff, hh.mem]
          split
          · rename_i e; simp [e]
          · rename_i e; simp [e]
      · intro l k hk
        rw [e4] at hk
        dsimp only at hk
        rw [e1]
        split at hk
        · cases hk
        · exact hmine l k hk
    | both a b next =>
      simp only [Nested.advance, hth, Nat.zero_lt_one, if_true, Option.some.injEq] at hx
      have e1 : s'.stack 0 = (s.jobs.length + 1) :: i :: rest := by rw [← hx]; simp [Nested.setStack, Nested.setDeque]
      have e2 : s'.deque 0 = s.jobs.length :: D := by rw [← hx]; simp [Nested.setDeque, hdq]
      have look : s'.jobs = s.jobs.set i (.running next [s.jobs.length, s.jobs.length + 1]) ++ [.queued b, .running a []] := by rw [← hx]
      have e3 : s'.jobs[i]? = some (.running next [s.jobs.length, s.jobs.length + 1]) := by rw [look, nest_look_set_add2 hi]; simp
      have e4 : s'.owner = s.owner := by rw [← hx]; rfl
      have e5 : s'.jobs[s.jobs.length]? = some (.queued b) := by rw [look, nest_look_set_add2 hi]; simp; omega
      have e6 : s'.jobs[s.jobs.length + 1]? = some (.running a []) := by rw [look, nest_look_set_add2 hi]; simp; omega
      have hfresh : ∀ m, s'.owner m ≠ some (s.jobs.length + 1) := by
        intro m hm
        rw [e4] at hm
        have := hmine m _ hm
        rw [← hst] at this
        obtain ⟨d, ws, hd⟩ := (hg.stacked _).mpr ⟨0, this⟩
        have := Nested.lt_of hd
        omega
      refine h.ownGo hg hx' hst (by rw [← hx]; rfl) ⟨goOn (fun ok st => goOn K held (thenNext ((plainly [] b st).2 && ok) next) (plainly [] b st).1) [] a, ?_, ?_⟩ ?_ ?_ (by rw [← hx]; rfl)
      · rw [e1, e2]
        refine .run _ (i :: rest) (s.jobs.length :: D) (held ++ above) [] _ a e6 ?_ hn.1 ⟨List.nodup_nil, ?_⟩
        · exact .first _ i _ rest D above held K next b e3 e5 (hB.mono hrest hDq he (hsame e4)) hn.2.2 hn.2.1 (hh.mono fun m => by rw [e4])
        · intro m; simp [hfresh]
      · rw [← hv, ← hx]
        exact (goOn_both K held a b next _).symm
      · intro m k hk
        rw [e4] at hk
        rw [e1]
        exact List.mem_cons_of_mem _ (hmine m k hk)
      · intro w hw
        have : w ≠ 0 := by omega
        rw [← hx]; simp [Nested.setStack, Nested.setDeque, this]
    | spawn c next =>
      simp only [Nested.advance, hth, Nat.zero_lt_one, if_true, Option.some.injEq] at hx
      have e1 : s'.stack 0 = i :: rest := by rw [← hx]; exact hst
      have e2 : s'.deque 0 = s.jobs.length :: D := by rw [← hx]; simp [Nested.setDeque, hdq]
      have look : s'.jobs = s.jobs.set i (.running next [s.jobs.length]) ++ [.queued c] := by rw [← hx]
      have e3 : s'.jobs[i]? = some (.running next [s.jobs.length]) := by rw [look, nest_look_set_add hi]; simp
      have e4 : s'.owner = s.owner := by rw [← hx]; rfl
      have e5 : s'.jobs[s.jobs.length]? = some (.queued c) := by rw [look, nest_look_set_add hi]; simp; omega
      refine h.ownGo hg hx' hst (by rw [← hx]; rfl) ⟨fun st => goOn K held (thenNext ((plainly [] c st).2 && true) next) (plainly [] c st).1, ?_, ?_⟩ ?_ (fun w _ => by rw [← hx]; rfl) (by rw [← hx]; rfl)
      · rw [e1, e2]
        exact .wait i s.jobs.length [] rest D above held K next c true e3 e5 (by simp) rfl (hB.mono hrest hDq he (hsame e4)) hn.2 hn.1
          (hh.mono fun m => by rw [e4])
      · rw [← hv, ← hx]
        exact (goOn_spawn K held c next _).symm
      · rw [e1, e4]; exact hmine
  | wait i j ks rest D above held K next q r hi hj hks hr hB hn hnq hh =>
    have : s.over j = false := by simp [Nested.over, hj]
    simp [Nested.step, Nested.go, hst, hi, this] at hx
  | over i ws rest D above held K next r hi hne hws hr hB hn hh =>
    obtain ⟨hnot, hrest⟩ := hrestk i rest rfl
    cases ws with
    | nil => exact absurd rfl hne
    | cons j js =>
      simp only [Nested.step, Nested.go, hst, hi] at hx
      split at hx
      case isFalse => cases hx
      simp only [Option.some.injEq] at hx
      have e1 : s'.stack 0 = i :: rest := by rw [← hx]; exact hst
      have e2 : s'.deque 0 = D := by rw [← hx]; exact hdq
      have e3 : s'.jobs[i]? = some (.running (thenNext r next) []) := by
        rw [← hx, hr]
        simp only [Nested.setJob]
        rw [nest_look_set hi, if_pos rfl]
        rfl
      have e4 : s'.owner = s.owner := by rw [← hx]; rfl
      refine h.ownGo hg hx' hst (by rw [← hx]; rfl) ⟨goOn K held (thenNext r next), ?_, by rw [← hx]; exact hv⟩ ?_ (fun w _ => by rw [← hx]; rfl)
        (by rw [← hx]; rfl)
      · rw [e1, e2]
        refine .run i rest D above held K _ e3 (hB.mono hrest hDq he fun k _ m => by rw [e4]) ?_ (hh.mono fun m => by rw [e4])
        unfold thenNext
        split
        · exact hn
        · trivial
      · rw [e1, e4]; exact hmine

/-- The thread of the pool takes a job. -/
private theorem serial_take {s s' : Nested σ} {root : Option Nat} {target : Plain σ × Bool} {w : Nat} {source : Option Nat} (h : Serial s root target) (hg : NestSound s)
    (hx : s.step (.take w source) = some s') :
    (∀ v, source = some v → Serial s' root target) ∧
      (source = none → s.stack 0 = [] ∧ s.deque 0 = [] ∧ (∀ t, root = some t → s.jobs[t]? = some (.ended target.2)) ∧
        ∃ (j : Nat) (rest : List Nat) (c : Chore σ), s.injector = j :: rest ∧ s.jobs[j]? = some (.queued c) ∧
          Serial s' (some j) (plainly [] c target.1)) := by
  have hth := h.threads
  obtain ⟨F, hF, hv⟩ := h.doing
  have hmine := h.mine
  have hx' := hx
  have he : ∀ (j : Nat) (b : Bool), s.jobs[j]? = some (.ended b) → s'.jobs[j]? = some (.ended b) := fun j b hb => nest_ended_step hx' hb
  simp only [Nested.step, Nested.take] at hx
  split at hx
  case isFalse => cases hx
  rename_i hfree
  have hw : w = 0 := by
    simp only [Nested.free, hth, Bool.and_eq_true, decide_eq_true_eq] at hfree
    omega
  subst hw
  have hlive : ∀ i ∈ s.stack 0, ∃ (c : Chore σ) (ws : List Nat), s.jobs[i]? = some (.running c ws) := fun i hi => (hg.stacked i).mpr ⟨0, hi⟩
  have hqueue : ∀ i ∈ s.deque 0, ∃ c : Chore σ, s.jobs[i]? = some (.queued c) := fun i hi => (hg.queued i).mpr ⟨some 0, hi⟩
  have hndq := hg.nodupQueue (some 0)
  simp only [Nested.place] at hndq
  generalize hst : s.stack 0 = st at hF hmine hlive
  generalize hdq : s.deque 0 = D at hF hqueue hndq
  cases hF with
  | run i rest D above held K c hi hB hn hh => simp [Nested.free, hst, hi] at hfree
  | over i ws rest D above held K next r hi hne hws hr hB hn hh =>
    cases ws with
    | nil => exact absurd rfl hne
    | cons j js =>
      simp only [Nested.free, hst, hi, Bool.and_eq_true, Bool.not_eq_true'] at hfree
      have : (j :: js).all s.over = true := by
        rw [List.all_eq_true]
        intro k hk
        exact nest_over_iff.mpr (hws k hk)
      rw [this] at hfree
      exact nomatch hfree.2
  | wait i j ks rest D above held K next q r hi hj hks hr hB hn hnq hh =>
    rw [hdq] at hx
    cases source with
    | none => cases hx
    | some v =>
      dsimp only at hx
      split at hx
      case isFalse => cases hx
      simp only [Nested.start] at hx
      have hj' : (s.setDeque 0 D).jobs[j]? = some (.queued q) := hj
      rw [hj'] at hx
      simp only [Option.some.injEq] at hx
      refine ⟨fun _ _ => ?_, fun e => by cases e⟩
      have e1 : s'.stack 0 = j :: i :: rest := by rw [← hx]; simp [Nested.setStack, Nested.setJob, Nested.setDeque, hst]
      have e2 : s'.deque 0 = D := by rw [← hx]; simp [Nested.setStack, Nested.setJob, Nested.setDeque]
      have look : s'.jobs = s.jobs.set j (.running q []) := by rw [← hx]; rfl
      have e3 : s'.jobs[j]? = some (.running q []) := by rw [look, nest_look_set hj]; simp
      have e4 : s'.owner = s.owner := by rw [← hx]; rfl
      have hkeep : ∀ k, k ≠ j → s'.jobs[k]? = s.jobs[k]? := by
        intro k hk
        rw [look, nest_look_set hj]; simp [hk]
      have hstk : ∀ k ∈ i :: rest, s'.jobs[k]? = s.jobs[k]? := by
        intro k hk
        refine hkeep k ?_
        rintro rfl
        obtain ⟨c, ws, hc⟩ := hlive k hk
        rw [hj] at hc; cases hc
      have hfresh : ∀ m, s'.owner m ≠ some j := by
        intro m hm
        rw [e4] at hm
        obtain ⟨c, ws, hc⟩ := hlive j (hmine m j hm)
        rw [hj] at hc; cases hc
      refine h.own (by rw [← hx]; rfl) ⟨goOn (fun ok st => goOn K held (thenNext (ok && r) next) st) [] q, ?_, ?_⟩ ?_ ?_ (fun k hk => by rw [← hx] at hk; exact hk) ?_
      · rw [e1, e2]
        refine .run j (i :: rest) D (held ++ above) [] _ q e3 ?_ hnq ⟨List.nodup_nil, fun m => by simp [hfresh]⟩
        obtain ⟨h1, h2⟩ := all_fine hks he
        refine .last j i ks rest D above held K next r (by rw [hstk i List.mem_cons_self]; exact hi) h1 (by rw [hr, h2]) ?_ hn
          (hh.mono fun m => by rw [e4])
        refine hB.mono (fun k hk => hstk k (List.mem_cons_of_mem _ hk)) (fun k hk => hkeep k ?_) he fun k _ m => by rw [e4]
        rintro rfl
        exact (List.nodup_cons.mp hndq).1 hk
      · rw [← hv, ← hx]
        rfl
      · rw [e1, e4]
        exact fun m k hk => List.mem_cons_of_mem _ (hmine m k hk)
      · intro w hw
        have : w ≠ 0 := by omega
        rw [← hx]; simp [Nested.setStack, Nested.setJob, Nested.setDeque, this]
      · intro k y hy
        have hinj : s'.injector = s.injector := by rw [← hx]; rfl
        refine ⟨fun w hw hmem => ?_, fun hmem => ?_⟩
        · rw [hkeep k, hy]
          rintro rfl
          obtain ⟨c, ws, hc⟩ := (hg.stacked k).mpr ⟨w, hmem⟩
          rw [hj] at hc; cases hc
        · rw [hkeep k, hy]
          rintro rfl
          rw [hinj] at hmem
          have := hg.oneQueue (some 0) none k (by simp [Nested.place, hdq]) hmem
          cases this
  | idle r hr =>
    rw [hdq] at hx
    cases source with
    | some v =>
      dsimp only at hx
      have hvd : s.deque v = [] := by
        by_cases hv0 : v = 0
        · rw [hv0]; exact hdq
        · exact hg.noQueue v (by omega)
      rw [hvd] at hx
      cases hx
    | none =>
      dsimp only at hx
      split at hx
      case h_2 => cases hx
      rename_i j rest hinj
      simp only [Nested.start] at hx
      split at hx
      case h_2 => cases hx
      rename_i c hj
      simp only [Option.some.injEq] at hx
      have hnone : ∀ m k, s.owner m ≠ some k := fun m k hk => nomatch hmine m k hk
      have e1 : s'.stack 0 = [j] := by rw [← hx]; simp [Nested.setStack, Nested.setJob, hst]
      have e2 : s'.deque 0 = [] := by rw [← hx]; exact hdq
      have look : s'.jobs = s.jobs.set j (.running c []) := by rw [← hx]; rfl
      have e3 : s'.jobs[j]? = some (.running c []) := by rw [look, nest_look_set hj]; simp
      have e4 : s'.owner = s.owner := by rw [← hx]; rfl
      have e5 : s'.injector = rest := by rw [← hx]; rfl
      have hkeep : ∀ k, k ≠ j → s'.jobs[k]? = s.jobs[k]? := by
        intro k hk
        rw [look]; exact (nest_look_set hj _ k).trans (if_neg hk)
      obtain ⟨d, hd, hn⟩ := h.queue j (by rw [hinj]; exact List.mem_cons_self)
      have hdc : d = c := by
        have := hd.symm.trans hj
        simpa using this
      subst hdc
      refine ⟨fun v e => (nomatch e), fun _ => ⟨rfl, rfl, fun t ht => by rw [hr t ht, ← hv], j, rest, d, hinj, hd, ?_⟩⟩
      refine h.own (by rw [← hx]; rfl) ⟨goOn (fun ok st => (st, ok)) [] d, ?_, ?_⟩ ?_ ?_ ?_ ?_
      · rw [e1, e2]
        exact .run j [] [] [] [] _ d e3 (.root j rfl) hn ⟨List.nodup_nil, fun m => by rw [e4]; simp [hnone]⟩
      · rw [← hv, ← hx]
        rfl
      · intro m k hk
        rw [e4] at hk
        exact absurd hk (hnone m k)
      · intro w hw
        have : w ≠ 0 := by omega
        rw [← hx]; simp [Nested.setStack, Nested.setJob, this]
      · intro k hk
        rw [e5] at hk
        rw [hinj]
        exact List.mem_cons_of_mem _ hk
      · intro k y hy
        refine ⟨fun w hw hmem => ?_, fun hmem => ?_⟩
        · rw [hkeep k, hy]
          rintro rfl
          obtain ⟨c, ws, hc⟩ := (hg.stacked k).mpr ⟨w, hmem⟩
          rw [hd] at hc; cases hc
        · rw [hkeep k, hy]
          rintro rfl
          rw [e5] at hmem
          have := hg.nodupQueue none
          simp only [Nested.place, hinj, List.nodup_cons] at this
          exact this.1 hmem

private theorem serial_begin {s s' : Nested σ} {root : Option Nat} {target : Plain σ × Bool} {w : Nat} {c : Chore σ}
    (h : Serial s root target) (hg : NestSound s) (hc : Delegates c) (hx : s.step (.begin w c) = some s') : Serial s' root target := by
  have hth := h.threads
  simp only [Nested.step] at hx
  split at hx
  case isFalse => cases hx
  rename_i hw
  have hw0 : (0 : Nat) ≠ w := by omega
  cases hx
  refine h.quiet hg rfl (by simp [Nested.setStack, hw0]) rfl rfl rfl rfl (fun j q hq _ => keep_add hq _) ?_ ?_
  · intro v hv k hk
    simp only [Nested.setStack] at hk
    split at hk
    · rw [List.mem_singleton.mp hk]
      exact ⟨c, [], by simp, hc⟩
    · obtain ⟨d, ws, hd, hdd⟩ := h.outside v hv k hk
      exact ⟨d, ws, keep_add hd _, hdd⟩
  · intro j hj
    obtain ⟨d, hd, hn⟩ := h.queue j hj
    exact ⟨d, keep_add hd _, hn⟩

private theorem plainInTurn_snoc (cs : List (Chore σ)) (c : Chore σ) (st : Plain σ) :
    plainInTurn (cs ++ [c]) st = ((plainly [] c (plainInTurn cs st).1).1, (plainInTurn cs st).2 ++ [(plainly [] c (plainInTurn cs st).1).2]) := by
  induction cs generalizing st with
  | nil => rfl
  | cons d cs ih => simp [plainInTurn, ih]

/-- The jobs taken so far have ended as they should, the last one perhaps not yet. -/
private def Sofar (s : Nested σ) (root : Option Nat) (r : Bool) (taken : List Nat) (results : List Bool) : Prop :=
  (root = none ∧ taken = [] ∧ results = []) ∨
  ∃ t js rs, root = some t ∧ taken = js ++ [t] ∧ results = rs ++ [r] ∧ js.map (fun j => s.jobs[j]?) = rs.map fun b => some (.ended b)

private theorem map_ended {s s' : Nested σ} {js : List Nat} {rs : List Bool}
    (he : ∀ (j : Nat) (b : Bool), s.jobs[j]? = some (.ended b) → s'.jobs[j]? = some (.ended b))
    (h : js.map (fun j => s.jobs[j]?) = rs.map fun b => some (.ended b)) :
    js.map (fun j => s'.jobs[j]?) = rs.map fun b => some (.ended b) := by
  induction js generalizing rs with
  | nil => cases rs with
    | nil => rfl
    | cons => cases h
  | cons j js ih => cases rs with
    | nil => cases h
    | cons r rs =>
      simp only [List.map_cons, List.cons.injEq] at h ⊢
      exact ⟨he j r h.1, ih h.2⟩

private theorem Sofar.mono {s s' : Nested σ} {root : Option Nat} {r : Bool} {taken : List Nat} {results : List Bool}
    (h : Sofar s root r taken results)
    (he : ∀ (j : Nat) (b : Bool), s.jobs[j]? = some (.ended b) → s'.jobs[j]? = some (.ended b)) : Sofar s' root r taken results := by
  rcases h with h | ⟨t, js, rs, h1, h2, h3, h4⟩
  · exact .inl h
  · exact .inr ⟨t, js, rs, h1, h2, h3, map_ended he h4⟩

private theorem serial {m0 : σ} {ls : List (NestLabel σ)} {s : Nested σ} (h : (Nested.init 1 m0).run ls = some s)
    (hd : ∀ c ∈ begins ls, Delegates c) :
    ∃ root r, Serial s root ((plainInTurn ((along takenNow (Nested.init 1 m0) ls).map Prod.snd) (m0, fun _ => false)).1, r) ∧
      Sofar s root r ((along takenNow (Nested.init 1 m0) ls).map Prod.fst)
        (plainInTurn ((along takenNow (Nested.init 1 m0) ls).map Prod.snd) (m0, fun _ => false)).2 := by
  revert hd
  refine Nested.run_induction (Nested.init 1 m0) (fun ls s => (∀ c ∈ begins ls, Delegates c) →
    ∃ root r, Serial s root ((plainInTurn ((along takenNow (Nested.init 1 m0) ls).map Prod.snd) (m0, fun _ => false)).1, r) ∧
      Sofar s root r ((along takenNow (Nested.init 1 m0) ls).map Prod.fst)
        (plainInTurn ((along takenNow (Nested.init 1 m0) ls).map Prod.snd) (m0, fun _ => false)).2)
    (fun _ => ⟨none, true, serial_init m0, .inl ⟨rfl, rfl, rfl⟩⟩) ?_ ls s h
  intro ls u x u' hu ih hx hd
  rw [begins_append] at hd
  obtain ⟨root, r, hS, hR⟩ := ih fun c hc => hd c (List.mem_append_left _ hc)
  have hg := (nest_sound hu).2
  have he : ∀ (j : Nat) (b : Bool), u.jobs[j]? = some (.ended b) → u'.jobs[j]? = some (.ended b) := fun j b hb => nest_ended_step hx hb
  rw [along_snoc _ _ u _ _ hu]
  cases x with
  | begin w c =>
    simp only [takenNow, List.append_nil]
    exact ⟨root, r, serial_begin hS hg (hd c (List.mem_append_right _ (by simp [begins]))) hx, hR.mono he⟩
  | go w =>
    simp only [takenNow, List.append_nil]
    refine ⟨root, r, ?_, hR.mono he⟩
    by_cases hw : w = 0
    · subst hw; exact serial_go_own hS hg hx
    · exact serial_go_out hS hg (by omega) hx
  | take w source =>
    have htake := serial_take hS hg hx
    cases source with
    | some v =>
      simp only [takenNow, List.append_nil]
      exact ⟨root, r, htake.1 v rfl, hR.mono he⟩
    | none =>
      obtain ⟨-, -, hroot, j, rest, c, hinj, hj, hS'⟩ := htake.2 rfl
      have e : takenNow u (.take w none) = [(j, c)] := by simp [takenNow, hinj, hj]
      rw [e, List.map_append, List.map_append]
      simp only [List.map_cons, List.map_nil, plainInTurn_snoc]
      refine ⟨some j, _, hS', .inr ⟨j, _, _, rfl, rfl, rfl, ?_⟩⟩
      rcases hR with ⟨h1, h2, h3⟩ | ⟨t, js, rs, h1, h2, h3, h4⟩
      · rw [h2, h3]; rfl
      · rw [h2, h3, List.map_append, List.map_append, map_ended he h4]
        simp only [List.map_cons, List.map_nil, List.append_cancel_left_eq, List.cons.injEq, and_true]
        exact he t r (hroot t h1)

/-! ## The theorems -/

/-- C110. With a pool of one thread, what is put into it from outside (the packets of any number of instances, and whatever the
application has done by the pool) is done as if there were no pool: whenever the thread has nothing on its stack, memory and poisoned
locks are as if everything taken so far had been done plainly, one after the other, in this order, whatever the schedule; and each of these
jobs has ended as it does there, by returning or by a panic. -/
theorem C110 (m0 : σ) (ls : List (NestLabel σ)) (s : Nested σ) (h : (Nested.init 1 m0).run ls = some s)
    (hd : ∀ c ∈ begins ls, Delegates c) (hs : s.stack 0 = [])
    (taken : List (Nat × Chore σ)) (ht : taken = along takenNow (Nested.init 1 m0) ls) :
    (s.memory, s.poisoned) = (plainInTurn (taken.map Prod.snd) (m0, fun _ => false)).1 ∧
    taken.map (fun x => s.jobs[x.1]?) = (plainInTurn (taken.map Prod.snd) (m0, fun _ => false)).2.map fun b => some (.ended b) := by
  subst ht
  obtain ⟨root, r, hS, hR⟩ := serial h hd
  obtain ⟨F, hF, hv⟩ := hS.doing
  rw [hs] at hF
  generalize s.deque 0 = D at hF
  cases hF with
  | idle r' hr =>
    simp only [Prod.mk.injEq] at hv
    obtain ⟨hv1, rfl⟩ := hv
    refine ⟨by rw [← hv1], ?_⟩
    have e : (along takenNow (Nested.init 1 m0) ls).map (fun x => s.jobs[x.1]?) =
        ((along takenNow (Nested.init 1 m0) ls).map Prod.fst).map fun j => s.jobs[j]? := by simp
    rw [e]
    rcases hR with ⟨h1, h2, h3⟩ | ⟨t, js, rs, h1, h2, h3, h4⟩
    · rw [h2, h3]; rfl
    · rw [h2, h3, List.map_append, List.map_append, h4]
      simp [hr t h1]

/-- C110. Nothing else is begun before: when the thread takes something from outside it has nothing on its stack and nothing in its
queue, and no lock is held by anybody. -/
theorem C110_whole (m0 : σ) (ls : List (NestLabel σ)) (s : Nested σ) (h : (Nested.init 1 m0).run ls = some s)
    (hd : ∀ c ∈ begins ls, Delegates c) (w : Nat) (s' : Nested σ) (hx : s.step (.take w none) = some s') :
    s.stack 0 = [] ∧ s.deque 0 = [] ∧ ∀ m, s.owner m = none := by
  obtain ⟨root, r, hS, -⟩ := serial h hd
  obtain ⟨h1, h2, -⟩ := (serial_take hS (nest_sound h).2 hx).2 rfl
  refine ⟨h1, h2, fun m => ?_⟩
  cases ho : s.owner m with
  | none => rfl
  | some i =>
    have := hS.mine m i ho
    rw [h1] at this
    cases this

/-- C110. The thread never gets stuck: as long as there is something on its stack it can go on with its innermost job, or take one from
its own queue. -/
theorem C110_progress (m0 : σ) (ls : List (NestLabel σ)) (s : Nested σ) (h : (Nested.init 1 m0).run ls = some s)
    (hd : ∀ c ∈ begins ls, Delegates c) (hs : s.stack 0 ≠ []) :
    (s.step (.go 0)).isSome = true ∨ (s.step (.take 0 (some 0))).isSome = true := by
  obtain ⟨root, r, hS, -⟩ := serial h hd
  have hth := hS.threads
  have hmine := hS.mine
  obtain ⟨F, hF, -⟩ := hS.doing
  generalize hst : s.stack 0 = st at hF hs hmine
  generalize hdq : s.deque 0 = D at hF
  cases hF with
  | idle _ _ => exact absurd rfl hs
  | run i rest D above held K c hi hB hn hh =>
    left
    simp only [Nested.step, Nested.go, hst, hi]
    cases c with
    | done => rfl
    | panic => rfl
    | step => rfl
    | lock m next =>
      have : s.owner m = none := by
        cases ho : s.owner m with
        | none => rfl
        | some k =>
          rcases List.mem_cons.mp (hmine m k ho) with rfl | hk
          · exact absurd ((hh.mem m).mpr ho) hn.1
          · exact absurd (hB.locks hk ho) hn.2.1
      simp [Nested.advance, this]
    | unlock m next => simp [Nested.advance, (hh.mem m).mp hn.1]
    | both a b next => simp only [Nested.advance]; split <;> rfl
    | spawn c next => simp only [Nested.advance]; split <;> rfl
  | wait i j ks rest D above held K next q r hi hj hks hr hB hn hnq hh =>
    right
    have ho : s.over j = false := by simp [Nested.over, hj]
    have hf : s.free 0 = true := by simp [Nested.free, hth, hst, hi, ho]
    have hj' : (s.setDeque 0 D).jobs[j]? = some (.queued q) := hj
    simp [Nested.step, Nested.take, hf, hdq, Nested.start, hj']
  | over i ws rest D above held K next r hi hne hws hr hB hn hh =>
    left
    cases ws with
    | nil => exact absurd rfl hne
    | cons j js =>
      have : (j :: js).all s.over = true := by
        rw [List.all_eq_true]
        intro k hk
        exact nest_over_iff.mpr (hws k hk)
      simp only [Nested.step, Nested.go, hst, hi]
      rw [if_pos this]
      rfl

/-- C110. Left to itself the thread of the pool finishes what it has begun: after finitely many steps, of this thread alone, its stack and
its queue are empty and it has taken nothing else. -/
theorem C110_finish (m0 : σ) (ls : List (NestLabel σ)) (s : Nested σ) (h : (Nested.init 1 m0).run ls = some s)
    (hd : ∀ c ∈ begins ls, Delegates c) :
    ∃ more s', (∀ x ∈ more, x = .go 0 ∨ x = .take 0 (some 0)) ∧ s.run more = some s' ∧ s'.stack 0 = [] ∧ s'.deque 0 = [] := by
  have hacc := nest_on_acc h
  induction hacc generalizing ls with
  | intro s _ ih =>
    by_cases hs : s.stack 0 = []
    · refine ⟨[], s, (fun _ hx => nomatch hx), rfl, hs, ?_⟩
      obtain ⟨root, r, hS, -⟩ := serial h hd
      obtain ⟨F, hF, -⟩ := hS.doing
      rw [hs] at hF
      generalize s.deque 0 = D at hF
      cases hF
      rfl
    · have hx : ∃ x t, (x = .go 0 ∨ x = .take 0 (some 0)) ∧ s.step x = some t := by
        rcases C110_progress m0 ls s h hd hs with hx | hx
        · obtain ⟨t, ht⟩ := Option.isSome_iff_exists.mp hx
          exact ⟨_, t, .inl rfl, ht⟩
        · obtain ⟨t, ht⟩ := Option.isSome_iff_exists.mp hx
          exact ⟨_, t, .inr rfl, ht⟩
      obtain ⟨x, t, hx, ht⟩ := hx
      have hw : Within x := by rcases hx with rfl | rfl <;> trivial
      have hbeg : begins [x] = [] := by rcases hx with rfl | rfl <;> rfl
      obtain ⟨more, s', g1, g2, g3⟩ := ih t ⟨x, hw, ht⟩ (ls ++ [x]) ((Nested.run_snoc _ _ _ _).mpr ⟨s, h, ht⟩)
        (by rw [begins_append, hbeg, List.append_nil]; exact hd)
      refine ⟨x :: more, s', ?_, by simp only [Nested.run, ht, g2], g3⟩
      intro y hy
      rcases List.mem_cons.mp hy with rfl | hy
      · exact hx
      · exact g1 y hy

/-- C110. When no thread can make a step, all work is done. -/
theorem C110_stuck (m0 : σ) (ls : List (NestLabel σ)) (s : Nested σ) (h : (Nested.init 1 m0).run ls = some s)
    (hd : ∀ c ∈ begins ls, Delegates c) (hs : ∀ x, Within x → s.step x = none) : AllOver s := by
  obtain ⟨root, r, hS, -⟩ := serial h hd
  have hg := (nest_sound h).2
  have hth := hS.threads
  have hst : s.stack 0 = [] := by
    by_cases e : s.stack 0 = []
    · exact e
    · rcases C110_progress m0 ls s h hd e with hx | hx
      · rw [hs _ (by trivial)] at hx; cases hx
      · rw [hs _ (by trivial)] at hx; cases hx
  have hdq : s.deque 0 = [] := by
    obtain ⟨F, hF, -⟩ := hS.doing
    rw [hst] at hF
    generalize s.deque 0 = D at hF
    cases hF
    rfl
  have hdw : ∀ w, s.deque w = [] := by
    intro w
    by_cases e : w = 0
    · rw [e]; exact hdq
    · exact hg.noQueue w (by omega)
  have hinj : s.injector = [] := by
    cases hi : s.injector with
    | nil => rfl
    | cons j rest =>
      obtain ⟨c, hc, -⟩ := hS.queue j (by rw [hi]; exact List.mem_cons_self)
      have hf : s.free 0 = true := by simp [Nested.free, hth, hst]
      have := hs (.take 0 none) trivial
      simp [Nested.step, Nested.take, hf, hdq, hi, Nested.start, hc] at this
  have hnoq : ∀ i, ¬ s.isQueued i := by
    intro i hq
    obtain ⟨p, hp⟩ := (hg.queued i).mp hq
    cases p with
    | none => simp [Nested.place, hinj] at hp
    | some w => simp [Nested.place, hdw w] at hp
  have hnorun : ∀ i, ¬ s.runs i := by
    intro i hi
    obtain ⟨rank, B, r1, r2, r3⟩ := hg.rank
    obtain ⟨k, hk, hmax⟩ := nest_greatest (fun i => s.runs i) rank B r1 i hi
    obtain ⟨w, hkw⟩ := (hg.stacked k).mp hk
    have hw : 1 ≤ w := by
      rcases Nat.eq_zero_or_pos w with rfl | hw
      · rw [hst] at hkw; cases hkw
      · exact hw
    obtain ⟨c, ws, hc, hdel⟩ := hS.outside w hw k hkw
    cases hsw : s.stack w with
    | nil => rw [hsw] at hkw; cases hkw
    | cons t rest =>
      have htop : t = k := by
        rw [hsw] at hkw
        rcases List.mem_cons.mp hkw with rfl | hkr
        · rfl
        · have h1 := r2 w
          rw [hsw, List.pairwise_cons] at h1
          have h2 := h1.1 k hkr
          have h3 := hmax t ((hg.stacked t).mpr ⟨w, by rw [hsw]; exact List.mem_cons_self⟩)
          omega
      subst htop
      have hover : ∀ j ∈ ws, s.over j = true := by
        intro j hj
        have hlt := hg.waits t c ws hc j hj
        cases hx : s.jobs[j]? with
        | none =>
          have := List.getElem?_eq_none_iff.mp hx
          omega
        | some x =>
          cases x with
          | queued q => exact absurd ⟨q, hx⟩ (hnoq j)
          | running d vs =>
            have h1 := r3 t c ws j hc hj ⟨d, vs, hx⟩
            have h2 := hmax j ⟨d, vs, hx⟩
            omega
          | ended b => exact nest_over_iff.mpr ⟨b, hx⟩
      have hno := hs (.go w) trivial
      simp only [Nested.step, Nested.go, hsw, hc] at hno
      cases ws with
      | nil =>
        dsimp only at hno
        cases c with
        | done => cases hno
        | panic => cases hno
        | step => exact hdel
        | lock => exact hdel
        | unlock => exact hdel
        | both a b next =>
          simp only [Nested.advance] at hno
          split at hno <;> cases hno
        | spawn c next =>
          simp only [Nested.advance] at hno
          split at hno <;> cases hno
      | cons j js =>
        have hall : (j :: js).all s.over = true := by
          rw [List.all_eq_true]
          exact hover
        dsimp only at hno
        rw [if_pos hall] at hno
        cases hno
  refine ⟨fun i hi => ?_, fun w => ⟨?_, hdw w⟩, hinj, fun m => ?_⟩
  · cases hx : s.jobs[i]? with
    | none =>
      have := List.getElem?_eq_none_iff.mp hx
      omega
    | some x =>
      cases x with
      | queued q => exact absurd ⟨q, hx⟩ (hnoq i)
      | running d vs => exact absurd ⟨d, vs, hx⟩ (hnorun i)
      | ended b => exact nest_over_iff.mpr ⟨b, hx⟩
  · exact List.eq_nil_iff_forall_not_mem.mpr fun i hi => hnorun i ((hg.stacked i).mpr ⟨w, hi⟩)
  · cases ho : s.owner m with
    | none => rfl
    | some i =>
      have := hS.mine m i ho
      rw [hst] at this
      cases this

/-- C110. And some finite way on, without anything new from outside, ends there. -/
theorem C110_rest (m0 : σ) (ls : List (NestLabel σ)) (s : Nested σ) (h : (Nested.init 1 m0).run ls = some s)
    (hd : ∀ c ∈ begins ls, Delegates c) : ∃ more s', (∀ x ∈ more, Within x) ∧ s.run more = some s' ∧ AllOver s' := by
  have hacc := nest_on_acc h
  induction hacc generalizing ls with
  | intro s _ ih =>
    by_cases hb : ∃ x, Within x ∧ (s.step x).isSome = true
    · obtain ⟨x, hi, hx⟩ := hb
      obtain ⟨t, ht⟩ := Option.isSome_iff_exists.mp hx
      have hbeg : begins [x] = [] := by cases x <;> first | rfl | exact hi.elim
      obtain ⟨more, s', g1, g2, g3⟩ := ih t ⟨x, hi, ht⟩ (ls ++ [x]) ((Nested.run_snoc _ _ _ _).mpr ⟨s, h, ht⟩)
        (by rw [begins_append, hbeg, List.append_nil]; exact hd)
      refine ⟨x :: more, s', ?_, by simp only [Nested.run, ht, g2], g3⟩
      intro y hy
      rcases List.mem_cons.mp hy with rfl | hy
      · exact hi
      · exact g1 y hy
    · refine ⟨[], s, (fun _ hx => nomatch hx), rfl, C110_stuck m0 ls s h hd fun x hi => ?_⟩
      cases hx : s.step x with
      | none => rfl
      | some t => exact absurd ⟨x, hi, by rw [hx]; rfl⟩ hb

/-! ## The receivers of a packet -/

private theorem plainly_andThen (c d : Chore σ) (above held : List Nat) (hn : Nestable above held c) (st : Plain σ) :
    plainly held (c.andThen d) st =
      if (plainly held c st).2 = true then plainly [] d (plainly held c st).1 else plainly held c st := by
  induction c generalizing above held st with
  | done =>
    have : held = [] := hn
    subst this
    rfl
  | panic => rfl
  | step next change ih => exact ih _ above held (hn _) _
  | lock m next ih => exact ih _ above (m :: held) (hn.2.2 _) _
  | unlock m next ih => exact ih above (held.erase m) hn.2 _
  | both a b next _ _ ih =>
    simp only [Chore.andThen, plainly]
    split
    · exact ih above held hn.2.2 _
    · rfl
  | spawn c next _ ih =>
    simp only [Chore.andThen, plainly]
    split
    · exact ih above held hn.2 _
    · rfl

private theorem nestable_andThen (c d : Chore σ) (above held : List Nat) (hc : Nestable above held c) (hd : Nestable above [] d) :
    Nestable above held (c.andThen d) := by
  induction c generalizing held with
  | done =>
    have : held = [] := hc
    subst this
    exact hd
  | panic => trivial
  | step next change ih => exact fun v => ih v held (hc v)
  | lock m next ih => exact ⟨hc.1, hc.2.1, fun b => ih b _ (hc.2.2 b)⟩
  | unlock m next ih => exact ⟨hc.1, ih _ hc.2⟩
  | both a b next _ _ ih => exact ⟨hc.1, hc.2.1, ih held hc.2.2⟩
  | spawn c next _ ih => exact ⟨hc.1, ih held hc.2⟩

private theorem plainInTurn_append (as bs : List (Chore σ)) (st : Plain σ) :
    plainInTurn (as ++ bs) st = ((plainInTurn bs (plainInTurn as st).1).1, (plainInTurn as st).2 ++ (plainInTurn bs (plainInTurn as st).1).2) := by
  induction as generalizing st with
  | nil => rfl
  | cons a as ih => simp [plainInTurn, ih]

/-- C110. However the pool divides a packet's receivers: with one thread, the hand-over calls them one after the other in the order in
which they were added, as long as none panics; it returns if and only if all of them do; and if their calls keep the rule about locks, so
does the hand-over. -/
theorem C110_handover (calls : List (Chore σ)) (c : Chore σ) (h : HandsOver calls c) (hn : ∀ d ∈ calls, Nestable [] [] d)
    (st : σ × (Nat → Bool)) :
    Nestable [] [] c ∧ Delegates (.spawn c .done) ∧ (plainly [] c st).2 = (plainInTurn calls st).2.all id ∧
      ((plainly [] c st).2 = true → (plainly [] c st).1 = (plainInTurn calls st).1) := by
  have key : Nestable [] [] c ∧ ∀ st : Plain σ, (plainly [] c st).2 = (plainInTurn calls st).2.all id ∧
      ((plainly [] c st).2 = true → (plainly [] c st).1 = (plainInTurn calls st).1) := by
    induction h with
    | inOrder calls =>
      induction calls with
      | nil => exact ⟨rfl, fun st => ⟨rfl, fun _ => rfl⟩⟩
      | cons d calls ih =>
        obtain ⟨h1, h2⟩ := ih fun e he => hn e (List.mem_cons_of_mem _ he)
        have hd := hn d List.mem_cons_self
        refine ⟨nestable_andThen d _ [] [] hd h1, fun st => ?_⟩
        simp only [List.foldr_cons, plainly_andThen d _ [] [] hd st, plainInTurn, List.all_cons, id_eq]
        split
        · rename_i e
          obtain ⟨g1, g2⟩ := h2 (plainly [] d st).1
          rw [e, Bool.true_and]
          exact ⟨g1, g2⟩
        · rename_i e
          simp [e]
    | halves calls a b _ _ iha ihb =>
      obtain ⟨a1, a2⟩ := iha fun e he => hn e (List.mem_of_mem_take he)
      obtain ⟨b1, b2⟩ := ihb fun e he => hn e (List.mem_of_mem_drop he)
      refine ⟨⟨a1, b1, rfl⟩, fun st => ?_⟩
      have hsplit := plainInTurn_append (calls.take (calls.length / 2)) (calls.drop (calls.length / 2)) st
      rw [List.take_append_drop] at hsplit
      rw [hsplit]
      obtain ⟨g1, g2⟩ := a2 st
      simp only [plainly, List.all_append]
      rw [← g1]
      cases hp : (plainly [] a st).2 with
      | false => simp
      | true =>
        have e := g2 hp
        obtain ⟨k1, k2⟩ := b2 (plainly [] a st).1
        rw [← e, ← k1]
        cases hq : (plainly [] b (plainly [] a st).1).2 with
        | false => simp
        | true => simpa using k2 hq
  exact ⟨key.1, ⟨key.1, trivial⟩, key.2 st⟩

/-- What listening threads are at. -/
private def Listens (P : Chore σ → Prop) (c : Chore σ) : Prop := c = .done ∨ c = .panic ∨ ∃ t, P t ∧ c = .spawn t .done

/-- If only packets are handed over from outside, that is what is put into the pool. -/
private theorem put_from (P : Chore σ → Prop) {n : Nat} {m0 : σ} {ls : List (NestLabel σ)} {s : Nested σ}
    (h : (Nested.init n m0).run ls = some s) (hd : ∀ c ∈ begins ls, ∃ t, P t ∧ c = .spawn t .done) :
    ∀ c ∈ along putNow (Nested.init n m0) ls, ∃ t, P t ∧ c = .spawn t .done := by
  have key : (∀ c ∈ begins ls, ∃ t, P t ∧ c = .spawn t .done) →
      (∀ c ∈ along putNow (Nested.init n m0) ls, ∃ t, P t ∧ c = .spawn t .done) ∧
      ∀ w, n ≤ w → ∀ i ∈ s.stack w, ∃ (c : Chore σ) (ws : List Nat), s.jobs[i]? = some (.running c ws) ∧ Listens P c := by
    refine Nested.run_induction (Nested.init n m0) (fun ls s => (∀ c ∈ begins ls, ∃ t, P t ∧ c = .spawn t .done) →
      (∀ c ∈ along putNow (Nested.init n m0) ls, ∃ t, P t ∧ c = .spawn t .done) ∧
      ∀ w, n ≤ w → ∀ i ∈ s.stack w, ∃ (c : Chore σ) (ws : List Nat), s.jobs[i]? = some (.running c ws) ∧ Listens P c)
      (fun _ => ⟨fun c hc => (nomatch hc), fun w _ i hi => (nomatch hi)⟩) ?_ ls s h
    intro ls u x u' hu ih hx hd
    rw [begins_append] at hd
    obtain ⟨hput, hout⟩ := ih fun c hc => hd c (List.mem_append_left _ hc)
    obtain ⟨hth, hg⟩ := nest_sound hu
    rw [along_snoc _ _ u _ _ hu]
    cases x with
    | begin w c =>
      refine ⟨by simpa [putNow] using hput, ?_⟩
      simp only [Nested.step] at hx
      split at hx
      case isFalse => cases hx
      cases hx
      intro v hv k hk
      simp only [Nested.setStack] at hk
      split at hk
      · rw [List.mem_singleton.mp hk]
        exact ⟨c, [], by simp, .inr (.inr (hd c (List.mem_append_right _ (by simp [begins]))))⟩
      · obtain ⟨d, ws, hd, hdd⟩ := hout v hv k hk
        exact ⟨d, ws, keep_add hd _, hdd⟩
    | take w source =>
      refine ⟨by simpa [putNow] using hput, ?_⟩
      intro v hv k hk
      have hstk : u'.stack v = u.stack v := by
        have hfree : ∀ w, u.free w = true → w < n := by
          intro w hf
          simp only [Nested.free, Bool.and_eq_true, decide_eq_true_eq, hth] at hf
          exact hf.1
        simp only [Nested.step, Nested.take] at hx
        split at hx
        case isFalse => cases hx
        rename_i hf
        have hne : v ≠ w := by have := hfree w hf; omega
        simp only [Nested.start] at hx
        repeat' split at hx
        all_goals first | (cases hx; done) | (cases hx; simp [Nested.setStack, Nested.setJob, Nested.setDeque, hne])
      rw [hstk] at hk
      obtain ⟨c, ws, hc, hl⟩ := hout v hv k hk
      exact ⟨c, ws, nest_job_step hx hc (fun _ _ e => nomatch e), hl⟩
    | go w =>
      by_cases hw : n ≤ w
      · -- a thread outside
        have hx' := hx
        simp only [Nested.step, Nested.go] at hx
        split at hx
        · cases hx
        rename_i i rest hs
        have himem : i ∈ u.stack w := by rw [hs]; exact List.mem_cons_self
        obtain ⟨c, ws, hi, hl⟩ := hout w hw i himem
        have hil := Nested.lt_of hi
        have houtOld : ∀ v, n ≤ v → ∀ k ∈ u.stack v, k ≠ i →
            ∃ (c : Chore σ) (ws : List Nat), u'.jobs[k]? = some (.running c ws) ∧ Listens P c := by
          intro v hv k hk hne
          obtain ⟨c, ws, hc, hl⟩ := hout v hv k hk
          exact ⟨c, ws, go_keeps hx' hc (fun r e => hne (by rw [hs] at e; exact (List.cons.inj e).1.symm)), hl⟩
        have hon : ∀ (d : Chore σ) (vs : List Nat), u'.jobs[i]? = some (.running d vs) → Listens P d → u'.stack = u.stack →
            ∀ v, n ≤ v → ∀ k ∈ u'.stack v, ∃ (c : Chore σ) (ws : List Nat), u'.jobs[k]? = some (.running c ws) ∧ Listens P c := by
          intro d vs hd hdd hstk v hv k hk
          rw [hstk] at hk
          by_cases e : k = i
          · subst e; exact ⟨d, vs, hd, hdd⟩
          · exact houtOld v hv k hk e
        have hoff : (u'.stack = fun v => if v = w then rest else u.stack v) →
            ∀ v, n ≤ v → ∀ k ∈ u'.stack v, ∃ (c : Chore σ) (ws : List Nat), u'.jobs[k]? = some (.running c ws) ∧ Listens P c := by
          intro hstk v hv k hk
          rw [hstk] at hk
          dsimp only at hk
          split at hk
          · rename_i e
            subst e
            refine houtOld v hv k (by rw [hs]; exact List.mem_cons_of_mem _ hk) ?_
            rintro rfl
            have := hg.nodup v
            rw [hs] at this
            exact (List.nodup_cons.mp this).1 hk
          · rename_i e
            refine houtOld v hv k hk ?_
            rintro rfl
            exact e (hg.one v w k hk himem)
        simp only [hi] at hx
        cases ws with
        | nil =>
          dsimp only at hx
          rcases hl with rfl | rfl | ⟨t, ht, rfl⟩
          · refine ⟨by simpa [putNow, hs, hi] using hput, ?_⟩
            simp only [Nested.advance, Option.some.injEq] at hx
            subst hx
            exact hoff rfl
          · refine ⟨by simpa [putNow, hs, hi] using hput, ?_⟩
            simp only [Nested.advance, Option.some.injEq] at hx
            subst hx
            exact hoff rfl
          · constructor
            · intro c hc
              rcases List.mem_append.mp hc with hc | hc
              · exact hput c hc
              · have : c = .spawn t .done := by
                  simp only [putNow, hth, if_pos hw, hs, hi] at hc
                  exact List.mem_singleton.mp hc
                exact ⟨t, ht, this⟩
            · simp only [Nested.advance] at hx
              rw [if_neg (by omega)] at hx
              cases hx
              refine hon .done [u.jobs.length] ?_ (.inl rfl) rfl
              rw [nest_look_set_add hi]; simp
        | cons j js =>
          refine ⟨by simpa [putNow, hs, hi] using hput, ?_⟩
          dsimp only at hx
          split at hx
          · cases hx
            refine hon (if (j :: js).all u.fine = true then c else .panic) [] ?_ ?_ rfl
            · simp only [Nested.setJob]
              rw [nest_look_set hi, if_pos rfl]
            · split
              · exact hl
              · exact .inr (.inl rfl)
          · cases hx
      · -- a thread of the pool
        refine ⟨by simpa [putNow, hth, hw] using hput, ?_⟩
        intro v hv k hk
        have hne : v ≠ w := by omega
        have hstk : u'.stack v = u.stack v := by
          simp only [Nested.step, Nested.go] at hx
          split at hx
          · cases hx
          split at hx
          · rename_i c _
            cases c <;> simp only [Nested.advance] at hx
            all_goals repeat' split at hx
            all_goals first | (cases hx; done) | (cases hx; simp [Nested.setStack, Nested.setJob, Nested.setDeque, hne])
          · split at hx
            · cases hx; rfl
            · cases hx
          · cases hx
        rw [hstk] at hk
        obtain ⟨c, ws, hc, hl⟩ := hout v hv k hk
        refine ⟨c, ws, go_keeps hx hc (fun r e => ?_), hl⟩
        exact hne (hg.one v w k hk (by rw [e]; exact List.mem_cons_self))
  exact (key hd).1

private theorem plainly_spawn (t : Chore σ) (st : Plain σ) : plainly [] (.spawn t .done) st = plainly [] t st := by
  simp only [plainly]
  generalize plainly [] t st = p
  obtain ⟨st', r⟩ := p
  cases r with
  | true => rfl
  | false => simp [poisonAll]

private theorem packets_flat {ps : List (List (Chore σ))} {cs : List (Chore σ)} (h : Packets ps cs)
    (hn : ∀ calls ∈ ps, ∀ d ∈ calls, Nestable [] [] d) (st : Plain σ) :
    (plainInTurn cs st).2.all id = (plainInTurn ps.flatten st).2.all id ∧
      ((plainInTurn ps.flatten st).2.all id = true → (plainInTurn cs st).1 = (plainInTurn ps.flatten st).1) := by
  induction ps generalizing cs st with
  | nil =>
    cases cs with
    | nil => exact ⟨rfl, fun _ => rfl⟩
    | cons => exact h.elim
  | cons calls ps ih =>
    cases cs with
    | nil => exact h.elim
    | cons c cs =>
      obtain ⟨⟨t, rfl, ht⟩, hps⟩ := h
      obtain ⟨-, -, h1, h2⟩ := C110_handover calls t ht (hn calls List.mem_cons_self) st
      have ih' := ih hps fun k hk => hn k (List.mem_cons_of_mem _ hk)
      simp only [List.flatten_cons, plainInTurn_append, List.all_append, plainInTurn, plainly_spawn, List.all_cons, id_eq]
      rw [← h1]
      cases hp : (plainly [] t st).2 with
      | false => simp
      | true =>
        rw [h2 hp]
        simpa using ih' (plainInTurn calls st).1

/-- C110. The packets of any number of instances, with a pool of one thread: whenever the thread has nothing on its stack, and no receiver
panicked, memory is as if a single thread had taken the packets in the order in which they were put into the pool and, for each, had
called the receivers one after the other in the order in which they were added, with nothing in between; and all these hand-overs have
returned. -/
theorem C110_packets (m0 : σ) (ls : List (NestLabel σ)) (s : Nested σ) (h : (Nested.init 1 m0).run ls = some s)
    (hd : ∀ c ∈ begins ls, ∃ calls t, c = .spawn t .done ∧ HandsOver calls t ∧ ∀ d ∈ calls, Nestable [] [] d) (hs : s.stack 0 = [])
    (taken : List (Nat × Chore σ)) (ht : taken = along takenNow (Nested.init 1 m0) ls) :
    taken.map Prod.snd <+: along putNow (Nested.init 1 m0) ls ∧
    ∃ packets : List (List (Chore σ)), Packets packets (taken.map Prod.snd) ∧
      ((∀ b ∈ (plainInTurn packets.flatten (m0, fun _ => false)).2, b = true) →
        (s.memory, s.poisoned) = (plainInTurn packets.flatten (m0, fun _ => false)).1 ∧
        ∀ x ∈ taken, s.jobs[x.1]? = some (.ended true)) := by
  have hdel : ∀ c ∈ begins ls, Delegates c := by
    intro c hc
    obtain ⟨calls, t, rfl, h1, h2⟩ := hd c hc
    exact (C110_handover calls t h1 h2 (m0, fun _ => false)).2.1
  obtain ⟨cs, hput, -⟩ := C110_order 1 m0 ls s h
  rw [← ht] at hput
  obtain ⟨hv1, hv2⟩ := C110 m0 ls s h hdel hs taken ht
  refine ⟨⟨cs, hput.symm⟩, ?_⟩
  have hfrom := put_from (fun t => ∃ calls, HandsOver calls t ∧ ∀ d ∈ calls, Nestable [] [] d) h (by
    intro c hc
    obtain ⟨calls, t, rfl, h1, h2⟩ := hd c hc
    exact ⟨t, ⟨calls, h1, h2⟩, rfl⟩)
  have hall : ∀ c ∈ taken.map Prod.snd, ∃ t, (∃ calls, HandsOver calls t ∧ ∀ d ∈ calls, Nestable [] [] d) ∧ c = .spawn t .done :=
    fun c hc => hfrom c (by rw [hput]; exact List.mem_append_left _ hc)
  have hex : ∀ cs : List (Chore σ), (∀ c ∈ cs, ∃ t, (∃ calls, HandsOver calls t ∧ ∀ d ∈ calls, Nestable [] [] d) ∧ c = .spawn t .done) →
      ∃ ps, Packets ps cs ∧ ∀ calls ∈ ps, ∀ d ∈ calls, Nestable [] [] d := by
    intro cs
    induction cs with
    | nil => exact fun _ => ⟨[], trivial, fun _ h => nomatch h⟩
    | cons c cs ih =>
      intro hc
      obtain ⟨ps, h1, h2⟩ := ih fun d hd => hc d (List.mem_cons_of_mem _ hd)
      obtain ⟨t, ⟨calls, h3, h4⟩, rfl⟩ := hc c List.mem_cons_self
      refine ⟨calls :: ps, ⟨⟨t, rfl, h3⟩, h1⟩, fun k hk => ?_⟩
      rcases List.mem_cons.mp hk with rfl | hk
      · exact h4
      · exact h2 k hk
  obtain ⟨ps, h1, h2⟩ := hex _ hall
  refine ⟨ps, h1, fun hfine => ?_⟩
  obtain ⟨g1, g2⟩ := packets_flat h1 h2 (m0, fun _ => false)
  have hfine' : (plainInTurn ps.flatten (m0, fun _ => false)).2.all id = true := by
    rw [List.all_eq_true]; exact hfine
  refine ⟨by rw [hv1, g2 hfine'], fun x hx => ?_⟩
  rw [hfine', List.all_eq_true] at g1
  have hmem : s.jobs[x.1]? ∈ taken.map (fun x => s.jobs[x.1]?) := List.mem_map_of_mem hx
  rw [hv2] at hmem
  obtain ⟨b, hb, e⟩ := List.mem_map.mp hmem
  rw [← e, show b = true from g1 b hb]

/-! ## Examples -/

/-- The receivers of `C109_held`, which hold a lock while they use the pool, keep the rule. -/
example : Nestable [] [] lockAcross ∧ Delegates (.spawn lockAcross .done) := by
  have : Nestable [] [] lockAcross :=
    ⟨by simp, by simp, fun _ => ⟨fun _ => rfl, rfl, by simp, rfl⟩⟩
  exact ⟨this, this, trivial⟩

/-- They can be the receivers of `C110_packets`. -/
example : ∃ calls t, (Chore.spawn lockAcross .done) = .spawn t .done ∧ HandsOver calls t ∧ ∀ d ∈ calls, Nestable [] [] d := by
  refine ⟨[lockAcross], lockAcross, rfl, ?_, ?_⟩
  · have := HandsOver.inOrder [lockAcross]
    exact this
  · intro d hd
    rw [List.mem_singleton.mp hd]
    exact ⟨by simp, by simp, fun _ => ⟨fun _ => rfl, rfl, by simp, rfl⟩⟩

/-- Taking again a lock that is held by who waits is against it. -/
example : ¬ Nestable [] [] (.lock 0 fun _ => .both lockBefore .done (.unlock 0 .done) : Chore Nat) := by
  rintro ⟨-, -, h⟩
  exact (h false).1.2.1 (by simp)

/-- The same two packets as in `C109_held`, on one thread. -/
def singleRun : List (NestLabel Nat) :=
  [.begin 2 (.spawn lockAcross .done), .begin 3 (.spawn lockAcross .done), .go 2, .go 3,
    .take 0 none, .go 0, .take 0 (some 0), .go 0, .go 0, .go 0, .go 0, .take 0 (some 0), .go 0, .go 0, .go 0, .go 0, .go 0, .go 0,
    .take 0 none, .go 0, .take 0 (some 0), .go 0, .go 0, .go 0, .go 0, .take 0 (some 0), .go 0, .go 0, .go 0, .go 0, .go 0, .go 0,
    .go 3, .go 3]

example : ((Nested.init 1 0).run singleRun).map (fun s => (s.jobs.map JobState.view, s.memory, s.stack 0, s.owner 0)) =
    some (.waits [2] :: List.replicate 9 (.ended true), 2, [], none) := by decide +kernel

/-- On the way, with the lock held by the first packet's receiver, the other packet cannot be begun. -/
example : ((Nested.init 1 0).run (singleRun.take 11)).map
    (fun s => (s.stack 0, s.owner 0, (s.step (.take 0 none)).isSome, (s.step (.take 0 (some 0))).isSome)) =
    some ([4, 2], some 4, false, true) := by decide +kernel

/-- A receiver that panics with a lock: the next one finds it poisoned, and the hand-over does not return. -/
example : let c : Chore Nat := .both (.lock 0 fun _ => .panic) (.lock 0 fun p => .step (fun _ => .unlock 0 .done) (if p then (· + 5) else id)) .done
    (plainly [] c (0, fun _ => false)).2 = false ∧ (plainly [] c (0, fun _ => false)).1.1 = 5 := ⟨rfl, rfl⟩

/-! ## Cases for the theorems above -/

/-- `C110_rest`, `C110_finish` and `C110_whole`: with the lock held by the first packet's receiver. -/
example (s : Nested Nat) (h : (Nested.init 1 0).run (singleRun.take 11) = some s) :
    (∃ more s', (∀ x ∈ more, Within x) ∧ s.run more = some s' ∧ AllOver s') ∧
    (∃ more s', (∀ x ∈ more, x = .go 0 ∨ x = .take 0 (some 0)) ∧ s.run more = some s' ∧ s'.stack 0 = []) ∧
    ∀ w s', s.step (.take w none) = some s' → s.owner 0 = none := by
  have hd : ∀ c ∈ begins (singleRun.take 11), Delegates c := by
    have hb : begins (singleRun.take 11) = [.spawn lockAcross .done, .spawn lockAcross .done] := rfl
    have hn : Nestable [] [] lockAcross := ⟨by simp, by simp, fun _ => ⟨fun _ => rfl, rfl, by simp, rfl⟩⟩
    rw [hb]
    intro c hc
    simp only [List.mem_cons, List.not_mem_nil, or_false, or_self] at hc
    subst hc
    exact ⟨hn, trivial⟩
  obtain ⟨more, s', h1, h2, h3, -⟩ := C110_finish 0 _ s h hd
  exact ⟨C110_rest 0 _ s h hd, ⟨more, s', h1, h2, h3⟩, fun w s' hx => (C110_whole 0 _ s h hd w s' hx).2.2 0⟩

/-- `C110`, `C110_progress` and `C110_stuck`: the whole run, its eleventh state and every state at rest. -/
example (s t : Nested Nat) (h : (Nested.init 1 0).run (singleRun.take 11) = some s) (h' : (Nested.init 1 0).run singleRun = some t) :
    ((s.step (.go 0)).isSome = true ∨ (s.step (.take 0 (some 0))).isSome = true) ∧
    ((∀ x, Within x → t.step x = none) → AllOver t) ∧
    (t.memory, t.poisoned) =
      (plainInTurn ((along takenNow (Nested.init 1 0) singleRun).map Prod.snd) ((0 : Nat), fun _ => false)).1 := by
  have hd : ∀ c ∈ begins singleRun, Delegates c := by
    have hb : begins singleRun = [.spawn lockAcross .done, .spawn lockAcross .done] := rfl
    have hn : Nestable [] [] lockAcross := ⟨by simp, by simp, fun _ => ⟨fun _ => rfl, rfl, by simp, rfl⟩⟩
    rw [hb]
    intro c hc
    simp only [List.mem_cons, List.not_mem_nil, or_false, or_self] at hc
    subst hc
    exact ⟨hn, trivial⟩
  have hs : s.stack 0 ≠ [] := by
    cases h
    decide +kernel
  have ht : t.stack 0 = [] := by
    cases h'
    decide +kernel
  exact ⟨C110_progress 0 _ s h hd hs, C110_stuck 0 _ t h' hd, (C110 0 _ t h' hd ht _ rfl).1⟩

/-- `C110_order`: the whole run. -/
example (s : Nested Nat) (h : (Nested.init 1 0).run singleRun = some s) := C110_order 1 0 _ s h

end Ipv8
