import Verif.Props.Python
import Verif.Model.Gil
/-!
# C113: Python threads that use the binding
-/

namespace Ipv8
open Spec PacketDeserializer

/-! ## Specification -/

/-- What a call gives, if it is made alone (C50, C51); `none` is a Rust panic. -/
def PyRequest.answer (R : Ring) : PyRequest → Option PyAnswer
  | .verify auth data =>
    match borrowedVerifySignature R auth data with
    | .ok (result, rest) => some (.verified result rest)
    | .raise e => some (.raised e)
    | .panic => none
  | .sign seed key data =>
    match borrowedCreateSignature R seed key data with
    | .ok signed => some (.signed signed)
    | .raise e => some (.raised e)
    | .panic => none

/-- The thread is computing without the GIL. -/
def PyThread.isChecking (x : PyThread) : Bool :=
  match x.phase with
  | .checking _ => true
  | _ => false

/-- The thread is in `borrowed_create_signature`. -/
def PyThread.isSigning (x : PyThread) : Bool :=
  match x.phase with
  | .signing => true
  | _ => false

/-- Everything has been answered. -/
def PyProcess.AllAnswered (s : PyProcess) : Prop := ∀ x ∈ s.threads, x.todo = []

/-- Nobody makes a call that panics. -/
def PyProcess.Harmless (R : Ring) (s : PyProcess) : Prop := ∀ x ∈ s.threads, ∀ r ∈ x.asked, r.answer R ≠ none

/-! ## Proofs -/

/-- What is true of a thread. -/
structure PyThread.Ok (R : Ring) (x : PyThread) : Prop where
  answers : ∃ done, x.asked = done ++ x.todo ∧ done.map (PyRequest.answer R) = x.answers.map some
  checking : ∀ de, x.phase = .checking de → ∃ a d rest, x.todo = .verify a d :: rest ∧
    (⟨d⟩ : Packet).startDeserialize.skipHeader = .ok de
  checked : ∀ b de, x.phase = .checked b de → ∃ a d rest de0, x.todo = .verify a d :: rest ∧
    (⟨d⟩ : Packet).startDeserialize.skipHeader = .ok de0 ∧ de0.verify R = (.ok b, de)
  signing : x.phase = .signing → ∃ s k d rest, x.todo = .sign s k d :: rest

/-- What always holds. -/
structure PyProcess.Ok (R : Ring) (s : PyProcess) : Prop where
  threads : ∀ x ∈ s.threads, x.Ok R
  gil : ∀ (i j : Nat) x y, s.threads[i]? = some x → s.threads[j]? = some y → x.hasGil = true → y.hasGil = true → i = j
  lost : s.lost = true → ∃ x ∈ s.threads, ∃ r rest, x.todo = r :: rest ∧ r.answer R = none

theorem PyThread.Ok.reply {R : Ring} {x : PyThread} (h : x.Ok R) {r : PyRequest} {rest : List PyRequest}
    (hx : x.todo = r :: rest) {a : PyAnswer} (ha : r.answer R = some a) : (x.reply a).Ok R := by
  obtain ⟨done, h1, h2⟩ := h.answers
  refine ⟨⟨done ++ [r], ?_, ?_⟩, ?_, ?_, ?_⟩
  · simp [PyThread.reply, h1, hx]
  · simp [PyThread.reply, h2, ha]
  · intro _ e; cases e
  · intro _ _ e; cases e
  · intro e; cases e

theorem PyProcess.Ok.put {R : Ring} {s : PyProcess} (h : s.Ok R) {t : Nat} {x y : PyThread}
    (ht : s.threads[t]? = some x) (hy : y.Ok R) (hl : s.lost = false)
    (hg : y.hasGil = true → x.hasGil = true ∨ s.gilFree = true) : (s.put t y).Ok R := by
  have hlt : t < s.threads.length := by
    rw [List.getElem?_eq_some_iff] at ht; exact ht.1
  have at_t : (s.put t y).threads[t]? = some y := by simp [PyProcess.put, hlt]
  have off : ∀ i : Nat, i ≠ t → (s.put t y).threads[i]? = s.threads[i]? := fun i hi => by
    simp only [PyProcess.put]; rw [List.getElem?_set]; simp [Ne.symm hi]
  refine ⟨fun z hz => ?_, fun i j a b hi hj ha hb => ?_, fun e => ?_⟩
  · rcases List.mem_or_eq_of_mem_set hz with hz | rfl
    · exact h.threads z hz
    · exact hy
  · have free : ∀ k z, k ≠ t → s.threads[k]? = some z → z.hasGil = true → y.hasGil = true → False := by
      intro k z hk hz hzg hyg
      rcases hg hyg with hg | hg
      · exact hk (h.gil k t z x hz ht hzg hg)
      · have := List.all_eq_true.mp hg z (List.mem_of_getElem? hz)
        rw [hzg] at this; cases this
    by_cases hit : i = t <;> by_cases hjt : j = t
    · rw [hit, hjt]
    · subst hit
      rw [at_t] at hi; cases hi
      rw [off j hjt] at hj
      exact (free j b hjt hj hb ha).elim
    · subst hjt
      rw [at_t] at hj; cases hj
      rw [off i hit] at hi
      exact (free i a hit hi ha hb).elim
    · rw [off i hit] at hi
      rw [off j hjt] at hj
      exact h.gil i j a b hi hj ha hb
  · rw [show (s.put t y).lost = s.lost from rfl, hl] at e; cases e

theorem PyProcess.Ok.lose {R : Ring} {s : PyProcess} (h : s.Ok R) {t : Nat} {x : PyThread} {r : PyRequest}
    {rest : List PyRequest} (ht : s.threads[t]? = some x) (hx : x.todo = r :: rest) (hr : r.answer R = none) :
    ({ s with lost := true } : PyProcess).Ok R :=
  ⟨h.threads, h.gil, fun _ => ⟨x, List.mem_of_getElem? ht, r, rest, hx, hr⟩⟩

theorem PyProcess.Ok.step {R : Ring} {s s' : PyProcess} {l : PyLabel} (h : s.Ok R) (hs : s.step R l = some s') :
    s'.Ok R := by
  unfold PyProcess.step at hs
  split at hs
  · cases hs
  rename_i hl
  have hl : s.lost = false := by simpa using hl
  cases l with
  | spawn calls =>
    cases hs
    refine ⟨fun x hx => ?_, fun i j x y hi hj hxg hyg => ?_, fun e => ?_⟩
    · rcases List.mem_append.mp hx with hx | hx
      · exact h.threads x hx
      · rw [List.mem_singleton] at hx
        subst hx
        exact ⟨⟨[], rfl, rfl⟩, (fun _ e => by cases e), (fun _ _ e => by cases e), (fun e => by cases e)⟩
    · have key : ∀ (k : Nat) z, (s.threads ++ [⟨calls, .waiting, [], calls⟩])[k]? = some z → z.hasGil = true →
          s.threads[k]? = some z := by
        intro k z hk hz
        rw [List.getElem?_append] at hk
        split at hk
        · exact hk
        · have : z = ⟨calls, .waiting, [], calls⟩ := by
            have := List.mem_of_getElem? hk
            simpa using this
          subst this; cases hz
      exact h.gil i j x y (key i x hi hxg) (key j y hj hyg) hxg hyg
    · rw [hl] at e; cases e
  | acquire t =>
    dsimp only at hs
    split at hs
    · rename_i todo answers asked ht
      split at hs
      · rename_i hg
        cases hs
        have hx := h.threads _ (List.mem_of_getElem? ht)
        exact h.put ht ⟨hx.answers, (fun _ e => by cases e), (fun _ _ e => by cases e), (fun e => by cases e)⟩ hl fun _ => .inr hg
      · cases hs
    · cases hs
  | release t =>
    dsimp only at hs
    split at hs
    · rename_i todo answers asked ht
      cases hs
      have hx := h.threads _ (List.mem_of_getElem? ht)
      exact h.put ht ⟨hx.answers, (fun _ e => by cases e), (fun _ _ e => by cases e), (fun e => by cases e)⟩ hl fun e => by cases e
    · cases hs
  | call t =>
    dsimp only at hs
    split at hs
    · rename_i a d todo answers asked ht
      have hx := h.threads _ (List.mem_of_getElem? ht)
      split at hs
      · rename_i de hde
        cases hs
        refine h.put ht ⟨hx.answers, fun de' e => ?_, (fun _ _ e => by cases e), (fun e => by cases e)⟩ hl fun e => by cases e
        cases e
        exact ⟨a, d, todo, rfl, hde⟩
      · rename_i e he
        cases hs
        refine h.put ht (hx.reply rfl ?_) hl fun _ => .inl rfl
        simp only [PyRequest.answer, borrowedVerifySignature, he, PyOutcome.orRaise]
      · rename_i he
        cases hs
        refine h.lose ht rfl ?_
        simp only [PyRequest.answer, borrowedVerifySignature, he, PyOutcome.orRaise]
    · rename_i sd k d todo answers asked ht
      have hx := h.threads _ (List.mem_of_getElem? ht)
      cases hs
      exact h.put ht ⟨hx.answers, (fun _ e => by cases e), (fun _ _ e => by cases e), fun _ => ⟨sd, k, d, todo, rfl⟩⟩ hl
        fun _ => .inl rfl
    · cases hs
  | check t =>
    dsimp only at hs
    split at hs
    · rename_i todo de answers asked ht
      have hx := h.threads _ (List.mem_of_getElem? ht)
      obtain ⟨a, d, rest, htodo, hde⟩ := hx.checking de rfl
      split at hs
      · rename_i b de' hv
        cases hs
        refine h.put ht ⟨hx.answers, (fun _ e => by cases e), fun b' de'' e => ?_, (fun e => by cases e)⟩ hl fun e => by cases e
        cases e
        exact ⟨a, d, rest, de, htodo, hde, hv⟩
      · rename_i hno
        cases hs
        refine h.lose ht htodo ?_
        simp only [PyRequest.answer, borrowedVerifySignature, hde, PyOutcome.orRaise]
        rcases hv : de.verify R with ⟨o, de'⟩
        cases o with
        | ok b => exact absurd hv (hno b de')
        | err e => rfl
        | panic => rfl
    · cases hs
  | back t =>
    dsimp only at hs
    split at hs
    · rename_i todo b de answers asked ht
      have hx := h.threads _ (List.mem_of_getElem? ht)
      obtain ⟨a, d, rest, de0, htodo, hde, hv⟩ := hx.checked b de rfl
      split at hs
      · rename_i hg
        split at hs
        · rename_i out hsl
          cases hs
          refine h.put ht (hx.reply htodo ?_) hl fun _ => .inr hg
          simp only [PyRequest.answer, borrowedVerifySignature, hde, PyOutcome.orRaise, hv, hsl]
        · rename_i hno
          cases hs
          refine h.lose ht htodo ?_
          simp only [PyRequest.answer, borrowedVerifySignature, hde, PyOutcome.orRaise, hv]
          cases hsl : sliceFrom de.pntr.bytes de.index with
          | ok o => exact absurd hsl (hno o)
          | err e => rfl
          | panic => rfl
      · cases hs
    · cases hs
  | finish t =>
    dsimp only at hs
    split at hs
    · rename_i sd k d todo answers asked ht
      have hx := h.threads _ (List.mem_of_getElem? ht)
      split at hs
      · rename_i out ho
        cases hs
        refine h.put ht (hx.reply rfl ?_) hl fun _ => .inl rfl
        simp only [PyRequest.answer, ho]
      · rename_i e ho
        cases hs
        refine h.put ht (hx.reply rfl ?_) hl fun _ => .inl rfl
        simp only [PyRequest.answer, ho]
      · rename_i ho
        cases hs
        refine h.lose ht rfl ?_
        simp only [PyRequest.answer, ho]
    · cases hs

theorem PyProcess.Ok.run {R : Ring} {s s' : PyProcess} {ls : List PyLabel} (h : s.Ok R) (hs : s.run R ls = some s') :
    s'.Ok R := by
  induction ls generalizing s with
  | nil => cases hs; exact h
  | cons l ls ih =>
    unfold PyProcess.run at hs
    split at hs
    · rename_i s1 h1
      exact ih (h.step h1) hs
    · cases hs

theorem PyProcess.Ok.reached {R : Ring} {s : PyProcess} {ls : List PyLabel} (h : PyProcess.init.run R ls = some s) :
    s.Ok R := by
  refine PyProcess.Ok.run ⟨(fun x hx => by cases hx), fun i j x y hi => ?_, (fun e => by cases e)⟩ h
  simp [PyProcess.init] at hi

/-- **C113.**  However Python threads take turns: the answers a thread has got are those of its first calls, one after the other, as if
each was made alone. -/
theorem C113 (R : Ring) (ls : List PyLabel) (s : PyProcess) (h : PyProcess.init.run R ls = some s) (x : PyThread)
    (hx : x ∈ s.threads) : ∃ done, x.asked = done ++ x.todo ∧ done.map (PyRequest.answer R) = x.answers.map some :=
  ((PyProcess.Ok.reached h).threads x hx).answers

/-- **C113, the lock.**  At most one thread is in Python code or in Rust code that uses Python objects. -/
theorem C113_lock (R : Ring) (ls : List PyLabel) (s : PyProcess) (h : PyProcess.init.run R ls = some s) (i j : Nat)
    (x y : PyThread) (hi : s.threads[i]? = some x) (hj : s.threads[j]? = some y) (hx : x.hasGil = true)
    (hy : y.hasGil = true) : i = j :=
  (PyProcess.Ok.reached h).gil i j x y hi hj hx hy

/-- **C113, what loses the process.**  Only a call that panics when it is made alone (C50 says which) does. -/
theorem C113_lost (R : Ring) (ls : List PyLabel) (s : PyProcess) (h : PyProcess.init.run R ls = some s)
    (hs : s.Harmless R) : s.lost = false := by
  cases hl : s.lost with
  | false => rfl
  | true =>
    obtain ⟨x, hx, r, rest, h1, h2⟩ := (PyProcess.Ok.reached h).lost hl
    obtain ⟨done, h3, -⟩ := ((PyProcess.Ok.reached h).threads x hx).answers
    exact absurd h2 (hs x hx r (by rw [h3, h1]; simp))

theorem PyProcess.run_append {R : Ring} {s s' s'' : PyProcess} {xs ys : List PyLabel} (h : s.run R xs = some s')
    (h' : s'.run R ys = some s'') : s.run R (xs ++ ys) = some s'' := by
  induction xs generalizing s with
  | nil => cases h; exact h'
  | cons x xs ih =>
    simp only [PyProcess.run, List.cons_append] at h ⊢
    split at h
    · exact ih h
    · cases h

theorem PyProcess.put_put (s : PyProcess) (t : Nat) (x y : PyThread) : (s.put t x).put t y = s.put t y := by
  simp [PyProcess.put]

theorem PyProcess.put_at {s : PyProcess} {t : Nat} {x : PyThread} (h : s.threads[t]? = some x) (y : PyThread) :
    (s.put t y).threads[t]? = some y := by
  have hlt : t < s.threads.length := by
    rw [List.getElem?_eq_some_iff] at h; exact h.1
  simp [PyProcess.put, hlt]

theorem PyProcess.release_put {R : Ring} {s : PyProcess} {t : Nat} {x : PyThread} (ht : s.threads[t]? = some x)
    (hl : s.lost = false) (todo : List PyRequest) (answers : List PyAnswer) (asked : List PyRequest) :
    (s.put t ⟨todo, .running, answers, asked⟩).step R (.release t) = some (s.put t ⟨todo, .waiting, answers, asked⟩) := by
  have hl' : (s.put t ⟨todo, .running, answers, asked⟩).lost = false := hl
  simp only [PyProcess.step, hl', Bool.false_eq_true, if_false, PyProcess.put_at ht, PyProcess.put_put]

theorem PyProcess.put_free {s : PyProcess} (h : s.gilFree = true) (t : Nat) {y : PyThread} (hy : y.hasGil = false) :
    (s.put t y).gilFree = true := by
  refine List.all_eq_true.mpr fun z hz => ?_
  rcases List.mem_or_eq_of_mem_set hz with hz | rfl
  · exact List.all_eq_true.mp h z hz
  · rw [hy]; rfl

/-- Let one thread get through with one call, alone. -/
theorem PyProcess.Ok.serve {R : Ring} {s : PyProcess} (h : s.Ok R) (hl : s.lost = false) (hg : s.gilFree = true) {t : Nat}
    {x : PyThread} (ht : s.threads[t]? = some x) {r : PyRequest} {rest : List PyRequest} (hx : x.todo = r :: rest) :
    ∃ ls s', s.run R ls = some s' ∧
      ((∃ a, r.answer R = some a ∧ s' = s.put t ⟨rest, .waiting, x.answers ++ [a], x.asked⟩) ∨
        (r.answer R = none ∧ s'.lost = true)) := by
  have hok := h.threads x (List.mem_of_getElem? ht)
  have hngil := List.all_eq_true.mp hg x (List.mem_of_getElem? ht)
  obtain ⟨todo, phase, answers, asked⟩ := x
  dsimp only at hx
  subst hx
  -- from `checked` on
  have last : ∀ (s1 : PyProcess) b de de0 a d, s1.threads[t]? = some ⟨r :: rest, .checked b de, answers, asked⟩ →
      s1.lost = false → s1.gilFree = true → r = .verify a d → (⟨d⟩ : Packet).startDeserialize.skipHeader = .ok de0 →
      de0.verify R = (.ok b, de) → ∃ ls s', s1.run R ls = some s' ∧
      ((∃ a, r.answer R = some a ∧ s' = s1.put t ⟨rest, .waiting, answers ++ [a], asked⟩) ∨
        (r.answer R = none ∧ s'.lost = true)) := by
    intro s1 b de de0 a d h1 h2 h3 hr hde hv
    subst hr
    cases hsl : sliceFrom de.pntr.bytes de.index with
    | ok out =>
      refine ⟨[.back t, .release t], _, ?_, .inl ⟨.verified b out, ?_, rfl⟩⟩
      · simp only [PyProcess.run, PyProcess.step, h1, h2, h3, hsl, Bool.false_eq_true, if_false, if_true, PyThread.reply]
        rw [PyProcess.put_at h1]
        simp only [PyProcess.put, h2, Bool.false_eq_true, if_false, List.tail_cons, List.set_set]
      · simp only [PyRequest.answer, borrowedVerifySignature, hde, PyOutcome.orRaise, hv, hsl]
    | err e =>
      refine ⟨[.back t], { s1 with lost := true }, ?_, .inr ⟨?_, rfl⟩⟩
      · simp only [PyProcess.run, PyProcess.step, h1, h2, h3, hsl, Bool.false_eq_true, if_false, if_true]
      · simp only [PyRequest.answer, borrowedVerifySignature, hde, PyOutcome.orRaise, hv, hsl]
    | panic =>
      refine ⟨[.back t], { s1 with lost := true }, ?_, .inr ⟨?_, rfl⟩⟩
      · simp only [PyProcess.run, PyProcess.step, h1, h2, h3, hsl, Bool.false_eq_true, if_false, if_true]
      · simp only [PyRequest.answer, borrowedVerifySignature, hde, PyOutcome.orRaise, hv, hsl]
  -- from `checking` on
  have middle : ∀ (s1 : PyProcess) de a d, s1.threads[t]? = some ⟨r :: rest, .checking de, answers, asked⟩ →
      s1.lost = false → s1.gilFree = true → r = .verify a d → (⟨d⟩ : Packet).startDeserialize.skipHeader = .ok de →
      ∃ ls s', s1.run R ls = some s' ∧
      ((∃ a, r.answer R = some a ∧ s' = s1.put t ⟨rest, .waiting, answers ++ [a], asked⟩) ∨
        (r.answer R = none ∧ s'.lost = true)) := by
    intro s1 de a d h1 h2 h3 hr hde
    rcases hv : de.verify R with ⟨o, de'⟩
    have bad : (∀ b, o ≠ .ok b) → ∃ ls s', s1.run R ls = some s' ∧
        ((∃ a, r.answer R = some a ∧ s' = s1.put t ⟨rest, .waiting, answers ++ [a], asked⟩) ∨
        (r.answer R = none ∧ s'.lost = true)) := by
      intro hno
      refine ⟨[.check t], { s1 with lost := true }, ?_, .inr ⟨?_, rfl⟩⟩
      · simp only [PyProcess.run, PyProcess.step, h1, h2, hv, Bool.false_eq_true, if_false]
        cases o with
        | ok b => exact absurd rfl (hno b)
        | err e => rfl
        | panic => rfl
      · subst hr
        simp only [PyRequest.answer, borrowedVerifySignature, hde, PyOutcome.orRaise, hv]
        cases o with
        | ok b => exact absurd rfl (hno b)
        | err e => rfl
        | panic => rfl
    cases o with
    | ok b =>
      obtain ⟨ls, s', k1, k2⟩ := last (s1.put t ⟨r :: rest, .checked b de', answers, asked⟩) b de' de a d
        (PyProcess.put_at h1 _) h2 (PyProcess.put_free h3 t rfl) hr hde hv
      refine ⟨.check t :: ls, s', ?_, ?_⟩
      · simp only [PyProcess.run, PyProcess.step, h1, h2, hv, Bool.false_eq_true, if_false]
        exact k1
      · simpa only [PyProcess.put_put] using k2
    | err e => exact bad fun b => nofun
    | panic => exact bad fun b => nofun
  cases phase with
  | running => cases hngil
  | signing => cases hngil
  | checking de =>
    obtain ⟨a, d, rest', h1, h2⟩ := hok.checking de rfl
    cases h1
    exact middle s de a d ht hl hg rfl h2
  | checked b de =>
    obtain ⟨a, d, rest', de0, h1, h2, h3⟩ := hok.checked b de rfl
    cases h1
    exact last s b de de0 a d ht hl hg rfl h2 h3
  | waiting =>
    have acq : s.step R (.acquire t) = some (s.put t ⟨r :: rest, .running, answers, asked⟩) := by
      simp only [PyProcess.step, ht, hl, hg, Bool.false_eq_true, if_false, if_true]
    have hat := PyProcess.put_at ht ⟨r :: rest, .running, answers, asked⟩
    have hl' : (s.put t ⟨r :: rest, .running, answers, asked⟩).lost = false := hl
    cases r with
    | verify a d =>
      cases hde : (⟨d⟩ : Packet).startDeserialize.skipHeader with
      | ok de =>
        obtain ⟨ls, s', k1, k2⟩ := middle (s.put t ⟨.verify a d :: rest, .checking de, answers, asked⟩) de a d
          (PyProcess.put_at ht _) hl (PyProcess.put_free hg t rfl) rfl hde
        refine ⟨.acquire t :: .call t :: ls, s', ?_, ?_⟩
        · simp only [PyProcess.run, acq]
          simp only [PyProcess.step, hat, hl', hde, Bool.false_eq_true, if_false, PyProcess.put_put]
          exact k1
        · simpa only [PyProcess.put_put] using k2
      | err e =>
        refine ⟨[.acquire t, .call t, .release t], _, ?_, .inl ⟨.raised (.valueError "Could not ignore the header"), ?_, rfl⟩⟩
        · simp only [PyProcess.run, acq]
          simp only [PyProcess.step, hat, hl', hde, Bool.false_eq_true, if_false, PyProcess.put_put, PyThread.reply,
            List.tail_cons, PyProcess.put_at ht]
          simp only [PyProcess.put, hl, Bool.false_eq_true, if_false]
        · simp only [PyRequest.answer, borrowedVerifySignature, hde, PyOutcome.orRaise]
      | panic =>
        refine ⟨[.acquire t, .call t], { s.put t ⟨.verify a d :: rest, .running, answers, asked⟩ with lost := true }, ?_,
          .inr ⟨?_, ?_⟩⟩
        · simp only [PyProcess.run, acq]
          simp only [PyProcess.step, hat, hl', hde, Bool.false_eq_true, if_false]
        · simp only [PyRequest.answer, borrowedVerifySignature, hde, PyOutcome.orRaise]
        · rfl
    | sign sd k d =>
      have call : (s.put t ⟨.sign sd k d :: rest, .running, answers, asked⟩).step R (.call t) =
          some (s.put t ⟨.sign sd k d :: rest, .signing, answers, asked⟩) := by
        simp only [PyProcess.step, hat, hl', Bool.false_eq_true, if_false, PyProcess.put_put]
      have hat2 := PyProcess.put_at ht ⟨.sign sd k d :: rest, .signing, answers, asked⟩
      have hl2 : (s.put t ⟨.sign sd k d :: rest, .signing, answers, asked⟩).lost = false := hl
      have good : ∀ a, PyRequest.answer R (.sign sd k d) = some a →
          (s.put t ⟨.sign sd k d :: rest, .signing, answers, asked⟩).step R (.finish t) =
            some (s.put t ⟨rest, .running, answers ++ [a], asked⟩) := by
        intro a ha
        simp only [PyRequest.answer] at ha
        simp only [PyProcess.step, hat2, hl2, Bool.false_eq_true, if_false]
        cases ho : borrowedCreateSignature R sd k d <;> rw [ho] at ha <;> cases ha <;>
          simp only [PyProcess.put_put] <;> rfl
      cases ha : PyRequest.answer R (.sign sd k d) with
      | some a =>
        refine ⟨[.acquire t, .call t, .finish t, .release t], _, ?_, .inl ⟨a, rfl, rfl⟩⟩
        simp only [PyProcess.run, acq, call, good a ha, PyProcess.release_put ht hl]
      | none =>
        refine ⟨[.acquire t, .call t, .finish t],
          { s.put t ⟨.sign sd k d :: rest, .signing, answers, asked⟩ with lost := true }, ?_, .inr ⟨rfl, rfl⟩⟩
        simp only [PyProcess.run, acq, call]
        simp only [PyRequest.answer] at ha
        simp only [PyProcess.step, hat2, hl2, Bool.false_eq_true, if_false]
        cases ho : borrowedCreateSignature R sd k d <;> rw [ho] at ha <;> cases ha <;> rfl

/-- Let the thread that has the GIL, if there is one, get to where it can give it back. -/
theorem PyProcess.Ok.clear {R : Ring} {s : PyProcess} (h : s.Ok R) (hl : s.lost = false) :
    ∃ ls s', s.run R ls = some s' ∧ (s'.lost = true ∧ ¬ s.Harmless R ∨
      s'.lost = false ∧ s'.gilFree = true ∧ (s' = s ∨ ∃ (t : Nat) (x y : PyThread), s.threads[t]? = some x ∧ x.hasGil = true ∧
        s' = s.put t y ∧ y.asked = x.asked ∧ y.todo.length ≤ x.todo.length)) := by
  cases hg : s.gilFree with
  | true => exact ⟨[], s, rfl, .inr ⟨hl, hg, .inl rfl⟩⟩
  | false =>
    obtain ⟨x, hx, hxg⟩ : ∃ x ∈ s.threads, x.hasGil = true := by
      simpa [PyProcess.gilFree] using hg
    obtain ⟨t, ht⟩ := List.getElem?_of_mem hx
    have free : ∀ y : PyThread, y.hasGil = false → (s.put t y).gilFree = true := by
      intro y hy
      refine List.all_eq_true.mpr fun z hz => ?_
      obtain ⟨j, hj⟩ := List.getElem?_of_mem hz
      by_cases hjt : j = t
      · subst hjt
        rw [PyProcess.put_at ht] at hj
        cases hj
        rw [hy]; rfl
      · have : s.threads[j]? = some z := by
          simp only [PyProcess.put] at hj
          rw [List.getElem?_set, if_neg (Ne.symm hjt)] at hj
          exact hj
        cases hzg : z.hasGil with
        | false => rfl
        | true => exact absurd (h.gil j t z x this ht hzg hxg) hjt
    have hok := h.threads x hx
    obtain ⟨todo, phase, answers, asked⟩ := x
    cases phase with
    | waiting => cases hxg
    | checking de => cases hxg
    | checked b de => cases hxg
    | running =>
      refine ⟨[.release t], s.put t ⟨todo, .waiting, answers, asked⟩, ?_,
        .inr ⟨hl, free _ rfl, .inr ⟨t, _, _, ht, rfl, rfl, rfl, Nat.le_refl _⟩⟩⟩
      simp only [PyProcess.run, PyProcess.step, ht, hl, Bool.false_eq_true, if_false]
    | signing =>
      obtain ⟨sd, k, d, rest, htodo⟩ := hok.signing rfl
      dsimp only at htodo
      subst htodo
      have good : ∀ a, PyRequest.answer R (.sign sd k d) = some a →
          s.step R (.finish t) = some (s.put t ⟨rest, .running, answers ++ [a], asked⟩) := by
        intro a ha
        simp only [PyRequest.answer] at ha
        simp only [PyProcess.step, ht, hl, Bool.false_eq_true, if_false]
        cases ho : borrowedCreateSignature R sd k d <;> rw [ho] at ha <;> cases ha <;> rfl
      cases ha : PyRequest.answer R (.sign sd k d) with
      | some a =>
        refine ⟨[.finish t, .release t], s.put t ⟨rest, .waiting, answers ++ [a], asked⟩, ?_,
          .inr ⟨hl, free _ rfl, .inr ⟨t, _, _, ht, rfl, rfl, rfl, by simp⟩⟩⟩
        simp only [PyProcess.run, good a ha]
        simp only [PyProcess.step, PyProcess.put_at ht]
        simp only [PyProcess.put, hl, Bool.false_eq_true, if_false, List.set_set]
      | none =>
        refine ⟨[.finish t], { s with lost := true }, ?_, .inl ⟨rfl, fun hh => ?_⟩⟩
        · simp only [PyRequest.answer] at ha
          simp only [PyProcess.run, PyProcess.step, ht, hl, Bool.false_eq_true, if_false]
          cases ho : borrowedCreateSignature R sd k d <;> rw [ho] at ha <;> cases ha <;> rfl
        · obtain ⟨done, h1, -⟩ := hok.answers
          exact hh _ hx (.sign sd k d) (by rw [h1]; simp) ha

theorem PyProcess.Harmless.put {R : Ring} {s : PyProcess} (h : s.Harmless R) {t : Nat} {x y : PyThread}
    (ht : s.threads[t]? = some x) (hy : y.asked = x.asked) : (s.put t y).Harmless R := by
  intro z hz
  rcases List.mem_or_eq_of_mem_set hz with hz | rfl
  · exact h z hz
  · rw [hy]; exact h x (List.mem_of_getElem? ht)

/-- How many calls are open. -/
def PyProcess.open (s : PyProcess) : Nat := (s.threads.map fun x => x.todo.length).sum

theorem PyProcess.open_put {s : PyProcess} {t : Nat} {x y : PyThread} (ht : s.threads[t]? = some x) :
    (s.put t y).open + x.todo.length = s.open + y.todo.length := by
  obtain ⟨ts, l⟩ := s
  simp only [PyProcess.open, PyProcess.put] at ht ⊢
  induction ts generalizing t with
  | nil => cases ht
  | cons z ts ih =>
    cases t with
    | zero => cases ht; simp; omega
    | succ t =>
      have := ih (t := t) ht
      simp at this ⊢
      omega

/-- **C113, nobody is stuck.**  From every state, if nobody makes a call that panics, all calls of all threads can be
answered. -/
theorem C113_through (R : Ring) (ls : List PyLabel) (s : PyProcess) (h : PyProcess.init.run R ls = some s)
    (hs : s.Harmless R) : ∃ ls' s', s.run R ls' = some s' ∧ s'.AllAnswered ∧ s'.lost = false ∧
      s'.threads.map PyThread.asked = s.threads.map PyThread.asked := by
  have hok := PyProcess.Ok.reached h
  have hl := C113_lost R ls s h hs
  clear h ls
  have asked_put : ∀ (s : PyProcess) (t : Nat) (x y : PyThread), s.threads[t]? = some x → y.asked = x.asked →
      (s.put t y).threads.map PyThread.asked = s.threads.map PyThread.asked := by
    intro s t x y ht hy
    simp only [PyProcess.put, List.map_set]
    apply List.ext_getElem?
    intro i
    rw [List.getElem?_set]
    split
    · rename_i hit; subst hit
      have hlt := (List.getElem?_eq_some_iff.mp ht).1
      rw [if_pos (by simpa using hlt), List.getElem?_map, ht, hy]; rfl
    · rfl
  generalize hn : s.open = n
  induction n using Nat.strongRecOn generalizing s with
  | ind n ih =>
    obtain ⟨ls1, s1, h1, h2⟩ := hok.clear hl
    rcases h2 with ⟨-, hbad⟩ | ⟨hl1, hg1, h2⟩
    · exact absurd hs hbad
    have hok1 := hok.run h1
    have hs1 : s1.Harmless R ∧ s1.open ≤ s.open ∧ s1.threads.map PyThread.asked = s.threads.map PyThread.asked := by
      rcases h2 with rfl | ⟨t, x, y, k1, k2, rfl, k3, k4⟩
      · exact ⟨hs, Nat.le_refl _, rfl⟩
      · have := PyProcess.open_put (y := y) k1
        exact ⟨hs.put k1 k3, by omega, asked_put s t x y k1 k3⟩
    by_cases hall : s1.AllAnswered
    · exact ⟨ls1, s1, h1, hall, hl1, hs1.2.2⟩
    · have : ∃ x ∈ s1.threads, x.todo ≠ [] := by
        simpa [PyProcess.AllAnswered] using hall
      obtain ⟨x, hx, hne⟩ := this
      obtain ⟨t, ht⟩ := List.getElem?_of_mem hx
      cases htodo : x.todo with
      | nil => exact absurd htodo hne
      | cons r rest =>
        obtain ⟨ls2, s2, h3, h4⟩ := hok1.serve hl1 hg1 ht htodo
        rcases h4 with ⟨a, -, rfl⟩ | ⟨hbad, -⟩
        · have ho := PyProcess.open_put (y := ⟨rest, .waiting, x.answers ++ [a], x.asked⟩) ht
          rw [htodo] at ho
          simp only [List.length_cons] at ho
          have ha := asked_put s1 t x ⟨rest, .waiting, x.answers ++ [a], x.asked⟩ ht rfl
          obtain ⟨ls3, s3, h5, h6, h7, h8⟩ := ih _ (by omega) (s1.put t ⟨rest, .waiting, x.answers ++ [a], x.asked⟩)
            (hs1.1.put ht rfl) (hok1.run h3) hl1 rfl
          exact ⟨ls1 ++ (ls2 ++ ls3), s3, PyProcess.run_append h1 (PyProcess.run_append h3 h5), h6, h7,
            h8.trans (ha.trans hs1.2.2)⟩
        · obtain ⟨done, k1, -⟩ := (hok1.threads x hx).answers
          exact absurd hbad (hs1.1 x hx r (by rw [k1, htodo]; simp))

theorem PyProcess.step_keeps {R : Ring} {s s' : PyProcess} {l : PyLabel} (hs : s.step R l = some s') {t : Nat}
    {x : PyThread} (ht : s.threads[t]? = some x) :
    ∃ x', s'.threads[t]? = some x' ∧ x'.asked = x.asked ∧ x.answers <+: x'.answers := by
  have put : ∀ (k : Nat) (y z : PyThread), s.threads[k]? = some y → z.asked = y.asked → y.answers <+: z.answers →
      ∃ x', (s.put k z).threads[t]? = some x' ∧ x'.asked = x.asked ∧ x.answers <+: x'.answers := by
    intro k y z hk h1 h2
    by_cases hkt : k = t
    · subst hkt
      rw [ht] at hk; cases hk
      exact ⟨z, PyProcess.put_at ht z, h1, h2⟩
    · refine ⟨x, ?_, rfl, List.prefix_rfl⟩
      simp only [PyProcess.put]
      rw [List.getElem?_set, if_neg hkt, ht]
  have same : ∃ x', s.threads[t]? = some x' ∧ x'.asked = x.asked ∧ x.answers <+: x'.answers :=
    ⟨x, ht, rfl, List.prefix_rfl⟩
  unfold PyProcess.step at hs
  split at hs
  · cases hs
  cases l with
  | spawn calls =>
    cases hs
    refine ⟨x, ?_, rfl, List.prefix_rfl⟩
    simp only
    rw [List.getElem?_append_left (List.getElem?_eq_some_iff.mp ht).1, ht]
  | acquire k =>
    dsimp only at hs
    split at hs
    · rename_i hk
      split at hs
      · cases hs; exact put _ _ _ hk rfl List.prefix_rfl
      · cases hs
    · cases hs
  | release k =>
    dsimp only at hs
    split at hs
    · rename_i hk
      cases hs; exact put _ _ _ hk rfl List.prefix_rfl
    · cases hs
  | call k =>
    dsimp only at hs
    split at hs
    · rename_i hk
      split at hs
      · cases hs; exact put _ _ _ hk rfl List.prefix_rfl
      · cases hs; exact put _ _ _ hk rfl (List.prefix_append _ _)
      · cases hs; exact same
    · rename_i hk
      cases hs; exact put _ _ _ hk rfl List.prefix_rfl
    · cases hs
  | check k =>
    dsimp only at hs
    split at hs
    · rename_i hk
      split at hs
      · cases hs; exact put _ _ _ hk rfl List.prefix_rfl
      · cases hs; exact same
    · cases hs
  | back k =>
    dsimp only at hs
    split at hs
    · rename_i hk
      split at hs
      · split at hs
        · cases hs; exact put _ _ _ hk rfl (List.prefix_append _ _)
        · cases hs; exact same
      · cases hs
    · cases hs
  | finish k =>
    dsimp only at hs
    split at hs
    · rename_i hk
      split at hs
      · cases hs; exact put _ _ _ hk rfl (List.prefix_append _ _)
      · cases hs; exact put _ _ _ hk rfl (List.prefix_append _ _)
      · cases hs; exact same
    · cases hs

theorem PyProcess.run_keeps {R : Ring} {s s' : PyProcess} {ls : List PyLabel} (hs : s.run R ls = some s') {t : Nat}
    {x : PyThread} (ht : s.threads[t]? = some x) :
    ∃ x', s'.threads[t]? = some x' ∧ x'.asked = x.asked ∧ x.answers <+: x'.answers := by
  induction ls generalizing s x with
  | nil => cases hs; exact ⟨x, ht, rfl, List.prefix_rfl⟩
  | cons l ls ih =>
    unfold PyProcess.run at hs
    split at hs
    · rename_i s1 h1
      obtain ⟨x1, k1, k2, k3⟩ := PyProcess.step_keeps h1 ht
      obtain ⟨x2, k4, k5, k6⟩ := ih hs k1
      exact ⟨x2, k4, k5.trans k2, k3.trans k6⟩
    · cases hs

/-- **C113, answers stay.**  Whatever comes later, a thread keeps the answers it has got, in their order. -/
theorem C113_stays (R : Ring) (ls : List PyLabel) (s s' : PyProcess) (h : s.run R ls = some s') (t : Nat) (x : PyThread)
    (ht : s.threads[t]? = some x) : ∃ x', s'.threads[t]? = some x' ∧ x'.asked = x.asked ∧ x.answers <+: x'.answers :=
  PyProcess.run_keeps h ht

/-- **C113, a call that panics.**  A thread whose next call panics when it is made alone gets no answer any more, whatever is done. -/
theorem C113_panic (R : Ring) (ls ls' : List PyLabel) (s s' : PyProcess) (h : PyProcess.init.run R ls = some s)
    (h' : s.run R ls' = some s') (t : Nat) (x : PyThread) (ht : s.threads[t]? = some x) (r : PyRequest)
    (rest : List PyRequest) (hr : x.todo = r :: rest) (hp : r.answer R = none) :
    ∃ x', s'.threads[t]? = some x' ∧ x'.answers = x.answers ∧ x'.todo = x.todo := by
  have hok := PyProcess.Ok.reached h
  obtain ⟨x', k1, k2, k3⟩ := PyProcess.run_keeps h' ht
  obtain ⟨done, d1, d2⟩ := (hok.threads x (List.mem_of_getElem? ht)).answers
  obtain ⟨done', d1', d2'⟩ := ((hok.run h').threads x' (List.mem_of_getElem? k1)).answers
  have l1 : done.length = x.answers.length := by simpa using congrArg List.length d2
  have l2 : done'.length = x'.answers.length := by simpa using congrArg List.length d2'
  have hle := k3.length_le
  have hlen : x'.answers.length ≤ x.answers.length := by
    refine Nat.le_of_not_lt fun hlt => ?_
    have e1 : x'.asked[x.answers.length]? = some r := by
      rw [k2, d1, hr, List.getElem?_append_right (by omega), l1]; simp
    rw [d1', List.getElem?_append_left (by omega)] at e1
    have e2 : (done'.map (PyRequest.answer R))[x.answers.length]? = some none := by
      rw [List.getElem?_map, e1]; simp [hp]
    rw [d2', List.getElem?_map] at e2
    cases h3 : x'.answers[x.answers.length]? <;> rw [h3] at e2 <;> cases e2
  have ha : x'.answers = x.answers := (k3.eq_of_length_le hlen).symm
  refine ⟨x', k1, ha, ?_⟩
  have : done' ++ x'.todo = done ++ x.todo := by rw [← d1', k2, d1]
  exact (List.append_inj this (by rw [l1, l2, ha])).2

/-- **C113, the end.**  Once a panic got to the boundary, nothing more happens, in no thread. -/
theorem C113_over (R : Ring) (s s' : PyProcess) (hs : s.lost = true) (ls : List PyLabel) (h : s.run R ls = some s') :
    ls = [] ∧ s' = s := by
  cases ls with
  | nil => cases h; exact ⟨rfl, rfl⟩
  | cons l ls => simp [PyProcess.run, PyProcess.step, hs] at h

/-- **C113, one call is enough.**  If some thread's next call panics when it is made alone, there is a way to go on in which the
process is lost. -/
theorem C113_enough (R : Ring) (ls : List PyLabel) (s : PyProcess) (h : PyProcess.init.run R ls = some s)
    (x : PyThread) (hx : x ∈ s.threads) (r : PyRequest) (rest : List PyRequest) (hr : x.todo = r :: rest)
    (hp : r.answer R = none) : ∃ ls' s', s.run R ls' = some s' ∧ s'.lost = true := by
  have hok := PyProcess.Ok.reached h
  cases hl : s.lost with
  | true => exact ⟨[], s, rfl, hl⟩
  | false =>
    obtain ⟨t, ht⟩ := List.getElem?_of_mem hx
    obtain ⟨ls1, s1, h1, h2⟩ := hok.clear hl
    rcases h2 with ⟨hl1, -⟩ | ⟨hl1, hg1, -⟩
    · exact ⟨ls1, s1, h1, hl1⟩
    · obtain ⟨x', k1, -, k3⟩ := C113_panic R ls ls1 s s1 h h1 t x ht r rest hr hp
      obtain ⟨ls2, s2, h3, h4⟩ := (hok.run h1).serve hl1 hg1 k1 (k3.trans hr)
      rcases h4 with ⟨a, ha, -⟩ | ⟨-, h5⟩
      · rw [hp] at ha; cases ha
      · exact ⟨ls1 ++ ls2, s2, PyProcess.run_append h1 h3, h5⟩

/-- **C113, a signature stops the others.**  While a thread is in `borrowed_create_signature`, no other thread gets the GIL: each step of
another thread is a step of `verify`, or the process is lost. -/
theorem C113_signing (R : Ring) (ls : List PyLabel) (s s' : PyProcess) (h : PyProcess.init.run R ls = some s) (t k : Nat)
    (x y : PyThread) (ht : s.threads[t]? = some x) (hx : x.isSigning = true) (hk : k ≠ t)
    (hy : s.threads[k]? = some y) (l : PyLabel) (hs : s.step R l = some s') :
    ∃ y', s'.threads[k]? = some y' ∧ y'.hasGil = false ∧ y'.answers = y.answers := by
  have hok := PyProcess.Ok.reached h
  have hxg : x.hasGil = true := by
    obtain ⟨todo, phase, answers, asked⟩ := x
    cases phase <;> first | rfl | cases hx
  have hnf : s.gilFree = false := by
    cases hg : s.gilFree with
    | false => rfl
    | true =>
      have := List.all_eq_true.mp hg x (List.mem_of_getElem? ht)
      rw [hxg] at this; cases this
  have hyg : ∀ j z, j ≠ t → s.threads[j]? = some z → z.hasGil = false := by
    intro j z hj hz
    cases hzg : z.hasGil with
    | false => rfl
    | true => exact absurd (hok.gil j t z x hz ht hzg hxg) hj
  have same : ∃ y', s.threads[k]? = some y' ∧ y'.hasGil = false ∧ y'.answers = y.answers := ⟨y, hy, hyg k y hk hy, rfl⟩
  have off : ∀ z, ∃ y', (s.put t z).threads[k]? = some y' ∧ y'.hasGil = false ∧ y'.answers = y.answers := by
    intro z
    refine ⟨y, ?_, hyg k y hk hy, rfl⟩
    simp only [PyProcess.put]
    rw [List.getElem?_set, if_neg (Ne.symm hk), hy]
  have put : ∀ (j : Nat) (u z : PyThread), s.threads[j]? = some u → (j = t ∨ z.hasGil = false ∧ z.answers = u.answers) →
      ∃ y', (s.put j z).threads[k]? = some y' ∧ y'.hasGil = false ∧ y'.answers = y.answers := by
    intro j u z hj hz
    by_cases hjk : j = k
    · subst hjk
      rw [hy] at hj; cases hj
      rcases hz with hz | hz
      · exact absurd hz hk
      · exact ⟨z, PyProcess.put_at hy z, hz.1, hz.2⟩
    · refine ⟨y, ?_, hyg k y hk hy, rfl⟩
      simp only [PyProcess.put]
      rw [List.getElem?_set, if_neg hjk, hy]
  have only : ∀ (j : Nat) u, s.threads[j]? = some u → u.hasGil = true → j = t := fun j u hj hu => hok.gil j t u x hj ht hu hxg
  unfold PyProcess.step at hs
  split at hs
  · cases hs
  cases l with
  | spawn calls =>
    cases hs
    refine ⟨y, ?_, hyg k y hk hy, rfl⟩
    simp only
    rw [List.getElem?_append_left (List.getElem?_eq_some_iff.mp hy).1, hy]
  | acquire j =>
    dsimp only at hs
    rw [hnf] at hs
    split at hs <;> cases hs
  | release j =>
    dsimp only at hs
    split at hs
    · rename_i hj
      cases hs; exact put _ _ _ hj (.inr ⟨rfl, rfl⟩)
    · cases hs
  | call j =>
    dsimp only at hs
    split at hs
    · rename_i hj
      have := only _ _ hj rfl
      split at hs
      · cases hs; exact put _ _ _ hj (.inl this)
      · cases hs; exact put _ _ _ hj (.inl this)
      · cases hs; exact same
    · rename_i hj
      cases hs; exact put _ _ _ hj (.inl (only _ _ hj rfl))
    · cases hs
  | check j =>
    dsimp only at hs
    split at hs
    · rename_i hj
      split at hs
      · cases hs; exact put _ _ _ hj (.inr ⟨rfl, rfl⟩)
      · cases hs; exact same
    · cases hs
  | back j =>
    dsimp only at hs
    rw [hnf] at hs
    split at hs <;> cases hs
  | finish j =>
    dsimp only at hs
    split at hs
    · rename_i hj
      have := only _ _ hj rfl
      split at hs
      · cases hs; exact put _ _ _ hj (.inl this)
      · cases hs; exact put _ _ _ hj (.inl this)
      · cases hs; exact same
    · cases hs

/-- **C113, verifications at once.**  Any number of threads can be in `verify` at the same time, while one more has the GIL. -/
theorem C113_parallel (R : Ring) (auth data : Bytes) (de : PacketDeserializer)
    (hd : (⟨data⟩ : Packet).startDeserialize.skipHeader = .ok de) (n : Nat) :
    ∃ ls s, PyProcess.init.run R ls = some s ∧ s.threads.length = n + 1 ∧
      (∀ i : Nat, i < n → ∃ x, s.threads[i]? = some x ∧ x.isChecking = true) ∧
      ∃ x, s.threads[n]? = some x ∧ x.hasGil = true := by
  have main : ∀ n, ∃ ls s, PyProcess.init.run R ls = some s ∧ s.lost = false ∧
      s.threads = List.replicate n ⟨[.verify auth data], .checking de, [], [.verify auth data]⟩ := by
    intro n
    induction n with
    | zero => exact ⟨[], PyProcess.init, rfl, rfl, rfl⟩
    | succ n ih =>
      obtain ⟨ls, s, h1, h2, h3⟩ := ih
      obtain ⟨ts, lost⟩ := s
      dsimp only at h2 h3
      subst h2; subst h3
      have free : (⟨List.replicate n ⟨[.verify auth data], .checking de, [], [.verify auth data]⟩ ++
          [⟨[.verify auth data], .waiting, [], [.verify auth data]⟩], false⟩ : PyProcess).gilFree = true := by
        refine List.all_eq_true.mpr fun u hu => ?_
        rcases List.mem_append.mp hu with hu | hu
        · rw [List.eq_of_mem_replicate hu]; rfl
        · rw [List.mem_singleton] at hu; subst hu; rfl
      refine ⟨ls ++ [.spawn [.verify auth data], .acquire n, .call n], ⟨List.replicate n
        ⟨[.verify auth data], .checking de, [], [.verify auth data]⟩ ++
          [⟨[.verify auth data], .checking de, [], [.verify auth data]⟩], false⟩, PyProcess.run_append h1 ?_, rfl, ?_⟩
      · simp [PyProcess.run, PyProcess.step, free, PyProcess.put, hd]
      · simp [List.replicate_succ']
  obtain ⟨ls, s, h1, h2, h3⟩ := main n
  obtain ⟨ts, lost⟩ := s
  dsimp only at h2 h3
  subst h2; subst h3
  refine ⟨ls ++ [.spawn [], .acquire n], ⟨List.replicate n ⟨[.verify auth data], .checking de, [], [.verify auth data]⟩ ++
    [⟨[], .running, [], []⟩], false⟩, PyProcess.run_append h1 ?_, by simp, fun i hi => ?_, ⟨[], .running, [], []⟩, by simp, rfl⟩
  · have free : (⟨List.replicate n ⟨[.verify auth data], .checking de, [], [.verify auth data]⟩ ++
        [⟨[], .waiting, [], []⟩], false⟩ : PyProcess).gilFree = true := by
      refine List.all_eq_true.mpr fun u hu => ?_
      rcases List.mem_append.mp hu with hu | hu
      · rw [List.eq_of_mem_replicate hu]; rfl
      · rw [List.mem_singleton] at hu; subst hu; rfl
    simp [PyProcess.run, PyProcess.step, free, PyProcess.put]
  · refine ⟨⟨[.verify auth data], .checking de, [], [.verify auth data]⟩, ?_, rfl⟩
    rw [List.getElem?_append_left (by simpa using hi)]
    simp [hi]

/-- **C113, a verification needs nobody.**  A thread that is in `verify` gets through with it, whoever has the GIL, and without a
change to another thread. -/
theorem C113_free (R : Ring) (ls : List PyLabel) (s : PyProcess) (h : PyProcess.init.run R ls = some s)
    (hl : s.lost = false) (t : Nat) (x : PyThread) (ht : s.threads[t]? = some x) (hx : x.isChecking = true) :
    ∃ s', s.step R (.check t) = some s' ∧ (∀ k : Nat, k ≠ t → s'.threads[k]? = s.threads[k]?) ∧
      (s'.lost = true → x.todo.head?.map (PyRequest.answer R) = some none) := by
  have hok := (PyProcess.Ok.reached h).threads x (List.mem_of_getElem? ht)
  obtain ⟨todo, phase, answers, asked⟩ := x
  cases phase with
  | checking de =>
    obtain ⟨a, d, rest, h1, h2⟩ := hok.checking de rfl
    dsimp only at h1
    subst h1
    rcases hv : de.verify R with ⟨o, de'⟩
    cases o with
    | ok b =>
      refine ⟨s.put t ⟨.verify a d :: rest, .checked b de', answers, asked⟩, ?_, fun k hk => ?_, ?_⟩
      · simp only [PyProcess.step, hl, ht, hv, Bool.false_eq_true, if_false]
      · simp only [PyProcess.put]
        rw [List.getElem?_set, if_neg (Ne.symm hk)]
      · intro e; rw [show (s.put t ⟨.verify a d :: rest, .checked b de', answers, asked⟩).lost = s.lost from rfl, hl] at e
        cases e
    | err e =>
      refine ⟨{ s with lost := true }, ?_, fun k hk => rfl, ?_⟩
      · simp only [PyProcess.step, hl, ht, hv, Bool.false_eq_true, if_false]
      · simp [PyRequest.answer, borrowedVerifySignature, h2, PyOutcome.orRaise, hv]
    | panic =>
      refine ⟨{ s with lost := true }, ?_, fun k hk => rfl, ?_⟩
      · simp only [PyProcess.step, hl, ht, hv, Bool.false_eq_true, if_false]
      · simp [PyRequest.answer, borrowedVerifySignature, h2, PyOutcome.orRaise, hv]
  | _ => cases hx

/-! ## Cases for the theorems above -/

/-- A message, signed in the toy scheme, and a message without its signature. -/
private def pySigned : Bytes :=
  match borrowedCreateSignature toyRing (List.replicate 32 9) (List.replicate 32 9)
      (authenticated (FixedBytes.replicate 20 7) 246 (FixedBytes.replicate 32 9) (FixedBytes.replicate 32 2) [5, 6, 7]) with
  | .ok signed => signed
  | _ => []

private def pyUnsigned : Bytes :=
  authenticated (FixedBytes.replicate 20 7) 246 (FixedBytes.replicate 32 9) (FixedBytes.replicate 32 2) [5, 6, 7]

/-- Thread 0 verifies, thread 1 signs in the meantime. -/
private def pyMeantime : List PyLabel :=
  [.spawn [.verify [] pySigned, .verify [] [0, 1]], .spawn [.sign (List.replicate 32 9) (List.replicate 32 9) [1, 2]],
    .acquire 0, .call 0, .acquire 1, .call 1, .check 0]

private theorem pyMeantime_state : ∃ s, PyProcess.init.run toyRing pyMeantime = some s ∧ s.lost = false ∧
    s.threads.map PyThread.hasGil = [false, true] ∧ s.threads.map PyThread.isSigning = [false, true] := by
  have : ((PyProcess.init.run toyRing pyMeantime).map fun s =>
      (s.lost, s.threads.map PyThread.hasGil, s.threads.map PyThread.isSigning)) =
      some (false, [false, true], [false, true]) := by decide +kernel
  cases h : PyProcess.init.run toyRing pyMeantime with
  | none => rw [h] at this; cases this
  | some s =>
    rw [h] at this
    simp only [Option.map_some, Option.some.injEq, Prod.mk.injEq] at this
    exact ⟨s, rfl, this⟩

/-- `C113`, `C113_stays`, `C113_lock`: the run goes on, and both get what they get alone. -/
example : ((PyProcess.init.run toyRing (pyMeantime ++ [.finish 1, .release 1, .back 0, .call 0, .release 0])).map fun s =>
    s.threads.map PyThread.answers) =
    some [[.verified true [5, 6, 7], .raised (.valueError "Could not ignore the header")],
      [.signed ([1, 2] ++ List.replicate 32 9 ++ [1, 2] ++ List.replicate 30 0)]] := by decide +kernel

/-- `C113_signing`: thread 0 is through with `verify`, but does not get the GIL while thread 1 is signing. -/
example : ((PyProcess.init.run toyRing pyMeantime).bind fun s => s.step toyRing (.back 0)).isNone = true := by decide +kernel

/-- `C113_lost`, `C113_through`: nobody makes a call that panics, and all get through. -/
example : ∃ s, PyProcess.init.run toyRing pyMeantime = some s ∧ s.lost = false ∧
    ∃ ls' s', s.run toyRing ls' = some s' ∧ s'.AllAnswered := by
  obtain ⟨s, h, -⟩ := pyMeantime_state
  have hs : s.Harmless toyRing := by
    have : ((PyProcess.init.run toyRing pyMeantime).map fun s => s.threads.all fun x => x.asked.all fun r =>
        (r.answer toyRing).isSome) = some true := by decide +kernel
    rw [h] at this
    simp only [Option.map_some, Option.some.injEq, List.all_eq_true] at this
    intro x hx r hr e
    have := this x hx r hr
    rw [e] at this; cases this
  obtain ⟨ls', s', h1, h2, -⟩ := C113_through toyRing pyMeantime s h hs
  exact ⟨s, h, C113_lost toyRing pyMeantime s h hs, ls', s', h1, h2⟩

/-- `C113_panic`, `C113_enough`, `C113_over`: a thread that verifies a message without its signature takes the other one with it. -/
example : ((PyProcess.init.run toyRing [.spawn [.verify [] pyUnsigned], .spawn [.verify [] pySigned], .acquire 0, .call 0,
    .acquire 1, .call 1, .check 0, .back 0]).map fun s => (s.lost, s.threads.map PyThread.answers)) = some (true, [[], []]) := by
  decide +kernel

example : ∃ ls' s', (⟨[⟨[.verify [] pyUnsigned], .waiting, [], [.verify [] pyUnsigned]⟩], false⟩ : PyProcess).run toyRing ls' =
    some s' ∧ s'.lost = true :=
  C113_enough toyRing [.spawn [.verify [] pyUnsigned]] _ rfl _ (.head _) (.verify [] pyUnsigned) [] rfl (by decide +kernel)

/-- `C113_parallel`, `C113_free`: a thousand threads verify, and one more runs Python code. -/
example : ∃ ls s, PyProcess.init.run toyRing ls = some s ∧ s.threads.length = 1001 := by
  have : ((⟨pySigned⟩ : Packet).startDeserialize.skipHeader).isOk = true := by decide +kernel
  cases h : (⟨pySigned⟩ : Packet).startDeserialize.skipHeader with
  | ok de =>
    obtain ⟨ls, s, h1, h2, -⟩ := C113_parallel toyRing [] pySigned de h 1000
    exact ⟨ls, s, h1, h2⟩
  | err e => rw [h] at this; cases this
  | panic => rw [h] at this; cases this

end Ipv8
