import Verif.Props.Locks
/-!
# Property C108: receivers that share memory behind a mutex
-/

namespace Ipv8
open Spec

namespace Spec

variable {σ : Type}

/-- All that is done is done with lock `m`: it is taken first and given back once, in between only the memory is used
(as with `let mut guard = state.lock()`). -/
def InSection (m : Nat) : Deed σ → Prop
  | .panic => True
  | .step next _ => ∀ v, InSection m (next v)
  | .unlock i rest => i = m ∧ (rest = .done ∨ rest = .panic)
  | _ => False

def UnderLock (m : Nat) : Deed σ → Prop
  | .lock i next => i = m ∧ ∀ bad, InSection m (next bad)
  | _ => False

/-- What a deed does when nobody else does anything: to the memory, and to whether the lock is poisoned.  `held`: it has the
lock. -/
def byItself : Deed σ → Bool → σ × Bool → σ × Bool
  | .done, _, v => v
  | .panic, held, v => (v.1, v.2 || held)
  | .step next change, held, v => byItself (next v.1) held (change v.1, v.2)
  | .lock _ next, _, v => byItself (next v.2) true v
  | .unlock _ next, _, v => byItself next false v
  | .await _ next, held, v => byItself next held v

/-- One after the other. -/
def inTurn (order : List (Party × Deed σ)) (v : σ × Bool) : σ × Bool := order.foldl (fun v x => byItself x.2 false v) v

/-- What `p` does, in this order. -/
def partOf (p : Party) (order : List (Party × Deed σ)) : List (Deed σ) :=
  order.filterMap fun x => if x.1 = p then some x.2 else none

/-- What application thread `n` has begun with. -/
def begunBy (n : Nat) : List (LockLabel σ) → List (Deed σ)
  | [] => []
  | .begin i d :: ls => if i = n then d :: begunBy n ls else begunBy n ls
  | _ :: ls => begunBy n ls

/-- What everybody has been asked to do so far: a receiver by the calls of it, an application thread by what it has begun with. -/
def historyOf (program : Nat → Nat → Packet → Address → Deed σ) (ls : List (LockLabel σ)) (s : Locked σ) :
    Party → List (Deed σ)
  | .call k r =>
    match s.pool.workers.members[k]? with
    | some m => (callsOf r m.state.trace).map fun x => program k r x.1 x.2
    | none => []
  | .outside n => begunBy n ls

/-- An order that explains what has happened: for everybody it has what he was asked to do, in the order he was asked, except
perhaps for the last thing if he is at it; and if the lock is free, memory and lock are as if it all had been done one
after the other in this order. -/
structure Explains (program : Nat → Nat → Packet → Address → Deed σ) (m : Nat) (m0 : σ) (ls : List (LockLabel σ))
    (s : Locked σ) (order : List (Party × Deed σ)) : Prop where
  part : ∀ p, ∃ rest, historyOf program ls s p = partOf p order ++ rest ∧ rest.length ≤ 1 ∧
    (s.running p = none → rest = [])
  effect : s.owner m = none → (s.memory, s.poisoned m) = inTurn order (m0, false)

end Spec

variable {σ : Type} {program : Nat → Nat → Packet → Address → Deed σ}

theorem partOf_append (p : Party) (a b : List (Party × Deed σ)) : partOf p (a ++ b) = partOf p a ++ partOf p b := by
  simp [partOf]

theorem inTurn_snoc (a : List (Party × Deed σ)) (p : Party) (d : Deed σ) (v : σ × Bool) :
    inTurn (a ++ [(p, d)]) v = byItself d false (inTurn a v) := by
  simp [inTurn]

theorem begunBy_append (n : Nat) (a b : List (LockLabel σ)) : begunBy n (a ++ b) = begunBy n a ++ begunBy n b := by
  induction a with
  | nil => rfl
  | cons x a ih =>
    cases x <;> simp [begunBy, ih]
    split <;> simp

/-! ## How the history grows -/

/-- A listening thread's calls of receiver `r` grow by the calls of receiver `r`. -/
theorem rstep_callsOf {l : Listener} {t t' : RState} {y : RLabel} (h : l.rstep t y = some t') (r : Nat) :
    callsOf r t'.trace = callsOf r t.trace ∨
    ∃ hi e p a ts pan, y = .call r hi ∧ t.phase = .scope e p a ts pan ∧ callsOf r t'.trace = callsOf r t.trace ++ [(p, a)] := by
  cases y <;> simp only [Listener.rstep] at h
  case arrive => cases h; exact .inl rfl
  case recv =>
    split at h
    · split at h
      · cases h; exact .inl rfl
      · cases h; exact .inl (by simp [callsOf])
    · cases h
  case call q hi =>
    split at h
    · rename_i hp
      split at h
      · cases h
        by_cases hq : q = r
        · subst hq
          exact .inr ⟨hi, _, _, _, _, _, rfl, hp, by simp [callsOf]⟩
        · exact .inl (by simp [callsOf, hq])
      · cases h
    · cases h
  all_goals
    split at h
    · first
      | (cases h; exact .inl rfl)
      | (split at h
         · cases h; exact .inl (by simp [callsOf])
         · cases h)
    · cases h

/-- The calls of receiver `r` of listening thread `k`. -/
private def hist (s : Workers) (k r : Nat) : List (Packet × Address) :=
  match s.members[k]? with
  | some m => callsOf r m.state.trace
  | none => []

private theorem hist_step {s s' : Workers} {x : TLabel} (h : s.step x = some s') (k r : Nat) :
    (hist s' k r = hist s k r ∧ ∀ w hi, x ≠ .call w k r hi) ∨
    ∃ w hi p a, x = .call w k r hi ∧ s.packet k = some (p, a) ∧ hist s' k r = hist s k r ++ [(p, a)] := by
  by_cases hc : ∃ w hi, x = .call w k r hi
  · obtain ⟨w, hi, rfl⟩ := hc
    refine .inr ⟨w, hi, ?_⟩
    simp only [Workers.step] at h
    obtain ⟨m, t, _, e2, e3, e4⟩ := Workers.work_eq h
    have hlt : k < s.members.length := (List.getElem?_eq_some_iff.mp e2).1
    have hm2 : s'.members[k]? = some ⟨m.listener, t⟩ := by
      rw [e4]
      simp [List.getElem?_set_self hlt]
    simp only [Listener.rstep] at e3
    split at e3
    · rename_i e p a ts pan hp
      split at e3
      · cases e3
        exact ⟨p, a, rfl, by simp [Workers.packet, e2, hp], by simp [hist, hm2, e2, callsOf]⟩
      · cases e3
    · cases e3
  · have hc' : ∀ w hi, x ≠ .call w k r hi := fun w hi e => hc ⟨w, hi, e⟩
    refine .inl ⟨?_, hc'⟩
    obtain ⟨_, ⟨l, q, _, e⟩ | ⟨_, e, _⟩ | ⟨_, j, y, mj, t, e1, e2, e, hj, _⟩⟩ := Workers.step_members h
    · unfold hist
      rw [e]
      by_cases hlt : k < s.members.length
      · rw [List.getElem?_append_left hlt]
      · by_cases he : k = s.members.length
        · subst he
          simp [Listener.rinit, callsOf]
        · rw [List.getElem?_eq_none (l := s.members) (by omega), List.getElem?_eq_none (by simp; omega)]
    · unfold hist
      rw [e]
    · unfold hist
      rw [e]
      by_cases he : k = j
      · subst he
        have hlt : k < s.members.length := (List.getElem?_eq_some_iff.mp e1).1
        rw [List.getElem?_set_self hlt, e1]
        rcases rstep_callsOf e2 r with h1 | ⟨hi, _, _, _, _, _, rfl, _⟩
        · exact h1
        · exfalso
          cases x with
          | call w k' r' hi' =>
            simp only [jobsAt] at hj
            split at hj
            · rename_i he
              simp only [List.cons.injEq, RLabel.call.injEq, and_true] at hj
              obtain ⟨rfl, rfl⟩ := hj
              exact hc' w hi' (by rw [he])
            · cases hj
          | io k' z =>
            simp only [jobsAt] at hj
            split at hj
            · simp only [List.cons.injEq, and_true] at hj
              subst hj
              simp [Workers.step, RLabel.outer] at h
            · cases hj
          | _ => simp only [jobsAt] at hj; (try split at hj) <;> simp at hj
      · rw [List.getElem?_set_ne (Ne.symm he)]

/-- The history grows when somebody begins with something. -/
theorem historyOf_step {n : Nat} {m0 : σ} {ls : List (LockLabel σ)} {s s' : Locked σ} {x : LockLabel σ}
    (hr : (Locked.init n m0).run program ls = some s) (hx : s.step program x = some s') (p : Party) :
    (historyOf program (ls ++ [x]) s' p = historyOf program ls s p ∧ (s.running p = none → s'.running p = none)) ∨
    ∃ d, s.running p = none ∧ s'.running p = some d ∧
      historyOf program (ls ++ [x]) s' p = historyOf program ls s p ++ [d] ∧
      ((∃ i, x = .begin i d) ∨ ∃ k r pk a, d = program k r pk a) := by
  have hho : ∀ (s : Locked σ) ls k r, historyOf program ls s (.call k r) =
      (hist s.pool.workers k r).map fun x => program k r x.1 x.2 := by
    intro s ls k r
    simp only [historyOf, hist]
    split <;> rfl
  have hsame : ∀ k r, (∀ w hi, x ≠ .pool (.local (.call w k r hi))) →
      historyOf program (ls ++ [x]) s' (.call k r) = historyOf program ls s (.call k r) := by
    intro k r hn
    rw [hho, hho]
    by_cases hp : ∀ y, x ≠ .pool y
    · rw [Locked.step_other hx hp]
    · obtain ⟨y, rfl⟩ : ∃ y, x = .pool y := Classical.byContradiction fun hn => hp fun y e => hn ⟨y, e⟩
      obtain ⟨t, h1, _⟩ := Locked.step_pool hx
      rcases hist_step (Deques.step_plain h1) k r with ⟨e, _⟩ | ⟨w, hi, _, _, e, _⟩
      · rw [e]
      · exfalso
        cases y with
        | steal => cases e
        | «local» y => exact hn w hi (by simp only [DLabel.plain] at e; rw [e])
  have hbeg : ∀ i, (∀ d, x ≠ .begin i d) → begunBy i (ls ++ [x]) = begunBy i ls := by
    intro i hn
    rw [begunBy_append]
    cases x with
    | begin j d =>
      have : j ≠ i := fun e => hn d (by rw [e])
      simp [begunBy, this]
    | _ => simp [begunBy]
  by_cases hb : ∃ i d, x = .begin i d
  · obtain ⟨i, d, rfl⟩ := hb
    have hx' := hx
    simp only [Locked.step] at hx'
    split at hx'
    · rename_i hn
      cases hx'
      cases p with
      | call k r => exact .inl ⟨hsame k r (by intro w hi e; cases e), fun h => by simpa [Locked.set] using h⟩
      | outside j =>
        by_cases hj : j = i
        · subst hj
          exact .inr ⟨d, hn, by simp [Locked.set], by simp [historyOf, begunBy_append, begunBy], .inl ⟨j, rfl⟩⟩
        · exact .inl ⟨hbeg j (by intro d' e; cases e; exact hj rfl), fun h => by simpa [Locked.set, hj] using h⟩
    · cases hx'
  by_cases hc : ∃ w k r hi, x = .pool (.local (.call w k r hi))
  · obtain ⟨w, k, r, hi, rfl⟩ := hc
    have hf : s.running (.call k r) = none ∧ ∃ pk a, s.pool.workers.packet k = some (pk, a) ∧
        s'.running = fun i => if i = .call k r then some (program k r pk a) else s.running i := by
      obtain ⟨t, h1, h2, h3⟩ := Locked.step_pool hx
      have e1 : s'.running = t.running := by rw [h3]
      simp only [Locked.follow] at h2
      split at h2
      case h_2 => cases h2
      rename_i pk a hpk
      cases h2
      refine ⟨?_, pk, a, hpk, e1⟩
      cases hc : s.running (.call k r) with
      | none => rfl
      | some d =>
        refine absurd ?_ (not_atWork_of_call (Locked.good hr).2 (Deques.step_plain h1))
        exact (C107_running n m0 ls s hr k r).mp (by rw [hc]; rfl)
    obtain ⟨g1, pk, a, g2, g3⟩ := hf
    by_cases hp : p = .call k r
    · subst hp
      refine .inr ⟨program k r pk a, g1, by rw [g3]; simp, ?_, .inr ⟨k, r, pk, a, rfl⟩⟩
      obtain ⟨t, h1, _⟩ := Locked.step_pool hx
      rcases hist_step (Deques.step_plain h1) k r with ⟨_, e⟩ | ⟨w', hi', pk', a', _, e2, e3⟩
      · exact absurd rfl (e w hi)
      · rw [g2] at e2
        cases e2
        rw [hho, hho, e3]
        simp
    · refine .inl ⟨?_, fun h => by rw [g3]; simpa [hp] using h⟩
      cases p with
      | call k' r' =>
        refine hsame k' r' ?_
        intro w' hi' e
        cases e
        exact hp rfl
      | outside i => exact hbeg i (by intro d e; cases e)
  · have hnone : s.running p = none → s'.running p = none := by
      intro hp
      rcases Locked.step_effect hr hx with ⟨q, hg⟩ | ⟨q, d, f1, f2, _, _, f5⟩ | ⟨q, d, f1, f2, f3, _⟩ | ⟨f1, _⟩
      · rw [(Locked.go_effect hg).1 p, hp]
        rintro rfl
        simp [Locked.go, hp] at hg
      · rcases f5 with ⟨i, e, _⟩ | ⟨w, k, r, hi, _, _, e, _⟩
        · exact absurd ⟨i, d, e⟩ hb
        · exact absurd ⟨w, k, r, hi, e⟩ hc
      · rw [f3]
        dsimp only
        split
        · rfl
        · exact hp
      · rw [f1]; exact hp
    refine .inl ⟨?_, hnone⟩
    cases p with
    | call k r => exact hsame k r (fun w hi e => hc ⟨w, k, r, hi, e⟩)
    | outside i => exact hbeg i (fun d e => hb ⟨i, d, e⟩)

/-! ## The order of the sections -/

/-- Where somebody is. -/
private inductive AtStage (m : Nat) (owner : Option Party) (p : Party) (history part : List (Deed σ)) : Option (Deed σ) → Prop
  | idle : owner ≠ some p → history = part → AtStage m owner p history part none
  | before (d) : UnderLock m d → owner ≠ some p → history = part ++ [d] → AtStage m owner p history part (some d)
  | within (d) : InSection m d → owner = some p → history = part → AtStage m owner p history part (some d)
  | after (d) : d = .done ∨ d = .panic → owner ≠ some p → history = part → AtStage m owner p history part (some d)

private structure MutexInv (program : Nat → Nat → Packet → Address → Deed σ) (m : Nat) (m0 : σ) (ls : List (LockLabel σ))
    (s : Locked σ) (order : List (Party × Deed σ)) : Prop where
  stage : ∀ p, AtStage m (s.owner m) p (historyOf program ls s p) (partOf p order) (s.running p)
  free : s.owner m = none → (s.memory, s.poisoned m) = inTurn order (m0, false)
  taken : ∀ p d, s.owner m = some p → s.running p = some d →
    byItself d true (s.memory, s.poisoned m) = inTurn order (m0, false)

private theorem MutexInv.explains {m : Nat} {m0 : σ} {ls : List (LockLabel σ)} {s : Locked σ} {order : List (Party × Deed σ)}
    (h : MutexInv program m m0 ls s order) : Explains program m m0 ls s order where
  part := by
    intro p
    have hs := h.stage p
    generalize s.running p = d at hs
    cases hs with
    | idle _ e => exact ⟨[], by simp [e], by simp, fun _ => rfl⟩
    | before d _ _ e => exact ⟨[d], e, by simp, fun h => by cases h⟩
    | within d _ _ e => exact ⟨[], by simp [e], by simp, fun _ => rfl⟩
    | after d _ _ e => exact ⟨[], by simp [e], by simp, fun _ => rfl⟩
  effect := h.free

private theorem AtStage.congr {m : Nat} {o o' : Option Party} {p : Party} {hy hy' pt pt' : List (Deed σ)}
    {d : Option (Deed σ)} (h : AtStage m o p hy pt d) (h1 : o = some p ↔ o' = some p) (h2 : hy' = hy) (h3 : pt' = pt) :
    AtStage m o' p hy' pt' d := by
  subst h2 h3
  cases h with
  | idle a b => exact .idle (fun e => a (h1.mpr e)) b
  | before d a b c => exact .before d a (fun e => b (h1.mpr e)) c
  | within d a b c => exact .within d a (h1.mp b) c
  | after d a b c => exact .after d a (fun e => b (h1.mpr e)) c

private theorem MutexInv.step {n m : Nat} {m0 : σ} {ls : List (LockLabel σ)} {s s' : Locked σ} {x : LockLabel σ}
    {order : List (Party × Deed σ)} (h : MutexInv program m m0 ls s order)
    (hr : (Locked.init n m0).run program ls = some s) (hx : s.step program x = some s')
    (hp : ∀ k r p a, UnderLock m (program k r p a)) (hb : ∀ i d, x = .begin i d → UnderLock m d) :
    ∃ tail, MutexInv program m m0 (ls ++ [x]) s' (order ++ tail) := by
  have hhist := historyOf_step hr hx
  rcases Locked.step_effect hr hx with ⟨p, hg⟩ | ⟨p, d, f1, f2, f3, f4, f5⟩ | ⟨p, d, f1, f2, f3, f4, _, f6⟩ | ⟨f1, f2, f3, f4⟩
  · -- somebody goes on
    have hpsome : s.running p ≠ none := by
      intro e; simp [Locked.go, e] at hg
    have hothers := (Locked.go_effect hg).1
    -- nobody has begun with anything
    have hh : ∀ q, historyOf program (ls ++ [x]) s' q = historyOf program ls s q := by
      intro q
      rcases hhist q with ⟨e, _⟩ | ⟨d, e1, e2, _⟩
      · exact e
      · exfalso
        by_cases hq : q = p
        · exact hpsome (hq ▸ e1)
        · rw [hothers q hq, e1] at e2
          cases e2
    have hst := h.stage p
    cases hrun : s.running p with
    | none => exact absurd hrun hpsome
    | some d =>
      rw [hrun] at hst
      cases hst with
      | before _ hu ho he =>
        cases d with
        | lock i next =>
          obtain ⟨rfl, hin⟩ := hu
          simp only [Locked.go, hrun] at hg
          split at hg
          case isFalse => cases hg
          rename_i hfree
          cases hg
          refine ⟨[(p, .lock i next)], ?_, ?_, ?_⟩
          · intro q
            by_cases hq : q = p
            · subst hq
              simp only [Locked.set, if_true]
              refine .within _ (hin _) (by simp) ?_
              refine (hh q).trans ?_
              rw [he, partOf_append]
              simp [partOf]
            · have := h.stage q
              simp only [Locked.set, hq, if_false, if_true]
              refine this.congr ?_ (hh q) ?_
              · rw [hfree]; simp [Ne.symm hq]
              · rw [partOf_append]
                simp [partOf, Ne.symm hq]
          · intro e
            simp at e
          · intro q d e1 e2
            simp only [if_true, Option.some.injEq] at e1
            subst e1
            simp only [Locked.set, if_true, Option.some.injEq] at e2
            subst e2
            rw [inTurn_snoc, ← h.free hfree]
            rfl
        | _ => exact hu.elim
      | within _ hu ho he =>
        have hval := h.taken p d ho hrun
        cases d with
        | step next change =>
          simp only [Locked.go, hrun] at hg
          cases hg
          refine ⟨[], ?_, ?_, ?_⟩
          · intro q
            by_cases hq : q = p
            · subst hq
              simp only [Locked.set, if_true, List.append_nil]
              exact .within _ (hu _) ho ((hh q).trans he)
            · have := h.stage q
              simp only [Locked.set, hq, if_false, List.append_nil]
              exact this.congr Iff.rfl (hh q) rfl
          · intro e
            rw [show s.owner m = none from e] at ho
            cases ho
          · intro q d e1 e2
            have e1' : s.owner m = some q := e1
            rw [ho] at e1'
            cases e1'
            simp only [Locked.set, if_true, Option.some.injEq] at e2
            subst e2
            rw [List.append_nil]
            exact hval
        | unlock i rest =>
          obtain ⟨rfl, hrest⟩ := hu
          simp only [Locked.go, hrun, ho, if_true] at hg
          cases hg
          refine ⟨[], ?_, ?_, ?_⟩
          · intro q
            by_cases hq : q = p
            · subst hq
              simp only [Locked.set, if_true, List.append_nil]
              exact .after _ hrest (by simp) ((hh q).trans he)
            · have := h.stage q
              simp only [Locked.set, hq, if_false, if_true, List.append_nil]
              refine this.congr ?_ (hh q) rfl
              rw [ho]; simp [Ne.symm hq]
          · intro _
            rw [List.append_nil, ← hval]
            rcases hrest with rfl | rfl <;> simp [byItself, Locked.set]
          · intro q d e1
            simp at e1
        | panic => simp [Locked.go, hrun] at hg
        | _ => exact hu.elim
      | after _ hd ho he =>
        rcases hd with rfl | rfl <;> simp [Locked.go, hrun] at hg
  · -- somebody begins
    have hu : UnderLock m d := by
      rcases f5 with ⟨i, e, _⟩ | ⟨w, k, r, hi, pk, a, _, _, _, rfl⟩
      · exact hb i d e
      · exact hp _ _ _ _
    refine ⟨[], ?_, ?_, ?_⟩
    · intro q
      rw [List.append_nil, f3, f2]
      have hst := h.stage q
      by_cases hq : q = p
      · subst hq
        rw [f1] at hst
        simp only [if_true]
        cases hst with
        | idle a b =>
          refine .before _ hu a ?_
          rcases hhist q with ⟨_, e⟩ | ⟨d', _, e2, e3, _⟩
          · have := e f1
            rw [f2] at this
            simp at this
          · rw [f2] at e2
            simp only [if_true, Option.some.injEq] at e2
            subst e2
            rw [e3, b]
      · simp only [hq, if_false]
        refine hst.congr Iff.rfl ?_ rfl
        rcases hhist q with ⟨e, _⟩ | ⟨d', e1, e2, _⟩
        · exact e
        · rw [f2] at e2
          simp only [hq, if_false] at e2
          rw [e1] at e2
          cases e2
    · intro e
      rw [List.append_nil, f4.1, f4.2]
      exact h.free (f3 ▸ e)
    · intro q d' e1 e2
      rw [List.append_nil, f4.1, f4.2]
      refine h.taken q d' (f3 ▸ e1) ?_
      rw [f2] at e2
      dsimp only at e2
      split at e2
      · rename_i hq
        subst hq
        have hst := h.stage q
        rw [f1] at hst
        cases hst with
        | idle a _ => exact absurd (f3 ▸ e1) a
      · exact e2
  · -- somebody has ended
    have hh : ∀ q, historyOf program (ls ++ [x]) s' q = historyOf program ls s q := by
      intro q
      rcases hhist q with ⟨e, _⟩ | ⟨d, e1, e2, _⟩
      · exact e
      · exfalso
        rw [f3] at e2
        dsimp only at e2
        split at e2
        · cases e2
        · rw [e1] at e2; cases e2
    have hst := h.stage p
    rw [f1] at hst
    by_cases howns : s.owner m = some p
    · -- with the lock: a panic
      have hd : d = .panic := by
        rcases f2 with rfl | rfl
        · cases hst with
          | before _ a _ _ => exact a.elim
          | within _ a _ _ => exact a.elim
          | after _ _ a _ => exact absurd howns a
        · rfl
      subst hd
      obtain ⟨e, _⟩ | ⟨_, fo, fp⟩ := f6
      · cases e
      have ho' : s'.owner m = none := by rw [fo]; simp [Locked.unwind, howns]
      have hp' : s'.poisoned m = true := by rw [fp]; simp [Locked.unwind, howns]
      refine ⟨[], ?_, ?_, ?_⟩
      · intro q
        rw [List.append_nil, ho', f3]
        by_cases hq : q = p
        · subst hq
          simp only [if_true]
          refine .idle (by simp) ((hh q).trans ?_)
          cases hst with
          | before _ a _ _ => exact a.elim
          | within _ _ _ a => exact a
          | after _ _ a _ => exact absurd howns a
        · simp only [hq, if_false]
          refine (h.stage q).congr ?_ (hh q) rfl
          rw [howns]; simp [Ne.symm hq]
      · intro _
        rw [List.append_nil, f4, hp', ← h.taken p _ howns f1]
        simp [byItself]
      · intro q d e
        rw [ho'] at e
        cases e
    · have hsame : s'.owner m = s.owner m ∧ s'.poisoned m = s.poisoned m := by
        obtain ⟨_, fo, fp⟩ | ⟨_, fo, fp⟩ := f6
        · exact ⟨by rw [fo], by rw [fp]⟩
        · exact ⟨by rw [fo]; simp [Locked.unwind, howns], by rw [fp]; simp [Locked.unwind, howns]⟩
      refine ⟨[], ?_, ?_, ?_⟩
      · intro q
        rw [List.append_nil, hsame.1, f3]
        by_cases hq : q = p
        · subst hq
          simp only [if_true]
          refine .idle howns ((hh q).trans ?_)
          cases hst with
          | before _ a _ _ => rcases f2 with rfl | rfl <;> exact a.elim
          | within _ _ a _ => exact absurd a howns
          | after _ _ _ a => exact a
        · simp only [hq, if_false]
          exact (h.stage q).congr Iff.rfl (hh q) rfl
      · intro e
        rw [List.append_nil, f4, hsame.2]
        exact h.free (hsame.1 ▸ e)
      · intro q d' e1 e2
        rw [List.append_nil, f4, hsame.2]
        refine h.taken q d' (hsame.1 ▸ e1) ?_
        rw [f3] at e2
        dsimp only at e2
        split at e2
        · cases e2
        · exact e2
  · have hh : ∀ q, historyOf program (ls ++ [x]) s' q = historyOf program ls s q := by
      intro q
      rcases hhist q with ⟨e, _⟩ | ⟨d, e1, e2, _⟩
      · exact e
      · rw [f1, e1] at e2
        cases e2
    refine ⟨[], ?_, ?_, ?_⟩
    · intro q
      rw [List.append_nil, f1, f2]
      exact (h.stage q).congr Iff.rfl (hh q) rfl
    · intro e
      rw [List.append_nil, f3, f4]
      exact h.free (f2 ▸ e)
    · intro q d e1 e2
      rw [List.append_nil, f3, f4]
      exact h.taken q d (f2 ▸ e1) (f1 ▸ e2)

private theorem MutexInv.run {n m : Nat} {m0 : σ} (hp : ∀ k r p a, UnderLock m (program k r p a)) :
    ∀ (more ls : List (LockLabel σ)) (s s' : Locked σ) (order : List (Party × Deed σ)), MutexInv program m m0 ls s order →
      (Locked.init n m0).run program ls = some s → (∀ d ∈ begunIn more, UnderLock m d) → s.run program more = some s' →
      ∃ tail, MutexInv program m m0 (ls ++ more) s' (order ++ tail) := by
  intro more
  induction more with
  | nil =>
    intro ls s s' order h _ _ h'
    cases h'
    exact ⟨[], by simpa using h⟩
  | cons x more ih =>
    intro ls s s' order h hr hb h'
    simp only [Locked.run] at h'
    split at h'
    case h_2 => cases h'
    rename_i s1 hx
    obtain ⟨t1, h1⟩ := h.step hr hx hp (by rintro i d rfl; exact hb d List.mem_cons_self)
    obtain ⟨t2, h2⟩ := ih (ls ++ [x]) s1 s' _ h1 ((Locked.run_snoc _ _ _ _).mpr ⟨s, hr, hx⟩) (by
      intro d hd
      refine hb d ?_
      have : x :: more = [x] ++ more := rfl
      rw [this, begunIn_append]
      exact List.mem_append_right _ hd) h'
    exact ⟨t1 ++ t2, by simpa using h2⟩

private theorem MutexInv.init (m n : Nat) (m0 : σ) : MutexInv program m m0 [] (Locked.init n m0) [] where
  stage := by
    intro p
    refine .idle (by simp [Locked.init]) ?_
    cases p with
    | call k r => simp [historyOf, Locked.init, Deques.init, partOf]
    | outside i => simp [historyOf, begunBy, partOf]
  free := by intro _; rfl
  taken := by intro p d e; cases e

/-- C108. If the receivers, and the threads of the application, touch the shared memory only with one mutex locked, everything is as if the
calls had been made one after the other, in some order, with a pool of any size: whenever the lock is free, memory and lock are as
after these calls in turn (with what a panic in between leaves behind, and with the calls after it told that the lock is
poisoned).  In this order each receiver's calls come as they came, none is missing or counted twice, and what happens later
comes later (so calls that did not overlap are in the order in which they were made). -/
theorem C108 (n m : Nat) (m0 : σ) (ls : List (LockLabel σ)) (s : Locked σ)
    (h : (Locked.init n m0).run program ls = some s) (hp : ∀ k r p a, UnderLock m (program k r p a))
    (hb : ∀ d ∈ begunIn ls, UnderLock m d) :
    ∃ order, Explains program m m0 ls s order ∧
      ∀ more s', (∀ d ∈ begunIn more, UnderLock m d) → s.run program more = some s' →
        ∃ later, Explains program m m0 (ls ++ more) s' (order ++ later) := by
  obtain ⟨order, h1⟩ := MutexInv.run hp ls [] _ s [] (MutexInv.init m n m0) rfl hb h
  simp only [List.nil_append] at h1
  refine ⟨order, h1.explains, fun more s' hb' h' => ?_⟩
  obtain ⟨tail, h2⟩ := MutexInv.run hp more ls s s' order h1 h hb' h'
  exact ⟨tail, h2.explains⟩

/-! ## Consequences -/

private theorem mem_begunIn {i : Nat} {d : Deed σ} {ls : List (LockLabel σ)} (h : d ∈ begunBy i ls) : d ∈ begunIn ls := by
  induction ls with
  | nil => cases h
  | cons x ls ih =>
    cases x with
    | begin j e =>
      simp only [begunBy] at h
      simp only [begunIn]
      split at h
      · rcases List.mem_cons.mp h with rfl | h
        · exact List.mem_cons_self
        · exact List.mem_cons_of_mem _ (ih h)
      · exact List.mem_cons_of_mem _ (ih h)
    | _ => exact ih h

/-- What somebody was asked to do is a call of a receiver or was begun with. -/
private theorem mem_historyOf {d : Deed σ} {ls : List (LockLabel σ)} {s : Locked σ} {p : Party}
    (h : d ∈ historyOf program ls s p) : (∃ k r pk a, d = program k r pk a) ∨ d ∈ begunIn ls := by
  cases p with
  | call k r =>
    simp only [historyOf] at h
    split at h
    · obtain ⟨x, _, rfl⟩ := List.mem_map.mp h
      exact .inl ⟨k, r, _, _, rfl⟩
    · cases h
  | outside i => exact .inr (mem_begunIn h)

private theorem mem_partOf {p : Party} {d : Deed σ} {order : List (Party × Deed σ)} (h : (p, d) ∈ order) : d ∈ partOf p order :=
  List.mem_filterMap.mpr ⟨(p, d), h, by simp⟩

/-- The parts make up the whole. -/
private theorem length_parts (L : List Party) (hL : L.Nodup) (order : List (Party × Deed σ)) (h : ∀ x ∈ order, x.1 ∈ L) :
    order.length = (L.map fun p => (partOf p order).length).sum := by
  induction order with
  | nil =>
    induction L with
    | nil => rfl
    | cons q L ih => simpa [partOf] using ih (List.nodup_cons.mp hL).2 (by simp)
  | cons x order ih =>
    have ih := ih fun y hy => h y (List.mem_cons_of_mem _ hy)
    have hx := h x List.mem_cons_self
    have key : ∀ L : List Party, L.Nodup → (L.map fun p => (partOf p (x :: order)).length).sum =
        (L.map fun p => (partOf p order).length).sum + if x.1 ∈ L then 1 else 0 := by
      intro L hL
      induction L with
      | nil => rfl
      | cons q L ihL =>
        obtain ⟨hq, hL⟩ := List.nodup_cons.mp hL
        simp only [List.map_cons, List.sum_cons, ihL hL]
        have hstep : (partOf q (x :: order)).length = (partOf q order).length + if x.1 = q then 1 else 0 := by
          simp only [partOf, List.filterMap_cons]
          split
          · rename_i e
            split at e
            · cases e
            · rename_i hne; simp [hne]
          · rename_i e
            split at e
            · rename_i he; simp [he]
            · cases e
        rw [hstep]
        by_cases he : x.1 = q
        · subst he
          simp [hq]
          omega
        · simp [he]
          omega
    rw [key L hL, ← ih]
    simp [hx]

/-- C108. A counter behind a mutex counts right, with a pool of any size: when nothing is running it has been increased as many times as
receivers were called and application threads began (compare C105_two, where an increment is lost without the mutex). -/
theorem C108_count (program : Nat → Nat → Packet → Address → Deed Nat) (n m c : Nat) (ls : List (LockLabel Nat))
    (s : Locked Nat) (h : (Locked.init n c).run program ls = some s)
    (hp : ∀ k r p a, UnderLock m (program k r p a)) (hb : ∀ d ∈ begunIn ls, UnderLock m d)
    (hp' : ∀ k r p a v, byItself (program k r p a) false (v, false) = (v + 1, false))
    (hb' : ∀ d ∈ begunIn ls, ∀ v, byItself d false (v, false) = (v + 1, false))
    (hrest : ∀ p, s.running p = none) (L : List Party) (hL : L.Nodup) (hall : ∀ p, p ∉ L → historyOf program ls s p = []) :
    s.memory = c + (L.map fun p => (historyOf program ls s p).length).sum := by
  obtain ⟨order, h1⟩ := MutexInv.run hp ls [] _ s [] (MutexInv.init m n c) rfl hb h
  simp only [List.nil_append] at h1
  have hfree : s.owner m = none := by
    cases ho : s.owner m with
    | none => rfl
    | some p =>
      have := h1.stage p
      rw [hrest p] at this
      cases this with
      | idle a _ => exact absurd ho a
  have hpart : ∀ p, partOf p order = historyOf program ls s p := by
    intro p
    have := h1.stage p
    rw [hrest p] at this
    cases this with
    | idle _ e => exact e.symm
  have heff := h1.free hfree
  have hlen : ∀ (o : List (Party × Deed Nat)) (v : Nat), (∀ x ∈ o, ∀ v, byItself x.2 false (v, false) = (v + 1, false)) →
      inTurn o (v, false) = (v + o.length, false) := by
    intro o
    induction o with
    | nil => intro v _; rfl
    | cons x o ih =>
      intro v ho
      have := ih (v + 1) fun y hy => ho y (List.mem_cons_of_mem _ hy)
      simp only [inTurn, List.foldl_cons] at this ⊢
      rw [ho x List.mem_cons_self, this, List.length_cons]
      congr 1
      omega
  have hmem : ∀ x ∈ order, x.2 ∈ historyOf program ls s x.1 := by
    intro x hx
    rw [← hpart]
    exact mem_partOf hx
  rw [hlen order c (by
    intro x hx v
    rcases mem_historyOf (hmem x hx) with ⟨k, r, pk, a, e⟩ | e
    · rw [e]; exact hp' k r pk a v
    · exact hb' _ e v)] at heff
  rw [(Prod.mk.inj heff).1, length_parts L hL order]
  · simp only [hpart]
  · intro x hx
    refine Classical.byContradiction fun hn => ?_
    have := hmem x hx
    rw [hall x.1 hn] at this
    cases this

/-- `lock().unwrap()`: who finds the lock poisoned panics. -/
def Spec.Unwraps (m : Nat) : Deed σ → Prop
  | .lock i next => i = m ∧ next true = .panic
  | _ => False

/-- C108. One panic with the lock held is the end of the shared memory, if the lock is taken with `lock().unwrap()`: once it is poisoned (and
given back), the memory never changes again, and if nothing was running then, every later call, of every receiver of every instance,
panics. -/
theorem C108_frozen (n m : Nat) (m0 : σ) (ls : List (LockLabel σ)) (s : Locked σ)
    (h : (Locked.init n m0).run program ls = some s)
    (hp : ∀ k r p a, UnderLock m (program k r p a) ∧ Unwraps m (program k r p a))
    (hb : ∀ d ∈ begunIn ls, UnderLock m d ∧ Unwraps m d) (hpois : s.poisoned m = true) (hfree : s.owner m = none)
    (more : List (LockLabel σ)) (s' : Locked σ) (hb' : ∀ d ∈ begunIn more, UnderLock m d ∧ Unwraps m d)
    (h' : s.run program more = some s') :
    s'.memory = s.memory ∧ s'.poisoned m = true ∧
      ((∀ p, s.running p = none) → ∀ w k r hi, .local (.finish w k r hi) ∉ poolSteps more) := by
  obtain ⟨order, h1⟩ := MutexInv.run (fun k r p a => (hp k r p a).1) ls [] _ s [] (MutexInv.init m n m0) rfl
    (fun d hd => (hb d hd).1) h
  simp only [List.nil_append] at h1
  -- what is left to do for those who run
  have hinit : ∀ p d, s.running p = some d → d = .done ∨ d = .panic ∨ Unwraps m d := by
    intro p d hd
    have := h1.stage p
    rw [hd] at this
    cases this with
    | before _ _ _ e =>
      have : d ∈ historyOf program ls s p := by rw [e]; simp
      rcases mem_historyOf this with ⟨k, r, pk, a, e⟩ | e
      · rw [e]; exact .inr (.inr (hp k r pk a).2)
      · exact .inr (.inr (hb d e).2)
    | within _ _ e _ => rw [hfree] at e; cases e
    | after _ a _ _ => rcases a with a | a
                       · exact .inl a
                       · exact .inr (.inl a)
  have key : ∀ (more : List (LockLabel σ)) (ls : List (LockLabel σ)) (s1 : Locked σ),
      (Locked.init n m0).run program ls = some s1 → (∀ d ∈ begunIn more, Unwraps m d) → s1.poisoned m = true →
      (∀ p d, s1.running p = some d → d = .done ∨ d = .panic ∨ Unwraps m d) → s1.run program more = some s' →
      s'.memory = s1.memory ∧ s'.poisoned m = true ∧
        ((∀ p, s1.running p ≠ some .done) → ∀ w k r hi, .local (.finish w k r hi) ∉ poolSteps more) := by
    intro more
    induction more with
    | nil =>
      intro ls s1 _ _ g3 _ g5
      cases g5
      exact ⟨rfl, g3, fun _ _ _ _ _ h => by cases h⟩
    | cons x more ih =>
      intro ls s1 g1 g2 g3 g4 g5
      simp only [Locked.run] at g5
      split at g5
      case h_2 => cases g5
      rename_i s2 hx
      have g2' : ∀ d ∈ begunIn more, Unwraps m d := by
        intro d hd
        refine g2 d ?_
        have : x :: more = [x] ++ more := rfl
        rw [this, begunIn_append]
        exact List.mem_append_right _ hd
      -- one step
      have one : s2.memory = s1.memory ∧ s2.poisoned m = true ∧
          (∀ p d, s2.running p = some d → d = .done ∨ d = .panic ∨ Unwraps m d) ∧
          ((∀ p, s1.running p ≠ some .done) → (∀ p, s2.running p ≠ some .done) ∧
            ∀ w k r hi, x ≠ .pool (.local (.finish w k r hi))) := by
        have hfin : (∀ p, s1.running p ≠ some .done) → ∀ w k r hi, x ≠ .pool (.local (.finish w k r hi)) := by
          rintro hd w k r hi rfl
          obtain ⟨t, _, f, _⟩ := Locked.step_pool hx
          simp only [Locked.follow] at f
          split at f
          · rename_i e; exact hd _ e
          · cases f
        have hnu : ∀ d : Deed σ, Unwraps m d → d ≠ .done := by
          rintro d hd rfl
          exact hd
        rcases Locked.step_effect g1 hx with ⟨p, hg⟩ | ⟨p, d, f1, f2, f3, f4, f5⟩ | ⟨p, d, f1, f2, f3, f4, _, f6⟩ | ⟨f1, f2, f3, f4⟩
        · have hne : s1.running p ≠ none := by
            intro e; simp [Locked.go, e] at hg
          obtain ⟨d, hd⟩ := Option.ne_none_iff_exists'.mp hne
          rcases g4 p d hd with rfl | rfl | hu
          · simp [Locked.go, hd] at hg
          · simp [Locked.go, hd] at hg
          · cases d with
            | lock i next =>
              obtain ⟨rfl, hn⟩ := hu
              simp only [Locked.go, hd] at hg
              split at hg
              case isFalse => cases hg
              cases hg
              have hpan : next (s1.poisoned i) = .panic := by rw [g3, hn]
              refine ⟨rfl, g3, ?_, fun hdone => ⟨?_, hfin hdone⟩⟩
              · intro q d hq
                simp only [Locked.set] at hq
                split at hq
                · cases hq; exact .inr (.inl hpan)
                · exact g4 q d hq
              · intro q hq
                simp only [Locked.set] at hq
                split at hq
                · rw [hpan] at hq; cases hq
                · exact hdone q hq
            | _ => exact hu.elim
        · have hu : Unwraps m d := by
            rcases f5 with ⟨i, rfl, _⟩ | ⟨w, k, r, hi, pk, a, _, _, _, rfl⟩
            · exact g2 d List.mem_cons_self
            · exact (hp _ _ _ _).2
          refine ⟨f4.1, by rw [f4.2]; exact g3, ?_, fun hdone => ⟨?_, hfin hdone⟩⟩
          · intro q d' hq
            rw [f2] at hq
            dsimp only at hq
            split at hq
            · cases hq; exact .inr (.inr hu)
            · exact g4 q d' hq
          · intro q hq
            rw [f2] at hq
            dsimp only at hq
            split at hq
            · cases hq; exact hnu _ hu rfl
            · exact hdone q hq
        · refine ⟨f4, ?_, ?_, fun hdone => ⟨?_, hfin hdone⟩⟩
          · obtain ⟨_, _, e⟩ | ⟨_, _, e⟩ := f6
            · rw [e]; exact g3
            · rw [e]
              simp only [Locked.unwind]
              split
              · rfl
              · exact g3
          · intro q d' hq
            rw [f3] at hq
            dsimp only at hq
            split at hq
            · cases hq
            · exact g4 q d' hq
          · intro q hq
            rw [f3] at hq
            dsimp only at hq
            split at hq
            · cases hq
            · exact hdone q hq
        · refine ⟨f3, by rw [f4]; exact g3, ?_, fun hdone => ⟨?_, hfin hdone⟩⟩
          · intro q d' hq
            rw [f1] at hq
            exact g4 q d' hq
          · intro q hq
            rw [f1] at hq
            exact hdone q hq
      obtain ⟨e1, e2, e3⟩ := ih (ls ++ [x]) s2 ((Locked.run_snoc _ _ _ _).mpr ⟨s1, g1, hx⟩) g2' one.2.1 one.2.2.1 g5
      refine ⟨e1.trans one.1, e2, ?_⟩
      intro hdone w k r hi hmem
      obtain ⟨hd2, hnx⟩ := one.2.2.2 hdone
      cases x with
      | pool y =>
        rcases List.mem_cons.mp (show _ ∈ y :: poolSteps more from hmem) with e | hmem
        · exact hnx w k r hi (by rw [e])
        · exact e3 hd2 w k r hi hmem
      | _ => exact e3 hd2 w k r hi hmem
  obtain ⟨k1, k2, k3⟩ := key more ls s h (fun d hd => (hb' d hd).2) hpois hinit h'
  exact ⟨k1, k2, fun hn => k3 fun p e => by rw [hn p] at e; cases e⟩

/-! ## Examples -/

/-- Reads a counter and, in a second step, writes one more than it read; with lock 0, which must not be poisoned. -/
def countLocked : Deed Nat :=
  .lock 0 fun bad => if bad then .panic else .step (fun v => .step (fun _ => .unlock 0 .done) fun _ => v + 1) id

theorem countLocked_under : UnderLock 0 countLocked := by
  refine ⟨rfl, fun bad => ?_⟩
  cases bad
  · exact fun _ _ => ⟨rfl, .inl rfl⟩
  · trivial

theorem countLocked_counts (v : Nat) : byItself countLocked false (v, false) = (v + 1, false) := rfl

/-- Two threads, two receivers: one waits while the other one counts. -/
def bothCount : List (LockLabel Nat) :=
  [.pool (.local (.launch nervousPair [plainDatagram])), .pool (.local (.io 0 .pollEvent)), .pool (.local (.io 0 .recv)),
   .pool (.local (.enter 0 0)), .pool (.local (.take 0 0 0 2)), .pool (.local (.split 0 0 0 2)),
   .pool (.local (.begin 0 0 0 1)), .pool (.steal 1 0 0 1 2), .pool (.local (.begin 1 0 1 2)),
   .pool (.local (.call 0 0 0 1)), .pool (.local (.call 1 0 1 2)), .go (.call 0 1), .begin 5 countLocked, .go (.call 0 1),
   .go (.call 0 1), .go (.call 0 1), .go (.call 0 0), .go (.call 0 0), .go (.call 0 0), .go (.call 0 0), .go (.outside 5),
   .go (.outside 5), .go (.outside 5), .go (.outside 5), .leave 5,
   .pool (.local (.finish 0 0 0 1)), .pool (.local (.finish 1 0 1 2))]

/-- Example: what C108 and C108_count are about. -/
example : ∃ s, (Locked.init 2 0).run (fun _ _ _ _ => countLocked) bothCount = some s ∧
    (∀ k r p a, UnderLock 0 ((fun _ _ _ _ => countLocked : Nat → Nat → Packet → Address → Deed Nat) k r p a)) ∧
    (∀ d ∈ begunIn bothCount, UnderLock 0 d) ∧ s.memory = 3 ∧ s.owner 0 = none ∧ s.poisoned 0 = false ∧
    s.running (.call 0 0) = none ∧ s.running (.call 0 1) = none ∧ s.running (.outside 5) = none ∧
    (historyOf (fun _ _ _ _ => countLocked) bothCount s (.call 0 0)).length = 1 ∧
    (historyOf (fun _ _ _ _ => countLocked) bothCount s (.call 0 1)).length = 1 ∧
    (historyOf (fun _ _ _ _ => countLocked) bothCount s (.outside 5)).length = 1 := by
  have h : ((Locked.init 2 0).run (fun _ _ _ _ => countLocked) bothCount).map (fun s => (s.memory, s.owner 0, s.poisoned 0,
      (s.running (.call 0 0)).isSome, (s.running (.call 0 1)).isSome, (s.running (.outside 5)).isSome)) =
      some (3, none, false, false, false, false) := by decide +kernel
  have h' : ((Locked.init 2 0).run (fun _ _ _ _ => countLocked) bothCount).map (fun s =>
      ((historyOf (fun _ _ _ _ => countLocked) bothCount s (.call 0 0)).length,
       (historyOf (fun _ _ _ _ => countLocked) bothCount s (.call 0 1)).length,
       (historyOf (fun _ _ _ _ => countLocked) bothCount s (.outside 5)).length)) = some (1, 1, 1) := by decide +kernel
  obtain ⟨s, hs, hv⟩ := Option.map_eq_some_iff.mp h
  rw [hs] at h'
  simp only [Option.map_some, Option.some.injEq, Prod.mk.injEq] at h' hv
  refine ⟨s, hs, fun _ _ _ _ => countLocked_under, ?_, hv.1, hv.2.1, hv.2.2.1, ?_, ?_, ?_, h'⟩
  · simp [bothCount, begunIn, countLocked_under]
  · simpa using hv.2.2.2.1
  · simpa using hv.2.2.2.2.1
  · simpa using hv.2.2.2.2.2

/-- The first receiver panics when it has counted, with the lock. -/
def clumsy (_ r : Nat) (_ : Packet) (_ : Address) : Deed Nat :=
  if r = 0 then .lock 0 fun bad => if bad then .panic else .step (fun _ => .panic) (· + 1) else countLocked

theorem clumsy_under (k r : Nat) (p : Packet) (a : Address) : UnderLock 0 (clumsy k r p a) ∧ Unwraps 0 (clumsy k r p a) := by
  unfold clumsy
  split
  · refine ⟨⟨rfl, fun bad => ?_⟩, rfl, rfl⟩
    cases bad
    · exact fun _ => trivial
    · trivial
  · exact ⟨countLocked_under, rfl, rfl⟩

/-- One thread; the first receiver panics, the second one has been called, too. -/
def clumsyRun : List (LockLabel Nat) :=
  [.pool (.local (.launch nervousPair [plainDatagram])), .pool (.local (.io 0 .pollEvent)), .pool (.local (.io 0 .recv)),
   .pool (.local (.enter 0 0)), .pool (.local (.take 0 0 0 2)), .pool (.local (.split 0 0 0 2)),
   .pool (.local (.begin 0 0 0 1)), .pool (.steal 1 0 0 1 2), .pool (.local (.begin 1 0 1 2)),
   .pool (.local (.call 0 0 0 1)), .go (.call 0 0), .go (.call 0 0), .pool (.local (.crash 0 0 0 1))]

/-- Example: what C108_frozen is about; the second receiver is called afterwards, and panics. -/
example : ∃ s, (Locked.init 2 0).run clumsy clumsyRun = some s ∧ s.poisoned 0 = true ∧ s.owner 0 = none ∧ s.memory = 1 ∧
    ∃ s', s.run clumsy [.pool (.local (.call 1 0 1 2)), .go (.call 0 1), .pool (.local (.crash 1 0 1 2))] = some s' ∧
      s'.memory = 1 := by
  have h : ((Locked.init 2 0).run clumsy clumsyRun).map (fun s => (s.poisoned 0, s.owner 0, s.memory,
      ((s.run clumsy [.pool (.local (.call 1 0 1 2)), .go (.call 0 1), .pool (.local (.crash 1 0 1 2))]).map (·.memory)))) =
      some (true, none, 1, some 1) := by decide +kernel
  obtain ⟨s, hs, hv⟩ := Option.map_eq_some_iff.mp h
  simp only [Prod.mk.injEq] at hv
  exact ⟨s, hs, hv.1, hv.2.1, hv.2.2.1, Option.map_eq_some_iff.mp hv.2.2.2⟩

end Ipv8
