import Verif.Model.Shared
import Verif.Props.System
import Verif.Props.Machine
/-!
# C103: receivers and communities that share memory

What can be said about memory that the receivers of one instance share (or the communities of one, which are called by
one receiver): messages are dealt with one after the other, in the order in which they arrived.
-/

namespace Ipv8
open Spec

variable {σ : Type}

/-! ## Specification -/

/-- The program run by itself, until it returns or panics. -/
def Act.alone : Act σ → σ → σ
  | .done, m => m
  | .panic, m => m
  | .step next change, m => (next m).alone (change m)

/-- Some programs, all begun, are run to their ends; between two sections of one there may be any number of sections of
others, and of changes that others make to the memory, which are listed in their order.  The memory was `m` and is then
`m'`. -/
inductive Mixed : List (Act σ) → List (σ → σ) → σ → σ → Prop
  | done {ps : List (Act σ)} {m : σ} : (∀ p ∈ ps, p = .done) → Mixed ps [] m m
  | step {ps : List (Act σ)} {others : List (σ → σ)} {m m' : σ} (i : Nat) (next : σ → Act σ) (change : σ → σ) :
      ps[i]? = some (.step next change) → Mixed (ps.set i (next m)) others (change m) m' → Mixed ps others m m'
  | other {ps : List (Act σ)} {others : List (σ → σ)} {m m' : σ} (f : σ → σ) :
      Mixed ps others (f m) m' → Mixed ps (f :: others) m m'

/-- One group of programs after the other: the next begins when all of the one before have ended. -/
inductive InTurn : List (List (Act σ)) → List (σ → σ) → σ → σ → Prop
  | nil {others : List (σ → σ)} {m : σ} : InTurn [] others m (others.foldl (fun m f => f m) m)
  | cons {ps : List (Act σ)} {rest : List (List (Act σ))} {others others' : List (σ → σ)} {m m1 m' : σ} :
      Mixed ps others m m1 → InTurn rest others' m1 m' → InTurn (ps :: rest) (others ++ others') m m'

/-- What may come of a program: itself, or what is left of it after some sections. -/
inductive Act.Part : Act σ → Act σ → Prop
  | self {p : Act σ} : Act.Part p p
  | later {p : Act σ} {next : σ → Act σ} {change : σ → σ} (m : σ) :
      Act.Part p (next m) → Act.Part p (.step next change)

/-- Sections of the two do not disturb each other: the order of two sections does not matter for the memory, and neither
program sees whether a section of the other has been made (e.g. both only count, or they use different parts). -/
def Independent (p q : Act σ) : Prop :=
  ∀ next change next' change', Act.Part (.step next change) p → Act.Part (.step next' change') q → ∀ m,
    change (change' m) = change' (change m) ∧ next (change' m) = next m ∧ next' (change m) = next' m

/-- What the thread and the pool do in a history. -/
def eventsIn : List (SEv σ) → List Ev
  | [] => []
  | .ev e :: w => e :: eventsIn w
  | _ :: w => eventsIn w

/-- What others do. -/
def othersIn : List (SEv σ) → List (σ → σ)
  | [] => []
  | .other f :: w => f :: othersIn w
  | _ :: w => othersIn w

/-- What `n` receivers do when called with one message. -/
def programsFor (program : Nat → Packet → Address → Act σ) (n : Nat) (x : Packet × Address) : List (Act σ) :=
  (List.range n).map fun r => program r x.1 x.2

/-- Nothing running. -/
def Shared.fresh (m : σ) : Shared σ := ⟨m, fun _ => none⟩

/-! ## Proofs -/

theorem Shared.run_append (program : Nat → Packet → Address → Act σ) (w w' : List (SEv σ)) (s : Shared σ) :
    s.run program (w ++ w') = (s.run program w).bind fun s => s.run program w' := by
  induction w generalizing s with
  | nil => rfl
  | cons e w ih =>
    simp only [List.cons_append, Shared.run]
    cases s.step program e with
    | none => rfl
    | some s' => exact ih s'

theorem eventsIn_append (w w' : List (SEv σ)) : eventsIn (w ++ w') = eventsIn w ++ eventsIn w' := by
  induction w with
  | nil => rfl
  | cons e w ih => cases e <;> simp [eventsIn, ih]

theorem Mixed.others {ps : List (Act σ)} {fs fs' : List (σ → σ)} {m m' : σ}
    (h : Mixed ps fs' (fs.foldl (fun m f => f m) m) m') : Mixed ps (fs ++ fs') m m' := by
  induction fs generalizing m with
  | nil => exact h
  | cons f fs ih => exact .other f (ih h)

theorem InTurn.snoc {pss : List (List (Act σ))} {ps : List (Act σ)} {fs fs' : List (σ → σ)} {m m1 m' : σ}
    (h : InTurn pss fs m m1) (h' : Mixed ps fs' m1 m') : InTurn (pss ++ [ps]) (fs ++ fs') m m' := by
  induction h with
  | nil =>
    have := InTurn.cons h'.others (InTurn.nil (others := []))
    simpa using this
  | cons hm _ ih =>
    rw [List.append_assoc]
    exact .cons hm (ih h')

/-- What receiver `r` has still to do with the current message, when `k` messages came before. -/
def residual (program : Nat → Packet → Address → Act σ) (t : List Ev) (s : Shared σ) (k : Nat) (p : Packet) (a : Address)
    (r : Nat) : Act σ :=
  match s.running r with
  | some x => x
  | none => if (callsOf r t).length = k then program r p a else .done

/-- The invariant. -/
structure SInv (program : Nat → Packet → Address → Act σ) (n : Nat) (m0 : σ) (t : List Ev) (fs : List (σ → σ))
    (s : Shared σ) : Prop where
  running : ∀ r, (s.running r).isSome = true ↔ (callsOf r t).length = returnsOf r t + 1
  counted : ∀ r, (callsOf r t).length = returnsOf r t ∨ (callsOf r t).length = returnsOf r t + 1
  outside : ∀ r, n ≤ r → callsOf r t = []
  start : takenIn t = [] → s.memory = fs.foldl (fun m f => f m) m0 ∧ ∀ r, s.running r = none
  round : ∀ prev p a, takenIn t = prev ++ [(p, a)] → ∃ m1 fs1 fs2, fs = fs1 ++ fs2 ∧
    InTurn (prev.map (programsFor program n)) fs1 m0 m1 ∧
    (∀ r, r < n → (callsOf r t).length = prev.length ∨ (callsOf r t).length = prev.length + 1) ∧
    (∀ r, r < n → (callsOf r t).length = prev.length → s.running r = none) ∧
    ∀ m' fs', Mixed ((List.range n).map (residual program t s prev.length p a)) fs' s.memory m' →
      Mixed (programsFor program n (p, a)) (fs2 ++ fs') m1 m'

theorem residuals_set {program : Nat → Packet → Address → Act σ} {t t' : List Ev} {s s' : Shared σ} {k : Nat}
    {p : Packet} {a : Address} {n r : Nat} (hr : r < n)
    (h : ∀ i, i ≠ r → residual program t' s' k p a i = residual program t s k p a i) :
    (List.range n).map (residual program t' s' k p a) =
      ((List.range n).map (residual program t s k p a)).set r (residual program t' s' k p a r) := by
  apply List.ext_getElem?
  intro i
  by_cases hi : i = r
  · subst hi
    rw [List.getElem?_set_self (by simpa using hr)]
    simp [hr]
  · rw [List.getElem?_set_ne (Ne.symm hi)]
    simp only [List.getElem?_map]
    cases hl : (List.range n)[i]? with
    | none => rfl
    | some j =>
      have : j = i := by
        obtain ⟨h1, h2⟩ := List.getElem?_eq_some_iff.mp hl
        simpa using h2.symm
      subst this
      simp [h j hi]


theorem Shared.run_snoc {program : Nat → Packet → Address → Act σ} {w : List (SEv σ)} {e : SEv σ} {s s' : Shared σ}
    (h : s.run program (w ++ [e]) = some s') : ∃ m, s.run program w = some m ∧ m.step program e = some s' := by
  rw [Shared.run_append] at h
  cases hm : s.run program w with
  | none => rw [hm] at h; simp at h
  | some m =>
    rw [hm] at h
    refine ⟨m, rfl, ?_⟩
    simp only [Option.bind_some, Shared.run] at h
    cases hs : m.step program e with
    | none => rw [hs] at h; simp at h
    | some x => rw [hs] at h; simpa using h

theorem TraceInv.init {l : Listener} {t : List Ev} {e : Ev} (h : TraceInv l (t ++ [e])) : TraceInv l t := by
  intro t1 e' t2 ht
  exact h t1 e' (t2 ++ [e]) (by simp [ht])

theorem SInv.fresh (program : Nat → Packet → Address → Act σ) (n : Nat) (m0 : σ) :
    SInv program n m0 [] [] (Shared.fresh m0) where
  running r := by simp [Shared.fresh, callsOf, returnsOf]
  counted r := .inl rfl
  outside r _ := rfl
  start _ := ⟨rfl, fun _ => rfl⟩
  round prev p a h := by simp [takenIn] at h

theorem SInv.stopped {program : Nat → Packet → Address → Act σ} {n : Nat} {m0 : σ} {t : List Ev} {fs : List (σ → σ)} {s : Shared σ}
    (h : SInv program n m0 t fs s) {r : Nat} (hr : (callsOf r t).length = returnsOf r t) : s.running r = none := by
  have := h.running r
  cases hs : s.running r with
  | none => rfl
  | some x => rw [hs] at this; simp at this; omega

/-- When all the calls have returned, the messages so far have been dealt with in turn. -/
theorem SInv.quiet {program : Nat → Packet → Address → Act σ} {n : Nat} {m0 : σ} {t : List Ev} {fs : List (σ → σ)} {s : Shared σ}
    (h : SInv program n m0 t fs s) (hc : ∀ r, r < n → callsOf r t = takenIn t)
    (hr : ∀ r, (callsOf r t).length = returnsOf r t) :
    InTurn ((takenIn t).map (programsFor program n)) fs m0 s.memory := by
  rcases List.eq_nil_or_concat (takenIn t) with h0 | ⟨prev, ⟨p, a⟩, h1⟩
  · rw [h0, (h.start h0).1]
    exact .nil
  · rw [List.concat_eq_append] at h1
    obtain ⟨m1, fs1, fs2, hfs, hm, hl, _, hx⟩ := h.round prev p a h1
    rw [h1, List.map_append, hfs, ← List.append_nil fs2]
    refine hm.snoc (hx _ _ (.done ?_))
    intro q hq
    obtain ⟨r, hrn, rfl⟩ := List.mem_map.mp hq
    have hrn := List.mem_range.mp hrn
    have : (callsOf r t).length = prev.length + 1 := by rw [hc r hrn, h1]; simp
    simp [residual, h.stopped (hr r), this]

theorem SInv.step {program : Nat → Packet → Address → Act σ} {l : Listener} {m0 : σ} {t : List Ev} {fs : List (σ → σ)}
    {s s' : Shared σ} {e : Ev} (h : SInv program l.receivers.length m0 t fs s) (ht : TraceInv l (t ++ [e]))
    (hs : s.step program (.ev e) = some s') : SInv program l.receivers.length m0 (t ++ [e]) fs s' := by
  have he := ht t e [] rfl
  cases e with
  | taken p a =>
    obtain ⟨hc, hr⟩ := he
    simp only [Shared.step, Option.some.injEq] at hs
    subst hs
    have hn : ∀ r, s.running r = none := fun r => h.stopped (hr r)
    refine ⟨?_, ?_, ?_, ?_, ?_⟩
    · intro r
      have := h.running r
      simpa [callsOf, returnsOf] using this
    · intro r
      simpa [callsOf, returnsOf] using h.counted r
    · intro r hr'
      simp [callsOf, h.outside r hr']
    · intro h0
      simp [takenIn] at h0
    · intro prev p' a' heq
      simp only [takenIn_append, takenIn] at heq
      obtain ⟨rfl, h2⟩ := List.append_inj' heq rfl
      simp only [List.cons.injEq, Prod.mk.injEq, and_true] at h2
      obtain ⟨rfl, rfl⟩ := h2
      have hlen : ∀ r, r < l.receivers.length →
          (callsOf r (t ++ [Ev.taken p a])).length = (takenIn t).length := by
        intro r hrn
        simp [callsOf, hc r hrn]
      refine ⟨s.memory, fs, [], by simp, h.quiet hc hr, fun r hrn => .inl (hlen r hrn), fun r _ _ => hn r, ?_⟩
      intro m' fs' hm
      have : (List.range l.receivers.length).map
          (residual program (t ++ [Ev.taken p a]) s (takenIn t).length p a) =
          programsFor program l.receivers.length (p, a) := by
        apply List.map_congr_left
        intro r hrn
        simp only [residual, hn r, hlen r (List.mem_range.mp hrn), if_true]
      rw [this] at hm
      exact hm
  | call r p a =>
    obtain ⟨hrn, prev, hp, hc⟩ := he
    simp only [Shared.step] at hs
    cases hrun : s.running r with
    | some x => rw [hrun] at hs; simp at hs
    | none =>
      rw [hrun] at hs
      simp only [Option.some.injEq] at hs
      subst hs
      have hself : callsOf r (t ++ [Ev.call r p a]) = callsOf r t ++ [(p, a)] := by simp [callsOf]
      have hother : ∀ i, i ≠ r → callsOf i (t ++ [Ev.call r p a]) = callsOf i t := by
        intro i hi; simp [callsOf, Ne.symm hi]
      have hret : ∀ i, returnsOf i (t ++ [Ev.call r p a]) = returnsOf i t := by intro i; simp [returnsOf]
      have hbal : (callsOf r t).length = returnsOf r t := by
        have h1 := h.running r
        have h2 := h.counted r
        rw [hrun] at h1
        simp at h1
        omega
      refine ⟨?_, ?_, ?_, ?_, ?_⟩
      · intro i
        by_cases hi : i = r
        · subst hi
          simp [hself, hret, hbal]
        · simp [hi, hother i hi, hret, h.running i]
      · intro i
        by_cases hi : i = r
        · subst hi
          simp [hself, hret, hbal]
        · simpa [hi, hother i hi, hret] using h.counted i
      · intro i hi
        rw [hother i (by omega)]
        exact h.outside i hi
      · intro h0
        simp only [takenIn_append, takenIn, List.append_nil, hp] at h0
        simp at h0
      · intro prev' p' a' heq
        simp only [takenIn_append, takenIn, List.append_nil, hp] at heq
        obtain ⟨rfl, h2⟩ := List.append_inj' heq rfl
        simp only [List.cons.injEq, Prod.mk.injEq, and_true] at h2
        obtain ⟨rfl, rfl⟩ := h2
        obtain ⟨m1, fs1, fs2, hfs, hm1, hl, hnone, hx⟩ := h.round prev p a hp
        refine ⟨m1, fs1, fs2, hfs, hm1, ?_, ?_, ?_⟩
        · intro i hin
          by_cases hi : i = r
          · subst hi
            right
            rw [hself, hc]
            simp
          · rw [hother i hi]
            exact hl i hin
        · intro i hin hlen
          by_cases hi : i = r
          · subst hi
            rw [hself, hc] at hlen
            simp at hlen
          · rw [hother i hi] at hlen
            simp only [hi, if_false]
            exact hnone i hin hlen
        · intro m' fs' hm
          apply hx
          refine cast ?_ hm
          congr 1
          apply List.map_congr_left
          intro i _
          by_cases hi : i = r
          · subst hi
            simp [residual, hrun, hc]
          · simp [residual, hi, hother i hi]
  | ret r =>
    simp only at he
    simp only [Shared.step] at hs
    have hstep : ∃ s'', s.running r = some .done ∧ s'' = s' ∧
        s'' = { s with running := fun i => if i = r then none else s.running i } := by
      split at hs
      · exact ⟨_, by assumption, Option.some.inj hs, rfl⟩
      · simp at hs
    obtain ⟨_, hrun, rfl, rfl⟩ := hstep
    have hcalls : ∀ i, callsOf i (t ++ [Ev.ret r]) = callsOf i t := by intro i; simp [callsOf]
    have hself : returnsOf r (t ++ [Ev.ret r]) = returnsOf r t + 1 := by simp [returnsOf]
    have hother : ∀ i, i ≠ r → returnsOf i (t ++ [Ev.ret r]) = returnsOf i t := by
      intro i hi; simp [returnsOf, Ne.symm hi]
    refine ⟨?_, ?_, ?_, ?_, ?_⟩
    · intro i
      by_cases hi : i = r
      · subst hi
        simp [hcalls, hself, he]
      · simp [hi, hcalls, hother i hi, h.running i]
    · intro i
      by_cases hi : i = r
      · subst hi
        simp [hcalls, hself, he]
      · simpa [hcalls, hother i hi] using h.counted i
    · intro i hi
      rw [hcalls]
      exact h.outside i hi
    · intro h0
      simp only [takenIn_append, takenIn, List.append_nil] at h0
      have := (h.start h0).2 r
      rw [hrun] at this
      simp at this
    · intro prev p a heq
      simp only [takenIn_append, takenIn, List.append_nil] at heq
      obtain ⟨m1, fs1, fs2, hfs, hm1, hl, hnone, hx⟩ := h.round prev p a heq
      refine ⟨m1, fs1, fs2, hfs, hm1, ?_, ?_, ?_⟩
      · intro i hin
        rw [hcalls]
        exact hl i hin
      · intro i hin hlen
        rw [hcalls] at hlen
        dsimp only
        split
        · rfl
        · exact hnone i hin hlen
      · intro m' fs' hm
        apply hx
        refine cast ?_ hm
        congr 1
        apply List.map_congr_left
        intro i hin
        have hin := List.mem_range.mp hin
        by_cases hi : i = r
        · subst hi
          have : (callsOf i t).length ≠ prev.length := by
            intro hlen
            rw [hnone i hin hlen] at hrun
            simp at hrun
          simp [residual, hrun, hcalls, this]
        · simp [residual, hi, hcalls]

theorem SInv.touch {program : Nat → Packet → Address → Act σ} {n : Nat} {m0 : σ} {t : List Ev} {fs : List (σ → σ)}
    {s s' : Shared σ} {r : Nat} (h : SInv program n m0 t fs s) (hs : s.step program (.touch r) = some s') :
    SInv program n m0 t fs s' := by
  simp only [Shared.step] at hs
  have hstep : ∃ next change, s.running r = some (.step next change) ∧
      s' = ⟨change s.memory, fun i => if i = r then some (next s.memory) else s.running i⟩ := by
    split at hs
    · exact ⟨_, _, by assumption, (Option.some.inj hs).symm⟩
    · simp at hs
  obtain ⟨next, change, hrun, rfl⟩ := hstep
  have hr : r < n := by
    rcases Nat.lt_or_ge r n with h1 | h1
    · exact h1
    · have h2 := (h.running r).mp (by rw [hrun]; rfl)
      rw [h.outside r h1] at h2
      simp at h2
  refine ⟨?_, h.counted, h.outside, ?_, ?_⟩
  · intro i
    rw [← h.running i]
    by_cases hi : i = r
    · subst hi; simp [hrun]
    · simp [hi]
  · intro h0
    have := (h.start h0).2 r
    rw [hrun] at this
    simp at this
  · intro prev p a heq
    obtain ⟨m1, fs1, fs2, hfs, hm1, hl, hnone, hx⟩ := h.round prev p a heq
    refine ⟨m1, fs1, fs2, hfs, hm1, hl, ?_, ?_⟩
    · intro i hin hlen
      have := hnone i hin hlen
      by_cases hi : i = r
      · subst hi
        rw [hrun] at this
        simp at this
      · simpa [hi] using this
    · intro m' fs' hm
      apply hx
      refine .step r next change ?_ ?_
      · simp [hr, residual, hrun]
      · refine cast ?_ hm
        congr 1
        rw [residuals_set (t := t) (s := s) (r := r) hr]
        · simp [residual]
        · intro i hi
          simp [residual, hi]

theorem SInv.other {program : Nat → Packet → Address → Act σ} {n : Nat} {m0 : σ} {t : List Ev} {fs : List (σ → σ)}
    {s : Shared σ} (h : SInv program n m0 t fs s) (f : σ → σ) :
    SInv program n m0 t (fs ++ [f]) { s with memory := f s.memory } where
  running := h.running
  counted := h.counted
  outside := h.outside
  start h0 := ⟨by simp [(h.start h0).1], (h.start h0).2⟩
  round prev p a heq := by
    obtain ⟨m1, fs1, fs2, hfs, hm1, hl, hnone, hx⟩ := h.round prev p a heq
    refine ⟨m1, fs1, fs2 ++ [f], by simp [hfs], hm1, hl, hnone, ?_⟩
    intro m' fs' hm
    have := hx m' (f :: fs') (.other f hm)
    simpa using this

theorem othersIn_append (u v : List (SEv σ)) : othersIn (u ++ v) = othersIn u ++ othersIn v := by
  induction u with
  | nil => rfl
  | cons x u ih => cases x <;> simp [othersIn, ih]

theorem SInv.run {program : Nat → Packet → Address → Act σ} {l : Listener} {m0 : σ} (w : List (SEv σ)) (s : Shared σ)
    (ht : TraceInv l (eventsIn w)) (hs : (Shared.fresh m0).run program w = some s) :
    SInv program l.receivers.length m0 (eventsIn w) (othersIn w) s := by
  induction hw : w.length generalizing w s with
  | zero =>
    have : w = [] := List.length_eq_zero_iff.mp hw
    subst this
    simp only [Shared.run, Option.some.injEq] at hs
    subst hs
    exact .fresh _ _ _
  | succ k ih =>
    rcases List.eq_nil_or_concat w with rfl | ⟨w', e, rfl⟩
    · simp at hw
    rw [List.concat_eq_append] at *
    obtain ⟨m, hm, he⟩ := Shared.run_snoc hs
    rw [eventsIn_append] at ht ⊢
    rw [othersIn_append]
    have hk : w'.length = k := by simpa using hw
    cases e with
    | ev e =>
      simp only [othersIn, List.append_nil]
      exact (ih w' m ht.init hm hk).step ht he
    | touch r =>
      simp only [eventsIn, othersIn, List.append_nil] at ht ⊢
      exact (ih w' m ht hm hk).touch he
    | other f =>
      simp only [eventsIn, othersIn, List.append_nil] at ht ⊢
      simp only [Shared.step, Option.some.injEq] at he
      subst he
      exact (ih w' m ht hm hk).other f

/-- C103. At every moment at which no receiver is at work: the memory is one that comes about when the datagrams that have
been read are dealt with one after the other, in the order of their arrival, the next when all the receivers have
returned; for each of them every receiver's program is run once, and only sections of these are mixed, with each other
and with what other parts of the application do.  So nothing of a message is ever seen together with part of the work
for another. -/
theorem C103 (program : Nat → Packet → Address → Act σ) (l : Listener) (queued : List Datagram) (ls : List Label)
    (s : NetState) (h : l.run (l.init queued) ls = some s) (hi : idle s.phase = true) (m0 : σ) (w : List (SEv σ))
    (hw : eventsIn w = s.trace) (s' : Shared σ) (hs : (Shared.fresh m0).run program w = some s') :
    ∃ handled, queued ++ arrivals ls = handled ++ s.queue ∧
      InTurn (handled.map fun d => programsFor program l.receivers.length (received l.buffersize d)) (othersIn w)
        m0 s'.memory ∧
      ∀ r, s'.running r = none := by
  have hinv := inv_run l queued ls s h
  obtain ⟨handled, hf, htaken⟩ := hinv.fifo
  have hS : SInv program l.receivers.length m0 s.trace (othersIn w) s' := by
    rw [← hw]
    exact .run w s' (by rw [hw]; exact hinv.trace) hs
  have hq : (∀ r, r < l.receivers.length → callsOf r s.trace = takenIn s.trace) ∧
      (∀ r, (callsOf r s.trace).length = returnsOf r s.trace) := by
    have := hinv.phase
    cases hp : s.phase with
    | polling => simpa [PhaseInv, hp] using this
    | handling => simpa [PhaseInv, hp] using this
    | dispatch => simp [hp, idle] at hi
    | stopped => simp [hp, idle] at hi
  have := hS.quiet hq.1 hq.2
  rw [htaken, List.map_map] at this
  exact ⟨handled, hf, this, fun r => hS.stopped (hq.2 r)⟩

/-! ## Receivers that do not disturb each other -/

theorem Independent.symm {p q : Act σ} (h : Independent p q) : Independent q p := by
  intro next change next' change' h1 h2 m
  obtain ⟨a, b, c⟩ := h next' change' next change h2 h1 m
  exact ⟨a.symm, c, b⟩

theorem Act.Part.trans {p q r : Act σ} (h : Act.Part p q) (h' : Act.Part q r) : Act.Part p r := by
  induction h' with
  | self => exact h
  | later m _ ih => exact .later m ih

theorem Independent.part {p p' q : Act σ} (h : Independent p q) (hp : Act.Part p' p) : Independent p' q := by
  intro next change next' change' h1 h2 m
  exact h next change next' change' (h1.trans hp) h2 m

theorem Independent.alone {next : σ → Act σ} {change : σ → σ} (q : Act σ) (h : Independent (.step next change) q)
    (m : σ) : change (q.alone m) = q.alone (change m) ∧ next (q.alone m) = next m := by
  induction q generalizing m with
  | done => exact ⟨rfl, rfl⟩
  | panic => exact ⟨rfl, rfl⟩
  | step next' change' ih =>
    obtain ⟨h1, h2, h3⟩ := h next change next' change' .self .self m
    have hq : Independent (.step next change) (next' m) :=
      (h.symm.part (.later m .self)).symm
    obtain ⟨i1, i2⟩ := ih m hq (change' m)
    simp only [Act.alone]
    refine ⟨?_, by rw [i2, h2]⟩
    rw [i1, h1, h3]

/-- One after the other, each to its end. -/
def aloneInTurn (ps : List (Act σ)) (m : σ) : σ := ps.foldl (fun m p => p.alone m) m

theorem aloneInTurn_step (ps : List (Act σ)) (i : Nat) (next : σ → Act σ) (change : σ → σ)
    (hp : ps[i]? = some (.step next change))
    (hI : ∀ j q, j ≠ i → ps[j]? = some q → Independent (.step next change) q) (m : σ) :
    aloneInTurn (ps.set i (next m)) (change m) = aloneInTurn ps m := by
  induction ps generalizing i m with
  | nil => simp at hp
  | cons q ps ih =>
    cases i with
    | zero =>
      simp only [List.getElem?_cons_zero, Option.some.injEq] at hp
      subst hp
      rfl
    | succ i =>
      simp only [List.getElem?_cons_succ] at hp
      obtain ⟨h1, h2⟩ := (hI 0 q (by omega) rfl).alone q m
      have := ih i hp (fun j q hj hq => hI (j + 1) q (by omega) (by simpa using hq)) (q.alone m)
      simp only [aloneInTurn, List.set_cons_succ, List.foldl_cons] at this ⊢
      rw [← h1, ← this, h2]

theorem Mixed.alone {ps : List (Act σ)} {fs : List (σ → σ)} {m m' : σ} (h : Mixed ps fs m m') (hfs : fs = [])
    (hI : ∀ (i j : Nat) (p q : Act σ), i ≠ j → ps[i]? = some p → ps[j]? = some q → Independent p q) : m' = aloneInTurn ps m := by
  induction h with
  | @done ps m hd =>
    have : ∀ (ps : List (Act σ)), (∀ p ∈ ps, p = .done) → aloneInTurn ps m = m := by
      intro ps
      induction ps with
      | nil => intro _; rfl
      | cons p ps ih =>
        intro hd
        have := ih fun q hq => hd q (by simp [hq])
        rw [hd p (by simp)]
        exact this
    exact (this ps hd).symm
  | other f _ _ => simp at hfs
  | @step ps fs m m' i next change hp _ ih =>
    have hset : ∀ (j : Nat) (q : Act σ), (ps.set i (next m))[j]? = some q → ∃ q', ps[j]? = some q' ∧ Act.Part q q' := by
      intro j q hq
      by_cases hj : j = i
      · subst hj
        have hlt : j < ps.length := (List.getElem?_eq_some_iff.mp hp).1
        rw [List.getElem?_set_self hlt] at hq
        cases hq
        exact ⟨_, hp, .later m .self⟩
      · rw [List.getElem?_set_ne (Ne.symm hj)] at hq
        exact ⟨q, hq, .self⟩
    rw [ih hfs ?_, aloneInTurn_step ps i next change hp]
    · intro j q hj hq
      exact hI i j _ q (Ne.symm hj) hp hq
    · intro j k p q hjk hj hk
      obtain ⟨p', hp', hpp⟩ := hset j p hj
      obtain ⟨q', hq', hqq⟩ := hset k q hk
      exact ((hI j k p' q' hjk hp' hq').part hpp).symm.part hqq |>.symm

theorem InTurn.alone {pss : List (List (Act σ))} {fs : List (σ → σ)} {m m' : σ} (h : InTurn pss fs m m')
    (hfs : fs = [])
    (hI : ∀ ps ∈ pss, ∀ (i j : Nat) (p q : Act σ), i ≠ j → ps[i]? = some p → ps[j]? = some q → Independent p q) :
    m' = aloneInTurn pss.flatten m := by
  induction h with
  | nil => subst hfs; rfl
  | cons hm _ ih =>
    obtain ⟨h1, h2⟩ := List.append_eq_nil_iff.mp hfs
    rw [ih h2 fun ps hps => hI ps (by simp [hps]), hm.alone h1 (hI _ (by simp))]
    simp [aloneInTurn]

/-- C103. If the receivers do not disturb each other, the memory does not depend on the schedule: it is that of the
receivers called one after the other, each to its end, for one datagram after the other. -/
theorem C103_independent (program : Nat → Packet → Address → Act σ) (l : Listener)
    (hI : ∀ r r' p a, r < l.receivers.length → r' < l.receivers.length → r ≠ r' →
      Independent (program r p a) (program r' p a))
    (queued : List Datagram) (ls : List Label)
    (s : NetState) (h : l.run (l.init queued) ls = some s) (hi : idle s.phase = true) (m0 : σ) (w : List (SEv σ))
    (hw : eventsIn w = s.trace) (ho : othersIn w = []) (s' : Shared σ)
    (hs : (Shared.fresh m0).run program w = some s') :
    ∃ handled, queued ++ arrivals ls = handled ++ s.queue ∧
      s'.memory = handled.foldl (fun m d => (List.range l.receivers.length).foldl
        (fun m r => (program r (received l.buffersize d).1 (received l.buffersize d).2).alone m) m) m0 := by
  obtain ⟨handled, hf, ht, _⟩ := C103 program l queued ls s h hi m0 w hw s' hs
  refine ⟨handled, hf, ?_⟩
  rw [ht.alone ho ?_]
  · clear ht hf hs
    induction handled generalizing m0 with
    | nil => rfl
    | cons d ds ih =>
      simp only [List.map_cons, List.flatten_cons, aloneInTurn, List.foldl_append, List.foldl_cons] at ih ⊢
      rw [ih]
      simp [programsFor, List.foldl_map]
  · intro ps hps i j p q hij hp hq
    obtain ⟨d, _, rfl⟩ := List.mem_map.mp hps
    simp only [programsFor, List.getElem?_map, Option.map_eq_some_iff] at hp hq
    obtain ⟨i', hi', rfl⟩ := hp
    obtain ⟨j', hj', rfl⟩ := hq
    obtain ⟨h1, h2⟩ := List.getElem?_eq_some_iff.mp hi'
    obtain ⟨h3, h4⟩ := List.getElem?_eq_some_iff.mp hj'
    simp only [List.getElem_range, List.length_range] at h1 h2 h3 h4
    subst h2 h4
    exact hI _ _ _ _ h1 h3 hij

/-- C103. One receiver, e.g. the one that hands messages to the registry: its work for a message is never mixed with
anything, and whatever its communities share is changed by one message after the other. -/
theorem C103_one (program : Nat → Packet → Address → Act σ) (l : Listener) (hl : l.receivers.length = 1)
    (queued : List Datagram) (ls : List Label)
    (s : NetState) (h : l.run (l.init queued) ls = some s) (hi : idle s.phase = true) (m0 : σ) (w : List (SEv σ))
    (hw : eventsIn w = s.trace) (ho : othersIn w = []) (s' : Shared σ)
    (hs : (Shared.fresh m0).run program w = some s') :
    ∃ handled, queued ++ arrivals ls = handled ++ s.queue ∧
      s'.memory = handled.foldl
        (fun m d => (program 0 (received l.buffersize d).1 (received l.buffersize d).2).alone m) m0 := by
  obtain ⟨handled, hf, hm⟩ := C103_independent program l (fun r r' p a h1 h2 h3 => absurd h3 (by omega)) queued ls s h hi
    m0 w hw ho s' hs
  refine ⟨handled, hf, ?_⟩
  rw [hm, hl]
  rfl

/-! ## Others that use the memory -/

/-- Nobody sees whether this change has been made. -/
def Unseen (f : σ → σ) (p : Act σ) : Prop :=
  ∀ next change, Act.Part (.step next change) p → ∀ m, change (f m) = f (change m) ∧ next (f m) = next m

/-- The history without what others do. -/
def withoutOthers : List (SEv σ) → List (SEv σ)
  | [] => []
  | .other _ :: w => withoutOthers w
  | e :: w => e :: withoutOthers w

theorem eventsIn_withoutOthers (w : List (SEv σ)) : eventsIn (withoutOthers w) = eventsIn w := by
  induction w with
  | nil => rfl
  | cons e w ih => cases e <;> simp [eventsIn, withoutOthers, ih]

theorem othersIn_withoutOthers (w : List (SEv σ)) : othersIn (withoutOthers w) = [] := by
  induction w with
  | nil => rfl
  | cons e w ih => cases e <;> simp [othersIn, withoutOthers, ih]

theorem unseen_all {p : Act σ} (fs : List (σ → σ)) (h : ∀ f ∈ fs, Unseen f p) (next : σ → Act σ) (change : σ → σ)
    (hp : Act.Part (.step next change) p) (m : σ) :
    change (fs.foldl (fun m f => f m) m) = fs.foldl (fun m f => f m) (change m) ∧
      next (fs.foldl (fun m f => f m) m) = next m := by
  induction fs generalizing m with
  | nil => exact ⟨rfl, rfl⟩
  | cons f fs ih =>
    obtain ⟨h1, h2⟩ := h f (by simp) next change hp m
    obtain ⟨i1, i2⟩ := ih (fun g hg => h g (by simp [hg])) (f m)
    simp only [List.foldl_cons]
    exact ⟨by rw [i1, h1], by rw [i2, h2]⟩

theorem others_run {program : Nat → Packet → Address → Act σ} (w : List (SEv σ))
    (hu : ∀ f ∈ othersIn w, ∀ r p a, Unseen f (program r p a)) (s : Shared σ) (m : σ)
    (hr : ∀ r q, s.running r = some q → ∃ p a, Act.Part q (program r p a))
    (fs : List (σ → σ)) (hfs : ∀ f ∈ fs, ∀ r p a, Unseen f (program r p a))
    (hm : s.memory = fs.foldl (fun m f => f m) m) (s' : Shared σ) (hs : s.run program w = some s') :
    ∃ m', (Shared.mk m s.running).run program (withoutOthers w) = some ⟨m', s'.running⟩ ∧
      s'.memory = (fs ++ othersIn w).foldl (fun m f => f m) m' := by
  induction w generalizing s m fs with
  | nil =>
    simp only [Shared.run, Option.some.injEq] at hs
    subst hs
    exact ⟨m, rfl, by simpa [othersIn] using hm⟩
  | cons e w ih =>
    simp only [Shared.run] at hs
    cases e with
    | other f =>
      simp only [Shared.step] at hs
      have := ih (fun g hg => hu g (by simp [othersIn, hg])) { s with memory := f s.memory } m hr (fs ++ [f])
        (by
          intro g hg
          rcases List.mem_append.mp hg with hg | hg
          · exact hfs g hg
          · exact hu g (by simp [othersIn, List.mem_singleton.mp hg]))
        (by simp [hm]) hs
      simpa [withoutOthers, othersIn] using this
    | ev e =>
      cases e with
      | taken p a =>
        simp only [Shared.step] at hs
        simpa [withoutOthers, othersIn, Shared.run, Shared.step] using
          ih (fun g hg => hu g (by simp [othersIn, hg])) s m hr fs hfs hm hs
      | call r p a =>
        simp only [Shared.step] at hs
        cases hrun : s.running r with
        | some x => rw [hrun] at hs; simp at hs
        | none =>
          rw [hrun] at hs
          have := ih (fun g hg => hu g (by simp [othersIn, hg]))
            { s with running := fun i => if i = r then some (program r p a) else s.running i } m
            (by
              intro i q hq
              by_cases hi : i = r
              · subst hi
                simp only [if_true, Option.some.injEq] at hq
                subst hq
                exact ⟨p, a, .self⟩
              · simp only [hi, if_false] at hq
                exact hr i q hq) fs hfs hm hs
          simpa [withoutOthers, othersIn, Shared.run, Shared.step, hrun] using this
      | ret r =>
        simp only [Shared.step] at hs
        have hrun : s.running r = some .done := by
          split at hs
          · rename_i h1
            split at h1
            · assumption
            · simp at h1
          · simp at hs
        rw [hrun] at hs
        have := ih (fun g hg => hu g (by simp [othersIn, hg]))
          { s with running := fun i => if i = r then none else s.running i } m
          (by
            intro i q hq
            by_cases hi : i = r
            · subst hi; simp at hq
            · simp only [hi, if_false] at hq
              exact hr i q hq) fs hfs hm hs
        simpa [withoutOthers, othersIn, Shared.run, Shared.step, hrun] using this
    | touch r =>
      simp only [Shared.step] at hs
      have hrun : ∃ next change, s.running r = some (.step next change) := by
        split at hs
        · rename_i h1
          split at h1
          · exact ⟨_, _, by assumption⟩
          · simp at h1
        · simp at hs
      obtain ⟨next, change, hrun⟩ := hrun
      rw [hrun] at hs
      obtain ⟨p, a, hp⟩ := hr r _ hrun
      obtain ⟨h1, h2⟩ := unseen_all fs (fun f hf => hfs f hf r p a) next change hp m
      have := ih (fun g hg => hu g (by simp [othersIn, hg]))
        ⟨change s.memory, fun i => if i = r then some (next s.memory) else s.running i⟩ (change m)
        (by
          intro i q hq
          by_cases hi : i = r
          · subst hi
            simp only [if_true, Option.some.injEq] at hq
            subst hq
            exact ⟨p, a, Act.Part.trans (.later _ .self) hp⟩
          · simp only [hi, if_false] at hq
            exact hr i q hq) fs hfs (by simp only [hm, h1]) hs
      simpa [withoutOthers, othersIn, Shared.run, Shared.step, hrun, hm, h2] using this

/-- C103. Other parts of the application may use the memory at any time.  If the receivers do not see what they do (e.g.
it is another part of the memory), it is as if that was done afterwards, in the same order: what the receivers have done
is what they would have done without. -/
theorem C103_others (program : Nat → Packet → Address → Act σ) (l : Listener) (queued : List Datagram) (ls : List Label)
    (s : NetState) (h : l.run (l.init queued) ls = some s) (hi : idle s.phase = true) (m0 : σ) (w : List (SEv σ))
    (hw : eventsIn w = s.trace) (hu : ∀ f ∈ othersIn w, ∀ r p a, Unseen f (program r p a)) (s' : Shared σ)
    (hs : (Shared.fresh m0).run program w = some s') :
    ∃ handled m, queued ++ arrivals ls = handled ++ s.queue ∧
      InTurn (handled.map fun d => programsFor program l.receivers.length (received l.buffersize d)) [] m0 m ∧
      s'.memory = (othersIn w).foldl (fun m f => f m) m := by
  obtain ⟨m, hm, hs'⟩ := others_run w hu (Shared.fresh m0) m0 (by intro r q hq; simp [Shared.fresh] at hq) []
    (by simp) rfl s' hs
  obtain ⟨handled, hf, ht, _⟩ := C103 program l queued ls s h hi m0 (withoutOthers w)
    (by rw [eventsIn_withoutOthers, hw]) ⟨m, s'.running⟩ hm
  rw [othersIn_withoutOthers] at ht
  exact ⟨handled, m, hf, ht, by simpa using hs'⟩

/-! ## Every outcome is possible -/

theorem starts_run (l : Listener) (todo running : List Nat) (s : NetState) (k : Nat) (p : Packet) (a : Address)
    (hs : s.phase = .dispatch k p a todo running false) :
    l.run s (todo.map .start) =
      some { s with phase := .dispatch k p a [] (todo.reverse ++ running) false
                    trace := s.trace ++ todo.map (.call · p a) } := by
  induction todo generalizing s running with
  | nil => simp [Listener.run, ← hs]
  | cons r todo ih =>
    simp only [List.map_cons, Listener.run, Listener.step, hs, List.mem_cons, true_or, if_true, List.erase_cons_head]
    rw [ih (r :: running) _ rfl]
    simp

theorem finishes_run (l : Listener) (running : List Nat) (s : NetState) (k : Nat) (p : Packet) (a : Address)
    (hs : s.phase = .dispatch k p a [] running false) :
    l.run s (running.map .finish) =
      some { s with phase := .dispatch k p a [] [] false, trace := s.trace ++ running.map .ret } := by
  induction running generalizing s with
  | nil => simp [Listener.run, ← hs]
  | cons r running ih =>
    simp only [List.map_cons, Listener.run, Listener.step, hs, List.mem_cons, true_or, if_true, List.erase_cons_head]
    rw [ih _ rfl]
    simp

/-- The labels that serve one datagram. -/
def serveOne (n : Nat) (d : Datagram) : List Label :=
  [.arrive d, .pollEvent, .recv] ++ (List.range n).map .start ++ (List.range n).reverse.map .finish ++ [.join]

/-- What is then seen. -/
def servedOne (n : Nat) (x : Packet × Address) : List Ev :=
  .taken x.1 x.2 :: (List.range n).map (.call · x.1 x.2) ++ (List.range n).reverse.map .ret

theorem serveOne_run (l : Listener) (s : NetState) (hp : s.phase = .polling) (hq : s.queue = [])
    (hb : s.buffer.length = l.buffersize) (d : Datagram) :
    ∃ s', l.run s (serveOne l.receivers.length d) = some s' ∧ s'.phase = .polling ∧ s'.queue = [] ∧
      s'.buffer.length = l.buffersize ∧
      s'.trace = s.trace ++ servedOne l.receivers.length (received l.buffersize d) := by
  have h1 : l.run s [.arrive d, .pollEvent, .recv] = some
      { s with
        queue := [], ready := false, buffer := (recvInto s.buffer d.bytes).2,
        phase := .dispatch 0 (received l.buffersize d).1 (received l.buffersize d).2
          (List.range l.receivers.length) [] false
        trace := s.trace ++ [.taken (received l.buffersize d).1 (received l.buffersize d).2] } := by
    simp [Listener.run, Listener.step, hp, hq, received, cut_eq, hb]
  refine ⟨{ s with
        queue := [], ready := false, buffer := (recvInto s.buffer d.bytes).2, phase := .polling
        trace := s.trace ++ servedOne l.receivers.length (received l.buffersize d) }, ?_, rfl, rfl, ?_, rfl⟩
  · simp only [serveOne, run_append, h1, Option.bind_some]
    rw [starts_run l _ _ _ _ _ _ rfl]
    simp only [Option.bind_some, List.append_nil]
    rw [finishes_run l _ _ _ _ _ rfl]
    simp [Listener.run, Listener.step, afterEvent, servedOne]
  · rw [← hb]
    exact recvInto_length _ _

theorem calls_run (program : Nat → Packet → Address → Act σ) (todo : List Nat) (hn : todo.Nodup) (s : Shared σ)
    (p : Packet) (a : Address) (hs : ∀ r ∈ todo, s.running r = none) :
    s.run program (todo.map fun r => .ev (.call r p a)) =
      some { s with running := fun r => if r ∈ todo then some (program r p a) else s.running r } := by
  induction todo generalizing s with
  | nil => simp [Shared.run]
  | cons r todo ih =>
    obtain ⟨h1, h2⟩ := List.nodup_cons.mp hn
    simp only [List.map_cons, Shared.run, Shared.step, hs r (by simp)]
    rw [ih h2]
    · simp only [Option.some.injEq, Shared.mk.injEq, true_and]
      funext i
      by_cases hi : i = r
      · subst hi; simp
      · simp [hi]
    · intro i hi
      have : i ≠ r := by rintro rfl; exact h1 hi
      simp [this, hs i (by simp [hi])]

theorem rets_run (program : Nat → Packet → Address → Act σ) (todo : List Nat) (hn : todo.Nodup) (s : Shared σ)
    (hs : ∀ r ∈ todo, s.running r = some .done) :
    s.run program (todo.map fun r => .ev (.ret r)) =
      some { s with running := fun r => if r ∈ todo then none else s.running r } := by
  induction todo generalizing s with
  | nil => simp [Shared.run]
  | cons r todo ih =>
    obtain ⟨h1, h2⟩ := List.nodup_cons.mp hn
    simp only [List.map_cons, Shared.run, Shared.step, hs r (by simp)]
    rw [ih h2]
    · simp only [Option.some.injEq, Shared.mk.injEq, true_and]
      funext i
      by_cases hi : i = r
      · subst hi; simp
      · simp [hi]
    · intro i hi
      have : i ≠ r := by rintro rfl; exact h1 hi
      simp [this, hs i (by simp [hi])]

theorem Mixed.touches {ps : List (Act σ)} {fs : List (σ → σ)} {m m' : σ} (h : Mixed ps fs m m')
    (program : Nat → Packet → Address → Act σ) (running : Nat → Option (Act σ))
    (hr : ∀ r, r < ps.length → running r = ps[r]?) :
    ∃ w : List (SEv σ), ∃ running', eventsIn w = [] ∧ othersIn w = fs ∧
      (Shared.mk m running).run program w = some ⟨m', running'⟩ ∧
      (∀ r, r < ps.length → running' r = some .done) ∧ ∀ r, ps.length ≤ r → running' r = running r := by
  induction h generalizing running with
  | @done ps m hd =>
    refine ⟨[], running, rfl, rfl, rfl, ?_, fun _ _ => rfl⟩
    intro r hlt
    rw [hr r hlt, List.getElem?_eq_getElem hlt, hd _ (List.getElem_mem hlt)]
  | @other ps fs m m' f _ ih =>
    obtain ⟨w, running', h1, h2, h3, h4, h5⟩ := ih running hr
    exact ⟨.other f :: w, running', h1, by simp [othersIn, h2], h3, h4, h5⟩
  | @step ps fs m m' i next change hp _ ih =>
    have hlt : i < ps.length := (List.getElem?_eq_some_iff.mp hp).1
    obtain ⟨w, running', e1, e2, h1, h2, h3⟩ := ih (fun j => if j = i then some (next m) else running j) (by
      intro r hlt'
      simp only [List.length_set] at hlt'
      by_cases hi : r = i
      · subst hi
        rw [List.getElem?_set_self hlt]
        simp
      · rw [List.getElem?_set_ne (Ne.symm hi)]
        simp [hi, hr r hlt'])
    refine ⟨.touch i :: w, running', e1, e2, ?_, ?_, ?_⟩
    · simp only [Shared.run, Shared.step, hr i hlt, hp]
      exact h1
    · intro r hlt'
      exact h2 r (by simpa using hlt')
    · intro r hle
      rw [h3 r (by simpa using hle)]
      have : r ≠ i := by omega
      simp [this]

theorem others_only (program : Nat → Packet → Address → Act σ) (fs : List (σ → σ)) (m : σ) :
    eventsIn (fs.map SEv.other) = [] ∧ othersIn (fs.map SEv.other) = fs ∧
      (Shared.fresh m).run program (fs.map .other) = some (Shared.fresh (fs.foldl (fun m f => f m) m)) := by
  induction fs generalizing m with
  | nil => exact ⟨rfl, rfl, rfl⟩
  | cons f fs ih =>
    obtain ⟨h1, h2, h3⟩ := ih (f m)
    exact ⟨h1, by simp [othersIn, h2], h3⟩

theorem eventsIn_map {α : Type} (f : α → Ev) (xs : List α) :
    eventsIn (xs.map fun x => SEv.ev (σ := σ) (f x)) = xs.map f := by
  induction xs with
  | nil => rfl
  | cons r rs ih => simpa [eventsIn] using ih

theorem othersIn_map {α : Type} (f : α → Ev) (xs : List α) :
    othersIn (xs.map fun x => SEv.ev (σ := σ) (f x)) = [] := by
  induction xs with
  | nil => rfl
  | cons r rs ih => simpa [othersIn] using ih

theorem arrivals_serveOne (n : Nat) (d : Datagram) : arrivals (serveOne n d) = [d] := by
  have h1 : ∀ rs : List Nat, arrivals (rs.map .start) = [] := by
    intro rs
    induction rs with
    | nil => rfl
    | cons r rs ih => simpa [arrivals] using ih
  have h2 : ∀ rs : List Nat, arrivals (rs.map .finish) = [] := by
    intro rs
    induction rs with
    | nil => rfl
    | cons r rs ih => simpa [arrivals] using ih
  simp only [serveOne, arrivals_append, h1, h2]
  rfl

theorem every_outcome (program : Nat → Packet → Address → Act σ) (l : Listener) (ds : List Datagram)
    (fs : List (σ → σ)) (m m' : σ)
    (h : InTurn (ds.map fun d => programsFor program l.receivers.length (received l.buffersize d)) fs m m')
    (s : NetState) (hp : s.phase = .polling) (hq : s.queue = []) (hb : s.buffer.length = l.buffersize) :
    ∃ ls s', l.run s ls = some s' ∧ s'.phase = .polling ∧ s'.queue = [] ∧ arrivals ls = ds ∧
      ∃ w, eventsIn w = s'.trace.drop s.trace.length ∧ s.trace <+: s'.trace ∧ othersIn w = fs ∧
        (Shared.fresh m).run program w = some (Shared.fresh m') := by
  induction ds generalizing m s fs with
  | nil =>
    simp only [List.map_nil] at h
    cases h
    obtain ⟨h1, h2, h3⟩ := others_only program fs m
    exact ⟨[], s, rfl, hp, hq, rfl, fs.map .other, by simp [h1], List.prefix_refl _, h2, h3⟩
  | cons d ds ih =>
    simp only [List.map_cons] at h
    cases h with
    | cons hm ht =>
      rename_i fs1 fs2 m1
      obtain ⟨s1, hs1, hp1, hq1, hb1, ht1⟩ := serveOne_run l s hp hq hb d
      obtain ⟨ls, s', hs', hp', hq', ha, w, hw, hpre, ho, hrun⟩ := ih fs2 m1 ht s1 hp1 hq1 hb1
      refine ⟨serveOne l.receivers.length d ++ ls, s', ?_, hp', hq', ?_, ?_⟩
      · rw [run_append, hs1]
        exact hs'
      · rw [arrivals_append, arrivals_serveOne, ha]
        rfl
      · let x := received l.buffersize d
        let n := l.receivers.length
        obtain ⟨w1, running', w2, w3, r1, r2, r3⟩ := hm.touches program
          (fun r => if r ∈ List.range n then some (program r x.1 x.2) else none) (by
            intro r hlt
            have hlt : r < n := by simpa [programsFor] using hlt
            simp [programsFor, hlt, n, x])
        have hlen : (programsFor program l.receivers.length (received l.buffersize d)).length = n := by
          simp [programsFor, n]
        rw [hlen] at r2 r3
        refine ⟨[.ev (.taken x.1 x.2)] ++ (List.range n).map (fun r => .ev (.call r x.1 x.2)) ++ w1 ++
          (List.range n).reverse.map (fun r => .ev (.ret r)) ++ w, ?_, ?_, ?_, ?_⟩
        · obtain ⟨u, hu⟩ := hpre
          rw [← hu] at hw ⊢
          rw [List.drop_left] at hw
          rw [ht1, List.append_assoc s.trace, List.drop_left]
          simp only [eventsIn_append, w2, eventsIn_map, hw, List.append_nil]
          simp [eventsIn, servedOne, x, n]
        · obtain ⟨u, hu⟩ := hpre
          rw [← hu, ht1, List.append_assoc]
          exact List.prefix_append _ _
        · simp only [othersIn_append, w3, othersIn_map, ho, List.append_nil]
          rfl
        · simp only [Shared.run_append]
          have e1 : (Shared.fresh m).run program [.ev (.taken x.1 x.2)] = some (Shared.fresh m) := rfl
          rw [e1, Option.bind_some, calls_run program _ List.nodup_range _ _ _ (fun _ _ => rfl), Option.bind_some]
          have e2 : ({ Shared.fresh m with running := fun r => if r ∈ List.range n then some (program r x.1 x.2)
              else (Shared.fresh m).running r } : Shared σ) =
              ⟨m, fun r => if r ∈ List.range n then some (program r x.1 x.2) else none⟩ := rfl
          rw [e2, r1, Option.bind_some, rets_run program _ (by simpa [List.Nodup, List.pairwise_reverse, Ne, eq_comm] using List.nodup_range (n := n)) _ (by
            intro r hr
            exact r2 r (by simpa using hr)), Option.bind_some]
          have e3 : ({ memory := m1, running := fun r => if r ∈ (List.range n).reverse then none else running' r } :
              Shared σ) = Shared.fresh m1 := by
            simp only [Shared.fresh, Shared.mk.injEq, true_and]
            funext r
            by_cases hr : r < n
            · simp [hr]
            · have := r3 r (by omega)
              simp [hr, this]
          rw [e3]
          exact hrun

/-- C103. And nothing more can be said: every memory that comes about in this way does come about, for all datagrams, with
some schedule. -/
theorem C103_every (program : Nat → Packet → Address → Act σ) (l : Listener) (ds : List Datagram)
    (others : List (σ → σ)) (m0 m : σ)
    (h : InTurn (ds.map fun d => programsFor program l.receivers.length (received l.buffersize d)) others m0 m) :
    ∃ ls s, l.run (l.init []) ls = some s ∧ idle s.phase = true ∧ arrivals ls = ds ∧ s.queue = [] ∧
      ∃ w s', eventsIn w = s.trace ∧ othersIn w = others ∧ (Shared.fresh m0).run program w = some s' ∧
        s'.memory = m := by
  obtain ⟨ls, s, hs, hp, hq, ha, w, hw, _, ho, hr⟩ := every_outcome program l ds others m0 m h (l.init []) rfl rfl
    (by simp [Listener.init])
  exact ⟨ls, s, hs, by rw [hp]; rfl, ha, hq, w, _, by simpa [Listener.init] using hw, ho, hr, rfl⟩

/-! ## Every execution is possible -/

theorem finish_touches (program : Nat → Packet → Address → Act σ) (r : Nat) (x : Act σ) (s : Shared σ)
    (hx : s.running r = some x) (hp : ¬ Act.Part .panic x) :
    ∃ w s', eventsIn w = [] ∧ othersIn w = [] ∧ s.run program w = some s' ∧ s'.running r = some .done ∧
      ∀ i, i ≠ r → s'.running i = s.running i := by
  induction x generalizing s with
  | done => exact ⟨[], s, rfl, rfl, rfl, hx, fun _ _ => rfl⟩
  | panic => exact absurd .self hp
  | step next change ih =>
    obtain ⟨w, s', h1, h2, h3, h4, h5⟩ := ih s.memory
      ⟨change s.memory, fun i => if i = r then some (next s.memory) else s.running i⟩ (by simp)
      (fun h => hp (.later _ h))
    refine ⟨.touch r :: w, s', h1, h2, ?_, h4, ?_⟩
    · simp only [Shared.run, Shared.step, hx]
      exact h3
    · intro i hi
      rw [h5 i hi]
      simp [hi]

/-- C103. Memory stops nobody (a receiver always ends, as long as it does not wait for others): whatever the thread and the
pool do, there is a history of the memory that goes with it, if no receiver panics. -/
theorem C103_possible (program : Nat → Packet → Address → Act σ) (hn : ∀ r p a, ¬ Act.Part .panic (program r p a))
    (l : Listener) (queued : List Datagram) (ls : List Label)
    (s : NetState) (h : l.run (l.init queued) ls = some s) (m0 : σ) :
    ∃ w s', eventsIn w = s.trace ∧ othersIn w = [] ∧ (Shared.fresh m0).run program w = some s' := by
  have key : ∀ (n : Nat) (t : List Ev), t.length = n → TraceInv l t →
      ∃ w s', eventsIn w = t ∧ othersIn w = [] ∧ (Shared.fresh m0).run program w = some s' ∧
        ∀ r, s'.running r = none ∨ s'.running r = some .done := by
    intro n
    induction n with
    | zero =>
      intro t ht _
      have : t = [] := List.length_eq_zero_iff.mp ht
      subst this
      exact ⟨[], _, rfl, rfl, rfl, fun _ => .inl rfl⟩
    | succ n ih =>
      intro t ht hT
      rcases List.eq_nil_or_concat t with rfl | ⟨t', e, rfl⟩
      · simp at ht
      rw [List.concat_eq_append] at *
      obtain ⟨w, s1, h1, h2, h3, h4⟩ := ih t' (by simpa using ht) hT.init
      have hS : SInv program l.receivers.length m0 t' [] s1 := by
        have := SInv.run (l := l) (program := program) w s1 (by rw [h1]; exact hT.init) h3
        rwa [h1, h2] at this
      have he := hT t' e [] rfl
      have one : ∀ s2 w2, s1.step program (.ev e) = some s2 → ∀ s3, s2.run program w2 = some s3 → eventsIn w2 = [] →
          othersIn w2 = [] → (∀ r, s3.running r = none ∨ s3.running r = some .done) →
          ∃ w s', eventsIn w = t' ++ [e] ∧ othersIn w = [] ∧ (Shared.fresh m0).run program w = some s' ∧
            ∀ r, s'.running r = none ∨ s'.running r = some .done := by
        intro s2 w2 g1 s3 g2 g3 g4 g5
        refine ⟨w ++ .ev e :: w2, s3, ?_, ?_, ?_, g5⟩
        · rw [eventsIn_append, h1]
          simp [eventsIn, g3]
        · rw [othersIn_append, h2]
          simp [othersIn, g4]
        · rw [Shared.run_append, h3]
          simp only [Option.bind_some, Shared.run, g1]
          exact g2
      cases e with
      | taken p a => exact one s1 [] rfl s1 rfl rfl rfl h4
      | call r p a =>
        obtain ⟨hrn, prev, hp, hc⟩ := he
        obtain ⟨_, _, _, _, _, _, hnone, _⟩ := hS.round prev p a hp
        have hrun := hnone r hrn (by rw [hc])
        obtain ⟨w2, s3, g1, g2, g3, g4, g5⟩ := finish_touches program r (program r p a)
          { s1 with running := fun i => if i = r then some (program r p a) else s1.running i } (by simp) (hn r p a)
        refine one _ w2 (by simp [Shared.step, hrun]) s3 g3 g1 g2 ?_
        intro i
        by_cases hi : i = r
        · subst hi
          exact .inr g4
        · rw [g5 i hi]
          simp only [hi, if_false]
          exact h4 i
      | ret r =>
        simp only at he
        have hsome := (hS.running r).mpr he
        have hrun : s1.running r = some .done := by
          rcases h4 r with h | h
          · rw [h] at hsome
            simp at hsome
          · exact h
        refine one { s1 with running := fun i => if i = r then none else s1.running i } []
          (by simp [Shared.step, hrun]) _ rfl rfl rfl ?_
        intro i
        dsimp only
        split
        · exact .inl rfl
        · exact h4 i
  obtain ⟨w, s', h1, h2, h3, -⟩ := key _ s.trace rfl (inv_run l queued ls s h).trace
  exact ⟨w, s', h1, h2, h3⟩

/-! ## Communities -/

theorem andThen_done (p : Act σ) (m : σ) : (p.andThen .done).alone m = p.alone m := by
  induction p generalizing m with
  | done => rfl
  | panic => rfl
  | step next change ih => exact ih m (change m)

/-- C103. A receiver that hands messages to the registry (`community/mod.rs:147-164`), whose communities may share any
memory (with `handler` for what their `on_receive` do): the memory is changed by one message after the other in the order
of arrival, each time by the community that was added last for the mid in the message's header, if there is one and the
message's type is not reserved, and else not at all.  The community sees what the messages before have left, of this
community and others, and nothing half done. -/
theorem C103_communities (cs : List Community) (handler : Nat → Header → PacketDeserializer → Address → Act σ)
    (l : Listener) (hl : l.receivers.length = 1) (queued : List Datagram) (ls : List Label)
    (s : NetState) (h : l.run (l.init queued) ls = some s) (hi : idle s.phase = true) (m0 : σ) (w : List (SEv σ))
    (hw : eventsIn w = s.trace) (ho : othersIn w = []) (s' : Shared σ)
    (hs : (Shared.fresh m0).run (fun _ => registryProgram (registered cs) handler) w = some s') :
    ∃ handled, queued ++ arrivals ls = handled ++ s.queue ∧
      ∃ effect : Datagram → σ → σ, s'.memory = handled.foldl (fun m d => effect d m) m0 ∧
        ∀ d, let p : Packet := ⟨d.bytes.take l.buffersize⟩
          (∀ mid t c, HasHeader p mid t → lastWith mid cs = some c → reserved t = false →
            effect d = (handler c.id (Header.ofMid mid t) ⟨p, 0⟩ ⟨d.source⟩).alone) ∧
          ((∀ mid t c, HasHeader p mid t → lastWith mid cs = some c → reserved t = true) → ∀ m, effect d m = m) := by
  obtain ⟨handled, hf, hm⟩ := C103_one _ l hl queued ls s h hi m0 w hw ho s' hs
  refine ⟨handled, hf, fun d => (registryProgram (registered cs) handler (received l.buffersize d).1
    (received l.buffersize d).2).alone, hm, ?_⟩
  intro d p
  have hp : (received l.buffersize d).1 = p := rfl
  simp only [hp, registryProgram]
  constructor
  · intro mid t c hh hc ht
    rw [forward_eq cs p _ mid t hh, hc]
    simp only [ht]
    funext m
    simp [allInTurn, andThen_done, Packet.startDeserialize, received, Act.alone]
  · intro hno m
    have : ((registered cs).forwardMessage p (received l.buffersize d).2).2 = [] := by
      rcases hasHeader_or p with ⟨mid, t, hh⟩ | ⟨e, he⟩
      · rw [forward_eq cs p _ mid t hh]
        cases hc : lastWith mid cs with
        | none => rfl
        | some c => simp [hno mid t c hh hc]
      · refine ((C42 cs p (received l.buffersize d).2).1 ?_).2
        intro mid t hh
        have := peek_of_hasHeader hh
        simp [he] at this
    rw [this]
    rfl

/-! ## In whole systems -/

/-- C103. In systems of any number of processes, each with any number of instances on a pool of threads: the same for
every instance.  When each receiver has been called with everything read so far and has returned, the memory is that of
the datagrams dealt with in turn; what is done elsewhere (also by other instances in the same process, which may work at
the same time) is among the changes by others. -/
theorem C103_fleet (program : Nat → Packet → Address → Act σ) (net : Nat → Net) (ls : List FLabel) (f : Fleet)
    (h : Fleet.init.run net ls = some f) (k : Nat) (m : Machine) (hk : f.machines[k]? = some m) (s b : Nat)
    (hb : .start b ∈ history s (processLog k f.log))
    (hcalled : ∀ r, r < (registeredIn (history s (processLog k f.log))).length →
      callsOf r (threadIn (history s (processLog k f.log))) = takenIn (threadIn (history s (processLog k f.log))))
    (hreturned : ∀ r, (callsOf r (threadIn (history s (processLog k f.log)))).length =
      returnsOf r (threadIn (history s (processLog k f.log))))
    (m0 : σ) (w : List (SEv σ)) (hw : eventsIn w = threadIn (history s (processLog k f.log))) (s' : Shared σ)
    (hs : (Shared.fresh m0).run program w = some s') :
    ∃ handled, handled <+: arrivedIn (history s (processLog k f.log)) ∧
      InTurn (handled.map fun d => programsFor program (registeredIn (history s (processLog k f.log))).length
        (received b d)) (othersIn w) m0 s'.memory := by
  obtain ⟨hlog, lk, n, hrun, hn⟩ := C96_process net ls f h k m hk
  rw [hlog, ← hn] at hb hcalled hreturned hw ⊢
  rcases C66_life (net k) lk n hrun s with h0 | ⟨a, lf, c, hl, hlife, hc⟩
  · rw [h0] at hb
    simp at hb
  have hcl : threadIn c = [] ∧ arrivedIn c = [] ∧ registeredIn c = [] ∧ ∀ b, NEv.start b ∉ c := by
    rcases hc with rfl | rfl <;> simp [threadIn, arrivedIn, registeredIn]
  rw [hl, threadIn_append, registeredIn_append, hcl.1, hcl.2.2.1, List.append_nil, List.append_nil] at hcalled
  rw [hl, threadIn_append, hcl.1, List.append_nil] at hreturned hw
  rw [hl, registeredIn_append, arrivedIn_append, hcl.2.1, hcl.2.2.1, List.append_nil, List.append_nil]
  have hb : NEv.start b ∈ lf := by
    rw [hl] at hb
    rcases List.mem_append.mp hb with hb | hb
    · exact hb
    · exact absurd hb (hcl.2.2.2 b)
  rcases hlife with hsend | hr | ⟨t, b', xs, st, hr, hrun', rfl⟩
  · exact absurd hb ((senderLife_only hsend).2.1 _)
  · exact absurd hb ((receiverLife_only hr).2.1 _)
  have ho := receiverLife_only hr
  obtain ⟨o1, o2, o3, o4, -⟩ := observed_facts _ _ _ _ hrun'
  have hbb : b = b' := by
    simp only [List.mem_append, List.mem_cons] at hb
    rcases hb with hb | hb | hb
    · exact absurd (by simpa using hb) (ho.2.1 b)
    · simpa using hb
    · exact absurd hb (o4 b)
  subst hbb
  have hth : threadIn (NEv.bind .receiver a :: t ++ .start b :: observed ⟨registeredIn t, b⟩
      (Listener.init ⟨registeredIn t, b⟩ (arrivedIn t)) xs) = st.trace := by
    rw [threadIn_append, ho.1, o1]
    simp [threadIn, Listener.init]
  have hreg : registeredIn (NEv.bind .receiver a :: t ++ .start b :: observed ⟨registeredIn t, b⟩
      (Listener.init ⟨registeredIn t, b⟩ (arrivedIn t)) xs) = registeredIn t := by
    rw [registeredIn_append]
    simp [registeredIn, o3]
  have harr : arrivedIn (NEv.bind .receiver a :: t ++ .start b :: observed ⟨registeredIn t, b⟩
      (Listener.init ⟨registeredIn t, b⟩ (arrivedIn t)) xs) = arrivedIn t ++ arrivals xs := by
    rw [arrivedIn_append]
    simp [arrivedIn, o2]
  rw [hth] at hreturned hw
  rw [hth, hreg] at hcalled
  rw [hreg, harr]
  have hinv := inv_run _ _ xs st hrun'
  obtain ⟨handled, hf, htaken⟩ := hinv.fifo
  have hS : SInv program (registeredIn t).length m0 st.trace (othersIn w) s' := by
    rw [← hw]
    exact .run (l := ⟨registeredIn t, b⟩) w s' (by rw [hw]; exact hinv.trace) hs
  have := hS.quiet hcalled hreturned
  rw [htaken, List.map_map] at this
  exact ⟨handled, by rw [hf]; exact List.prefix_append _ _, this⟩

/-! ## Receivers that do disturb each other -/

/-- A receiver that counts, but reads the counter and writes it in two sections. -/
def careless : Act Nat := .step (fun seen => .step (fun _ => .done) (fun _ => seen + 1)) id

/-- A receiver that counts in one section. -/
def careful : Act Nat := .step (fun _ => .done) (· + 1)

/-- C103. Receivers of one instance are really called at the same time: two that count in two sections can, for the same
datagram, lose a count or not, as the schedule will have it. -/
theorem C103_race (l : Listener) (hl : l.receivers.length = 2) (d : Datagram) (count : Nat) (hc : count = 1 ∨ count = 2) :
    ∃ ls s, l.run (l.init []) ls = some s ∧ idle s.phase = true ∧ arrivals ls = [d] ∧ s.queue = [] ∧
      ∃ w s', eventsIn w = s.trace ∧ othersIn w = [] ∧
        (Shared.fresh 0).run (fun _ _ _ => careless) w = some s' ∧ s'.memory = count := by
  apply C103_every (fun _ _ _ => careless) l [d] [] 0 count
  simp only [List.map_cons, List.map_nil, programsFor, hl]
  refine .cons (others := []) (m1 := count) ?_ .nil
  rcases hc with rfl | rfl
  · refine .step 0 _ _ rfl (.step 1 _ _ rfl (.step 0 _ _ rfl (.step 1 _ _ rfl (.done ?_))))
    simp [List.range_succ]
  · refine .step 0 _ _ rfl (.step 0 _ _ rfl (.step 1 _ _ rfl (.step 1 _ _ rfl (.done ?_))))
    simp [List.range_succ]

/-- Careful ones do not disturb each other. -/
theorem careful_independent : Independent careful careful := by
  have hpart : ∀ next change, Act.Part (.step next change) careful →
      change = (fun x : Nat => x + 1) ∧ next = fun _ => .done := by
    intro next change h
    cases h with
    | self => exact ⟨rfl, rfl⟩
    | later m h => cases h
  intro next change next' change' h h' m
  obtain ⟨rfl, rfl⟩ := hpart _ _ h
  obtain ⟨rfl, rfl⟩ := hpart _ _ h'
  exact ⟨rfl, rfl, rfl⟩

/-- Example: any number of them, whatever the schedule: the counter is the number of receivers times the number of
datagrams. -/
example (l : Listener) (queued : List Datagram) (ls : List Label)
    (s : NetState) (h : l.run (l.init queued) ls = some s) (hi : idle s.phase = true) (w : List (SEv Nat))
    (hw : eventsIn w = s.trace) (ho : othersIn w = []) (s' : Shared Nat)
    (hs : (Shared.fresh 0).run (fun _ _ _ => careful) w = some s') :
    s'.memory = l.receivers.length * (queued.length + (arrivals ls).length - s.queue.length) := by
  obtain ⟨handled, hf, hm⟩ := C103_independent (fun _ _ _ => careful) l (fun _ _ _ _ _ _ _ => careful_independent)
    queued ls s h hi 0 w hw ho s' hs
  have hlen : handled.length = queued.length + (arrivals ls).length - s.queue.length := by
    have := congrArg List.length hf
    simp only [List.length_append] at this
    omega
  have hin : ∀ (n m : Nat), (List.range n).foldl (fun m _ => careful.alone m) m = m + n := by
    intro n m
    induction n with
    | zero => rfl
    | succ n ih =>
      rw [List.range_succ, List.foldl_append, ih]
      rfl
  have hout : ∀ (ds : List Datagram) (m : Nat), ds.foldl (fun m _ => m + l.receivers.length) m =
      m + l.receivers.length * ds.length := by
    intro ds
    induction ds with
    | nil => intro m; rfl
    | cons d ds ih => intro m; rw [List.foldl_cons, ih, List.length_cons, Nat.mul_add]; omega
  rw [hm, ← hlen]
  simp only [hin, hout]
  omega

/-! ## Concrete cases -/

/-- The situation of `C103_fleet`: the second process of `exampleFleet`, where the receivers run at the same time, with
two careless receivers that lose a count and a third party that adds 10. -/
example : ∃ f m, Fleet.init.run (fun _ => plainNet) (exampleFleet 16 ⟨[7, 8]⟩) = some f ∧ f.machines[1]? = some m ∧
    .start 16 ∈ history 0 (processLog 1 f.log) ∧
    takenIn (threadIn (history 0 (processLog 1 f.log))) = [(⟨[7, 8]⟩, ⟨.v4 7 7 7 7 7⟩)] ∧
    (∀ r, r < (registeredIn (history 0 (processLog 1 f.log))).length →
      callsOf r (threadIn (history 0 (processLog 1 f.log))) = takenIn (threadIn (history 0 (processLog 1 f.log)))) ∧
    (∀ r, (callsOf r (threadIn (history 0 (processLog 1 f.log)))).length =
      returnsOf r (threadIn (history 0 (processLog 1 f.log)))) ∧
    ∃ w s', eventsIn w = threadIn (history 0 (processLog 1 f.log)) ∧ othersIn w = [(· + 10)] ∧
      (Shared.fresh 0).run (fun _ _ _ => careless) w = some s' ∧ s'.memory = 11 := by
  refine ⟨_, _, rfl, rfl, ?_, rfl, ?_, ?_, ?_⟩
  · exact List.mem_of_getElem? (i := 3) rfl
  · intro r hr
    change r < 2 at hr
    rcases r with _ | _ | r
    · rfl
    · rfl
    · omega
  · intro r
    rcases r with _ | _ | r
    · rfl
    · rfl
    · show (callsOf (r + 2) [.taken _ _, .call 1 _ _, .call 0 _ _, .ret 0, .ret 1]).length =
        returnsOf (r + 2) [.taken _ _, .call 1 _ _, .call 0 _ _, .ret 0, .ret 1]
      simp [callsOf, returnsOf]
  · exact ⟨[.ev (.taken ⟨[7, 8]⟩ ⟨.v4 7 7 7 7 7⟩), .ev (.call 1 ⟨[7, 8]⟩ ⟨.v4 7 7 7 7 7⟩), .touch 1,
      .ev (.call 0 ⟨[7, 8]⟩ ⟨.v4 7 7 7 7 7⟩), .touch 0, .touch 0, .ev (.ret 0), .touch 1, .other (· + 10), .ev (.ret 1)], _,
      rfl, rfl, rfl, rfl⟩

/-- Two communities that share a list, into which each writes its name and the message's type. -/
def twoCommunities : List Community :=
  [⟨1, List.replicate 20 1, fun _ _ _ => .ok ()⟩, ⟨2, List.replicate 20 2, fun _ _ _ => .ok ()⟩]

/-- The messages: one for each, a reserved one, one for nobody, and one more. -/
def someMessages : List Datagram :=
  [⟨[0, 2] ++ List.replicate 20 2 ++ [7], .v4 1 1 1 1 1⟩, ⟨[0, 2] ++ List.replicate 20 1 ++ [8, 9], .v4 1 1 1 1 1⟩,
   ⟨[0, 2] ++ List.replicate 20 2 ++ [255], .v4 1 1 1 1 1⟩, ⟨[0, 2] ++ List.replicate 20 3 ++ [7], .v4 1 1 1 1 1⟩,
   ⟨[0, 2] ++ List.replicate 20 2 ++ [1], .v4 1 1 1 1 1⟩]

/-- The situation of `C103_communities`. -/
example : ∃ ls s, Listener.run ⟨[⟨fun _ _ => false, fun _ _ => []⟩], 2048⟩
      (Listener.init ⟨[⟨fun _ _ => false, fun _ _ => []⟩], 2048⟩ []) ls = some s ∧
    idle s.phase = true ∧ arrivals ls = someMessages ∧
    ∃ w s', eventsIn w = s.trace ∧ othersIn w = [] ∧
      (Shared.fresh []).run (fun _ => registryProgram (registered twoCommunities)
        fun id h _ _ => .step (fun _ => .done) (· ++ [(id, h.messageType)])) w = some s' ∧
      s'.memory = [(2, some 7), (1, some 8), (2, some 1)] := by
  have : InTurn (someMessages.map fun d => programsFor (fun _ => registryProgram (registered twoCommunities)
        fun id h _ _ => .step (fun _ => .done) (· ++ [(id, h.messageType)])) 1 (received 2048 d)) []
      [] [(2, some 7), (1, some 8), (2, some 1)] := by
    have only : ∀ (ps : List (Act (List (Nat × Option UInt64)))), ps = [.done] → ∀ p ∈ ps, p = .done := by
      rintro ps rfl; simp
    exact .cons (others := []) (others' := []) (.step 0 _ _ rfl (.done (only _ rfl)))
      (.cons (others := []) (others' := []) (.step 0 _ _ rfl (.done (only _ rfl)))
      (.cons (others := []) (others' := []) (.done (only _ rfl))
      (.cons (others := []) (others' := []) (.done (only _ rfl))
      (.cons (others := []) (others' := []) (.step 0 _ _ rfl (.done (only _ rfl))) .nil))))
  obtain ⟨ls, s, h1, h2, h3, -, w, s', h4, h5, h6, h7⟩ := C103_every _ ⟨[⟨fun _ _ => false, fun _ _ => []⟩], 2048⟩ _ _ _ _ this
  exact ⟨ls, s, h1, h2, h3, w, s', h4, h5, h6, h7⟩

/-! ## Cases for the theorems above -/

/-- `C103_possible` and `C103_others`: the receivers of `exampleListener` count carefully, and somebody else adds 10. -/
example (s : NetState) (h : exampleListener.run (exampleListener.init []) exampleRun = some s) (w : List (SEv Nat))
    (hw : eventsIn w = s.trace) (ho : othersIn w = [(· + 10)]) (s' : Shared Nat)
    (hs : (Shared.fresh 0).run (fun _ _ _ => careful) w = some s') :
    (∃ w s', eventsIn w = s.trace ∧ othersIn w = [] ∧ (Shared.fresh 0).run (fun _ _ _ => careful) w = some s') ∧
    ∃ handled m, [exampleDatagram] = handled ++ s.queue ∧
      InTurn (handled.map fun d => programsFor (fun _ _ _ => careful) 2 (received 4 d)) [] 0 m ∧ s'.memory = m + 10 := by
  have hpart : ∀ q, Act.Part q careful → q = careful ∨ q = .done := by
    intro q hq
    cases hq with
    | self => exact .inl rfl
    | later m h => cases h; exact .inr rfl
  have hi : idle s.phase = true := by
    cases h
    rfl
  refine ⟨C103_possible (fun _ _ _ => careful) (fun _ _ _ hp => ?_) exampleListener [] exampleRun s h 0, ?_⟩
  · rcases hpart _ hp with h | h <;> cases h
  · obtain ⟨handled, m, h1, h2, h3⟩ := C103_others (fun _ _ _ => careful) exampleListener [] exampleRun s h hi 0 w hw (by
      intro f hf r p a next change hp m
      rw [ho, List.mem_singleton] at hf
      subst hf
      rcases hpart _ hp with h | h
      · cases h
        exact ⟨Nat.add_right_comm _ _ _, rfl⟩
      · cases h) s' hs
    rw [ho] at h3
    exact ⟨handled, m, h1, h2, h3⟩

/-- `C103`: the careless receivers of `exampleListener`, whoever else writes to the memory. -/
example (s : NetState) (h : exampleListener.run (exampleListener.init []) exampleRun = some s) (hi : idle s.phase = true)
    (w : List (SEv Nat)) (hw : eventsIn w = s.trace) (s' : Shared Nat)
    (hs : (Shared.fresh 0).run (fun _ _ _ => careless) w = some s') :
    ∃ handled, [exampleDatagram] = handled ++ s.queue ∧
      InTurn (handled.map fun d => programsFor (fun _ _ _ => careless) 2 (received 4 d)) (othersIn w) 0 s'.memory := by
  obtain ⟨handled, h1, h2, -⟩ := C103 (fun _ _ _ => careless) exampleListener [] exampleRun s h hi 0 w hw s' hs
  exact ⟨handled, h1, h2⟩

/-- `C103_one`: one careless receiver loses nothing. -/
example (queued : List Datagram) (ls : List Label) (s : NetState)
    (h : oneReceiver.run (oneReceiver.init queued) ls = some s) (hi : idle s.phase = true)
    (w : List (SEv Nat)) (hw : eventsIn w = s.trace) (ho : othersIn w = []) (s' : Shared Nat)
    (hs : (Shared.fresh 0).run (fun _ _ _ => careless) w = some s') :
    s'.memory + s.queue.length = queued.length + (arrivals ls).length := by
  obtain ⟨handled, h1, h2⟩ := C103_one (fun _ _ _ => careless) oneReceiver rfl queued ls s h hi 0 w hw ho s' hs
  have h3 : ∀ (xs : List Datagram) (m : Nat), xs.foldl (fun m _ => careless.alone m) m = m + xs.length := by
    intro xs
    induction xs with
    | nil => simp
    | cons x xs ih =>
      intro m
      rw [List.foldl_cons, ih, show careless.alone m = m + 1 from rfl, List.length_cons]
      omega
  have h4 := congrArg List.length h1
  rw [h3] at h2
  simp only [List.length_append] at h4
  omega

/-- `C103_race`: two careless receivers of one datagram may count one. -/
example (d : Datagram) : ∃ ls s, exampleListener.run (exampleListener.init []) ls = some s ∧ arrivals ls = [d] ∧
    ∃ w s', eventsIn w = s.trace ∧ (Shared.fresh 0).run (fun _ _ _ => careless) w = some s' ∧ s'.memory = 1 := by
  obtain ⟨ls, s, h1, -, h2, -, w, s', h3, -, h4, h5⟩ := C103_race exampleListener rfl d 1 (.inl rfl)
  exact ⟨ls, s, h1, h2, w, s', h3, h4, h5⟩

end Ipv8
