import Verif.SpecNetwork
/-!
# Invariants of the listening thread
-/

namespace Ipv8
open Spec

@[simp] theorem takenIn_append (t u : List Ev) : takenIn (t ++ u) = takenIn t ++ takenIn u := by
  induction t with
  | nil => rfl
  | cons e t ih => cases e <;> simp [takenIn, ih]

@[simp] theorem callsOf_append (r : Nat) (t u : List Ev) :
    callsOf r (t ++ u) = callsOf r t ++ callsOf r u := by
  induction t with
  | nil => rfl
  | cons e t ih => cases e <;> simp [callsOf, ih] <;> split <;> simp

@[simp] theorem returnsOf_append (r : Nat) (t u : List Ev) :
    returnsOf r (t ++ u) = returnsOf r t + returnsOf r u := by
  induction t with
  | nil => simp [returnsOf]
  | cons e t ih => cases e <;> simp [returnsOf, ih] <;> omega

theorem arrivals_append (t u : List Label) : arrivals (t ++ u) = arrivals t ++ arrivals u := by
  induction t with
  | nil => rfl
  | cons e t ih => cases e <;> simp [arrivals, ih]

theorem run_append (l : Listener) (s : NetState) (a b : List Label) :
    l.run s (a ++ b) = (l.run s a).bind (fun s' => l.run s' b) := by
  induction a generalizing s with
  | nil => rfl
  | cons x a ih =>
    simp only [List.cons_append, Listener.run]
    cases l.step s x with
    | none => rfl
    | some s' => exact ih s'

theorem run_snoc (l : Listener) (s s' : NetState) (a : List Label) (x : Label) :
    l.run s (a ++ [x]) = some s' ↔ ∃ m, l.run s a = some m ∧ l.step m x = some s' := by
  rw [run_append]
  cases l.run s a with
  | none => simp
  | some m =>
    simp only [Option.bind_some, Listener.run, Option.some.injEq, exists_eq_left']
    cases l.step m x <;> simp

/-- Induction over executions, from the end. -/
theorem run_induction (l : Listener) (s0 : NetState) (P : List Label → NetState → Prop)
    (h0 : P [] s0)
    (hs : ∀ ls s x s', l.run s0 ls = some s → P ls s → l.step s x = some s' → P (ls ++ [x]) s') :
    ∀ ls s, l.run s0 ls = some s → P ls s := by
  intro ls
  induction hn : ls.length generalizing ls with
  | zero =>
    intro s h
    have : ls = [] := List.length_eq_zero_iff.mp hn
    subst this
    simp only [Listener.run, Option.some.injEq] at h
    subst h
    exact h0
  | succ n ih =>
    intro s h
    have hne : ls ≠ [] := by rintro rfl; simp at hn
    have hsplit := (List.dropLast_concat_getLast hne).symm
    rw [hsplit, run_snoc] at h
    obtain ⟨m, hm, hx⟩ := h
    rw [hsplit]
    exact hs _ m _ s hm (ih ls.dropLast (by simp [hn]) m hm) hx

/-- Number of readiness events not yet turned into a read. -/
def credit (s : NetState) : Nat :=
  (if s.ready then 1 else 0) +
    match s.phase with
    | .handling k => k
    | .dispatch k .. => k
    | _ => 0

/-- Where the receivers stand. -/
def PhaseInv (l : Listener) (s : NetState) : Prop :=
  match s.phase with
  | .dispatch _ p a todo running panicked =>
    ∃ prev, takenIn s.trace = prev ++ [(p, a)] ∧ todo.Nodup ∧ running.Nodup ∧
      (∀ r ∈ todo, r < l.receivers.length ∧ r ∉ running) ∧
      (∀ r ∈ running, r < l.receivers.length) ∧
      (∀ r, r < l.receivers.length →
        callsOf r s.trace = if r ∈ todo then prev else prev ++ [(p, a)]) ∧
      (∀ r, (callsOf r s.trace).length = returnsOf r s.trace + if r ∈ running then 1 else 0) ∧
      (panicked = true → ∃ (r : Nat) (x : Receiver), l.receivers[r]? = some x ∧ x.mayPanic p a = true)
  | .stopped .receiverPanic =>
    ∃ prev p a, takenIn s.trace = prev ++ [(p, a)] ∧
      (∀ r, r < l.receivers.length →
        callsOf r s.trace = prev ∨ callsOf r s.trace = prev ++ [(p, a)]) ∧
      (∀ r, (callsOf r s.trace).length = returnsOf r s.trace) ∧
      ∃ (r : Nat) (x : Receiver), l.receivers[r]? = some x ∧ x.mayPanic p a = true
  | _ =>
    (∀ r, r < l.receivers.length → callsOf r s.trace = takenIn s.trace) ∧
    (∀ r, (callsOf r s.trace).length = returnsOf r s.trace)

/-- Every `taken` in the trace happens when all receivers are done with everything before; every call is
with what was taken last. -/
def TraceInv (l : Listener) (t : List Ev) : Prop :=
  ∀ t1 e t2, t = t1 ++ e :: t2 →
    match e with
    | .taken _ _ =>
      (∀ r, r < l.receivers.length → callsOf r t1 = takenIn t1) ∧
      (∀ r, (callsOf r t1).length = returnsOf r t1)
    | .call r p a => r < l.receivers.length ∧ ∃ prev, takenIn t1 = prev ++ [(p, a)] ∧ callsOf r t1 = prev
    | .ret r => (callsOf r t1).length = returnsOf r t1 + 1

/-- The invariant of the system. -/
structure Inv (l : Listener) (queued : List Datagram) (ls : List Label) (s : NetState) : Prop where
  fifo : ∃ handled, queued ++ arrivals ls = handled ++ s.queue ∧
    takenIn s.trace = handled.map (received l.buffersize)
  buffer : s.buffer.length = l.buffersize
  phase : PhaseInv l s
  outside : ∀ r, l.receivers.length ≤ r → callsOf r s.trace = []
  trace : TraceInv l s.trace

theorem TraceInv.snoc {l : Listener} {t : List Ev} (h : TraceInv l t) (e : Ev)
    (he : match e with
      | .taken _ _ =>
        (∀ r, r < l.receivers.length → callsOf r t = takenIn t) ∧
        (∀ r, (callsOf r t).length = returnsOf r t)
      | .call r p a => r < l.receivers.length ∧ ∃ prev, takenIn t = prev ++ [(p, a)] ∧ callsOf r t = prev
      | .ret r => (callsOf r t).length = returnsOf r t + 1) :
    TraceInv l (t ++ [e]) := by
  intro t1 e' t2 heq
  rcases List.eq_nil_or_concat t2 with rfl | ⟨t2', x, rfl⟩
  · obtain ⟨h1, h2⟩ := List.append_inj' heq rfl
    simp only [List.cons.injEq, and_true] at h2
    subst h1 h2
    exact he
  · have heq' : t ++ [e] = (t1 ++ e' :: t2') ++ [x] := by simpa using heq
    obtain ⟨h1, _⟩ := List.append_inj' heq' rfl
    exact h t1 e' t2' h1

theorem cut_eq (buffer d : Bytes) :
    (recvInto buffer d).2.take (recvInto buffer d).1 = d.take buffer.length := by
  simp only [recvInto]
  have hl : (d.take (min d.length buffer.length)).length = min d.length buffer.length := by
    simp
  rw [List.take_append_of_le_length (by omega), List.take_take, Nat.min_self]
  by_cases h : d.length ≤ buffer.length
  · rw [Nat.min_eq_left h, List.take_of_length_le (Nat.le_refl _), List.take_of_length_le h]
  · rw [Nat.min_eq_right (by omega)]

theorem recvInto_length (buffer d : Bytes) : (recvInto buffer d).2.length = buffer.length := by
  simp only [recvInto, List.length_append, List.length_take, List.length_drop]
  omega

theorem inv_init (l : Listener) (queued : List Datagram) : Inv l queued [] (l.init queued) where
  fifo := ⟨[], by simp [Listener.init, arrivals], rfl⟩
  buffer := by simp [Listener.init]
  phase := ⟨fun _ _ => rfl, fun _ => rfl⟩
  outside _ _ := rfl
  trace := by intro t1 e t2 h; simp [Listener.init] at h

theorem inv_step (l : Listener) (queued : List Datagram) (ls : List Label) (s s' : NetState) (x : Label)
    (h : Inv l queued ls s) (hx : l.step s x = some s') : Inv l queued (ls ++ [x]) s' := by
  obtain ⟨⟨handled, hq, ht⟩, hb, hp, ho, htr⟩ := h
  cases x with
  | arrive d =>
    simp only [Listener.step, Option.some.injEq] at hx
    subst hx
    refine ⟨⟨handled, ?_, ht⟩, hb, ?_, ho, htr⟩
    · rw [arrivals_append, ← List.append_assoc, hq]; simp [arrivals]
    · exact hp
  | pollEvent =>
    simp only [Listener.step] at hx
    split at hx
    · rename_i hph hr
      cases hx
      simp only [PhaseInv, hph] at hp
      exact ⟨⟨handled, by rw [arrivals_append]; simpa [arrivals] using hq, ht⟩, hb, hp, ho, htr⟩
    · simp at hx
  | pollTimeout =>
    simp only [Listener.step] at hx
    split at hx
    · cases hx
      exact ⟨⟨handled, by rw [arrivals_append]; simpa [arrivals] using hq, ht⟩, hb, hp, ho, htr⟩
    · simp at hx
  | pollSpurious =>
    simp only [Listener.step] at hx
    split at hx
    · rename_i hph
      cases hx
      simp only [PhaseInv, hph] at hp
      exact ⟨⟨handled, by rw [arrivals_append]; simpa [arrivals] using hq, ht⟩, hb, hp, ho, htr⟩
    · simp at hx
  | pollError =>
    simp only [Listener.step] at hx
    split at hx
    · rename_i hph
      cases hx
      simp only [PhaseInv, hph] at hp
      exact ⟨⟨handled, by rw [arrivals_append]; simpa [arrivals] using hq, ht⟩, hb, hp, ho, htr⟩
    · simp at hx
  | recvError =>
    simp only [Listener.step] at hx
    split at hx
    · rename_i hph
      cases hx
      simp only [PhaseInv, hph] at hp
      exact ⟨⟨handled, by rw [arrivals_append]; simpa [arrivals] using hq, ht⟩, hb, hp, ho, htr⟩
    · simp at hx
  | recv =>
    simp only [Listener.step] at hx
    split at hx
    · rename_i k hph
      simp only [PhaseInv, hph] at hp
      split at hx
      · cases hx
        exact ⟨⟨handled, by rw [arrivals_append]; simpa [arrivals] using hq, ht⟩, hb, hp, ho, htr⟩
      · rename_i d q hqq
        simp only [Option.some.injEq] at hx
        subst hx
        have hcut : (recvInto s.buffer d.bytes).2.take (recvInto s.buffer d.bytes).1 =
            d.bytes.take l.buffersize := by rw [cut_eq, hb]
        refine ⟨⟨handled ++ [d], ?_, ?_⟩, ?_, ?_, ?_, ?_⟩
        · rw [arrivals_append, ← List.append_assoc, hq, hqq]; simp [arrivals]
        · simp [takenIn, ht, received, hcut]
        · simp only [recvInto_length, hb]
        · simp only [PhaseInv]
          refine ⟨takenIn s.trace, by simp [takenIn], List.nodup_range, by simp, ?_, by simp, ?_, ?_, by simp⟩
          · intro r hr; exact ⟨List.mem_range.mp hr, by simp⟩
          · intro r hr
            rw [if_pos (List.mem_range.mpr hr)]
            simp [callsOf, hp.1 r hr]
          · intro r; simp [callsOf, returnsOf, hp.2 r]
        · intro r hr; simp [callsOf, ho r hr]
        · exact htr.snoc _ hp
    · simp at hx
  | start r =>
    simp only [Listener.step] at hx
    split at hx
    · rename_i k p a todo running panicked hph
      simp only [PhaseInv, hph] at hp
      obtain ⟨prev, h1, h2, h3, h4, h5, h6, h7, h8⟩ := hp
      split at hx
      · rename_i hr
        cases hx
        have hrn := (h4 r hr).1
        have hnd := h2
        refine ⟨⟨handled, by rw [arrivals_append]; simpa [arrivals] using hq, by simpa [takenIn] using ht⟩,
          hb, ?_, ?_, ?_⟩
        · simp only [PhaseInv]
          refine ⟨prev, by simpa [takenIn] using h1, h2.erase r, ?_, ?_, ?_, ?_, ?_, h8⟩
          · exact List.nodup_cons.mpr ⟨(h4 r hr).2, h3⟩
          · intro r' hr'
            rw [List.Nodup.mem_erase_iff h2] at hr'
            refine ⟨(h4 r' hr'.2).1, ?_⟩
            simp only [List.mem_cons, not_or]
            exact ⟨hr'.1, (h4 r' hr'.2).2⟩
          · intro r' hr'
            rcases List.mem_cons.mp hr' with rfl | hr'
            · exact hrn
            · exact h5 r' hr'
          · intro r' hr'
            have := h6 r' hr'
            simp only [callsOf_append, callsOf, this, List.Nodup.mem_erase_iff h2]
            by_cases hrr : r = r'
            · subst hrr; simp [hr]
            · have : r' ≠ r := fun h => hrr h.symm
              simp [hrr, this]
          · intro r'
            have := h7 r'
            simp only [callsOf_append, callsOf, returnsOf_append, returnsOf, List.length_append, this,
              List.mem_cons]
            by_cases hrr : r = r'
            · subst hrr; simp [(h4 r hr).2]
            · have : r' ≠ r := fun h => hrr h.symm
              simp [hrr, this]
        · intro r' hr'
          have : r ≠ r' := by omega
          simp [callsOf, this, ho r' hr']
        · refine htr.snoc _ ⟨hrn, prev, h1, ?_⟩
          rw [h6 r hrn, if_pos hr]
      · simp at hx
    · simp at hx
  | finish r =>
    simp only [Listener.step] at hx
    split at hx
    · rename_i k p a todo running panicked hph
      simp only [PhaseInv, hph] at hp
      obtain ⟨prev, h1, h2, h3, h4, h5, h6, h7, h8⟩ := hp
      split at hx
      · rename_i hr
        cases hx
        refine ⟨⟨handled, by rw [arrivals_append]; simpa [arrivals] using hq, by simpa [takenIn] using ht⟩,
          hb, ?_, ?_, ?_⟩
        · simp only [PhaseInv]
          refine ⟨prev, by simpa [takenIn] using h1, h2, h3.erase r, ?_, ?_, ?_, ?_, ?_⟩
          · intro r' hr'
            refine ⟨(h4 r' hr').1, ?_⟩
            intro hc
            exact (h4 r' hr').2 (List.mem_of_mem_erase hc)
          · intro r' hr'; exact h5 r' (List.mem_of_mem_erase hr')
          · intro r' hr'
            simpa [callsOf] using h6 r' hr'
          · intro r'
            have := h7 r'
            simp only [callsOf_append, callsOf, returnsOf_append, returnsOf, List.length_append, this,
              List.Nodup.mem_erase_iff h3]
            by_cases hrr : r = r'
            · subst hrr; simp [hr]
            · have : r' ≠ r := fun h => hrr h.symm
              simp [hrr, this]
          · exact h8
        · intro r' hr'; simpa [callsOf] using ho r' hr'
        · refine htr.snoc _ ?_
          have := h7 r
          rw [if_pos hr] at this
          exact this
      · simp at hx
    · simp at hx
  | crash r =>
    simp only [Listener.step] at hx
    split at hx
    · rename_i k p a todo running panicked hph
      simp only [PhaseInv, hph] at hp
      obtain ⟨prev, h1, h2, h3, h4, h5, h6, h7, h8⟩ := hp
      split at hx
      · rename_i hr
        cases hx
        refine ⟨⟨handled, by rw [arrivals_append]; simpa [arrivals] using hq, by simpa [takenIn] using ht⟩,
          hb, ?_, ?_, ?_⟩
        · simp only [PhaseInv]
          refine ⟨prev, by simpa [takenIn] using h1, h2, h3.erase r, ?_, ?_, ?_, ?_, ?_⟩
          · intro r' hr'
            refine ⟨(h4 r' hr').1, ?_⟩
            intro hc
            exact (h4 r' hr').2 (List.mem_of_mem_erase hc)
          · intro r' hr'; exact h5 r' (List.mem_of_mem_erase hr')
          · intro r' hr'
            simpa [callsOf] using h6 r' hr'
          · intro r'
            have := h7 r'
            simp only [callsOf_append, callsOf, returnsOf_append, returnsOf, List.length_append, this,
              List.Nodup.mem_erase_iff h3]
            by_cases hrr : r = r'
            · subst hrr; simp [hr.1]
            · have : r' ≠ r := fun h => hrr h.symm
              simp [hrr, this]
          · intro _
            have hpan := hr.2
            unfold Listener.mayPanic at hpan
            split at hpan
            · rename_i x hx'; exact ⟨r, x, hx', hpan⟩
            · simp at hpan
        · intro r' hr'; simpa [callsOf] using ho r' hr'
        · refine htr.snoc _ ?_
          have := h7 r
          rw [if_pos hr.1] at this
          exact this
      · simp at hx
    · simp at hx
  | join =>
    simp only [Listener.step] at hx
    split at hx
    · rename_i k p a todo running panicked hph
      simp only [PhaseInv, hph] at hp
      obtain ⟨prev, h1, h2, h3, h4, h5, h6, h7, h8⟩ := hp
      split at hx
      · rename_i hc
        obtain ⟨hc1, hc2⟩ := hc
        cases hx
        refine ⟨⟨handled, by rw [arrivals_append]; simpa [arrivals] using hq, ht⟩, hb, ?_, ho, htr⟩
        cases hpan : panicked with
        | true =>
          simp only [PhaseInv, if_true]
          refine ⟨prev, p, a, h1, ?_, ?_, h8 hpan⟩
          · intro r hr
            have := h6 r hr
            by_cases hrt : r ∈ todo
            · rw [if_pos hrt] at this; exact .inl this
            · rw [if_neg hrt] at this; exact .inr this
          · intro r; have := h7 r; simpa [hc1] using this
        | false =>
          have htodo : todo = [] := by
            rcases hc2 with h | h
            · exact h
            · rw [hpan] at h; simp at h
          subst htodo
          have g1 : ∀ r, r < l.receivers.length → callsOf r s.trace = takenIn s.trace := by
            intro r hr
            rw [h6 r hr, h1]; simp
          have g2 : ∀ r, (callsOf r s.trace).length = returnsOf r s.trace := by
            intro r; have := h7 r; simpa [hc1] using this
          simp only [afterEvent]
          by_cases hk : k = 0
          · simp only [hk]; exact ⟨g1, g2⟩
          · simp only [hk]; exact ⟨g1, g2⟩
      · simp at hx
    · simp at hx

theorem inv_run (l : Listener) (queued : List Datagram) (ls : List Label) (s : NetState)
    (h : l.run (l.init queued) ls = some s) : Inv l queued ls s :=
  run_induction l _ (fun ls s => Inv l queued ls s) (inv_init l queued)
    (fun ls s x s' _ hi hx => inv_step l queued ls s s' x hi hx) ls s h

end Ipv8
