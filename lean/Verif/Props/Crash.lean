import Verif.Props.Shared
/-!
# C104: receivers that panic in the middle of their work

C103 at every moment, not only when no receiver is at work, and with receivers that panic.
-/

namespace Ipv8
open Spec

variable {σ : Type}

/-! ## Specification -/

/-- Programs that have been run for a while, a section at a time, with changes by others in between: they were `ps` and now
`ps'` is left of them; the memory was `m` and is now `m'`. -/
inductive Ran (ps : List (Act σ)) (m : σ) : List (σ → σ) → List (Act σ) → σ → Prop
  | start : Ran ps m [] ps m
  | step {others : List (σ → σ)} {ps' : List (Act σ)} {m' : σ} (i : Nat) (next : σ → Act σ) (change : σ → σ) :
      Ran ps m others ps' m' → ps'[i]? = some (.step next change) → Ran ps m others (ps'.set i (next m')) (change m')
  | other {others : List (σ → σ)} {ps' : List (Act σ)} {m' : σ} (f : σ → σ) :
      Ran ps m others ps' m' → Ran ps m (others ++ [f]) ps' (f m')

/-- The steps of thread, pool and socket in an execution. -/
def netIn : List (SLabel σ) → List Label
  | [] => []
  | .net x :: w => x :: netIn w
  | _ :: w => netIn w

/-- What others do. -/
def changesIn : List (SLabel σ) → List (σ → σ)
  | [] => []
  | .other f :: w => f :: changesIn w
  | _ :: w => changesIn w

/-- The situation at first. -/
def SharedNet.init (l : Listener) (queued : List Datagram) (m : σ) : SharedNet σ := ⟨l.init queued, Shared.fresh m⟩

/-- Whether the program, run by itself, ends with a panic. -/
def Act.panics : Act σ → σ → Bool
  | .done, _ => false
  | .panic, _ => true
  | .step next change, m => (next m).panics (change m)

/-! ## Proofs -/

theorem Ran.mixed {ps ps' : List (Act σ)} {m m' m'' : σ} {fs fs' : List (σ → σ)} (h : Ran ps m fs ps' m')
    (h' : Mixed ps' fs' m' m'') : Mixed ps (fs ++ fs') m m'' := by
  induction h generalizing fs' with
  | start => exact h'
  | step i next change _ hp ih => exact ih (.step i next change hp h')
  | other f _ ih =>
    rw [List.append_assoc]
    exact ih (.other f h')

theorem Ran.length {ps ps' : List (Act σ)} {m m' : σ} {fs : List (σ → σ)} (h : Ran ps m fs ps' m') :
    ps'.length = ps.length := by
  induction h with
  | start => rfl
  | step i next change _ hp ih => simpa using ih
  | other f _ ih => exact ih

theorem InTurn.other {pss : List (List (Act σ))} {fs : List (σ → σ)} {m m' : σ} (h : InTurn pss fs m m') (f : σ → σ) :
    InTurn pss (fs ++ [f]) m (f m') := by
  induction h with
  | @nil others m =>
    have := InTurn.nil (others := others ++ [f]) (m := m)
    simpa using this
  | cons hm _ ih =>
    rw [List.append_assoc]
    exact .cons hm ih

theorem SharedNet.run_append (program : Nat → Packet → Address → Act σ) (l : Listener) (w w' : List (SLabel σ))
    (s : SharedNet σ) : s.run program l (w ++ w') = (s.run program l w).bind fun s => s.run program l w' := by
  induction w generalizing s with
  | nil => rfl
  | cons e w ih =>
    simp only [List.cons_append, SharedNet.run]
    cases s.step program l e with
    | none => rfl
    | some s' => exact ih s'

theorem SharedNet.run_snoc {program : Nat → Packet → Address → Act σ} {l : Listener} {w : List (SLabel σ)} {e : SLabel σ}
    {s s' : SharedNet σ} (h : s.run program l (w ++ [e]) = some s') :
    ∃ m, s.run program l w = some m ∧ m.step program l e = some s' := by
  rw [SharedNet.run_append] at h
  cases hm : s.run program l w with
  | none => rw [hm] at h; simp at h
  | some m =>
    rw [hm] at h
    refine ⟨m, rfl, ?_⟩
    simp only [Option.bind_some, SharedNet.run] at h
    cases hs : m.step program l e with
    | none => rw [hs] at h; simp at h
    | some x => rw [hs] at h; simpa using h

theorem netIn_append (w w' : List (SLabel σ)) : netIn (w ++ w') = netIn w ++ netIn w' := by
  induction w with
  | nil => rfl
  | cons e w ih => cases e <;> simp [netIn, ih]

theorem changesIn_append (w w' : List (SLabel σ)) : changesIn (w ++ w') = changesIn w ++ changesIn w' := by
  induction w with
  | nil => rfl
  | cons e w ih => cases e <;> simp [changesIn, ih]

/-- Without the memory it is an execution of the listening thread. -/
theorem SharedNet.project {program : Nat → Packet → Address → Act σ} {l : Listener} (w : List (SLabel σ))
    (s s' : SharedNet σ) (h : s.run program l w = some s') : l.run s.net (netIn w) = some s'.net := by
  induction w generalizing s with
  | nil =>
    simp only [SharedNet.run, Option.some.injEq] at h
    subst h
    rfl
  | cons e w ih =>
    simp only [SharedNet.run] at h
    cases hs : s.step program l e with
    | none => rw [hs] at h; simp at h
    | some s1 =>
      rw [hs] at h
      have := ih s1 h
      cases e with
      | net x =>
        simp only [SharedNet.step] at hs
        cases hx : l.step s.net x with
        | none => rw [hx] at hs; simp at hs
        | some n =>
          cases hf : s.shared.follow program s.net.phase x with
          | none => rw [hx, hf] at hs; simp at hs
          | some m =>
            rw [hx, hf] at hs
            simp only [Option.some.injEq] at hs
            subst hs
            simp only [netIn, Listener.run, hx]
            exact this
      | touch r =>
        simp only [SharedNet.step] at hs
        split at hs
        · simp only [Option.some.injEq] at hs
          subst hs
          exact this
        · simp at hs
      | other f =>
        simp only [SharedNet.step, Option.some.injEq] at hs
        subst hs
        exact this

/-- A receiver has panicked on the current message. -/
def broken : Phase → Bool
  | .dispatch _ _ _ _ _ panicked => panicked
  | .stopped .receiverPanic => true
  | _ => false

/-- The invariant. -/
structure CrashInv (program : Nat → Packet → Address → Act σ) (n : Nat) (m0 : σ) (fs : List (σ → σ))
    (s : SharedNet σ) : Prop where
  running : ∀ r, (s.shared.running r).isSome = true ↔
    (callsOf r s.net.trace).length = returnsOf r s.net.trace + 1
  start : takenIn s.net.trace = [] →
    s.shared.memory = fs.foldl (fun m f => f m) m0 ∧ broken s.net.phase = false
  round : ∀ prev p a, takenIn s.net.trace = prev ++ [(p, a)] → ∃ m1 fs1 fs2 ps', fs = fs1 ++ fs2 ∧
    InTurn (prev.map (programsFor program n)) fs1 m0 m1 ∧
    Ran (programsFor program n (p, a)) m1 fs2 ps' s.shared.memory ∧
    (∀ r, r < n →
      (callsOf r s.net.trace = prev → ps'[r]? = some (program r p a)) ∧
      (callsOf r s.net.trace = prev ++ [(p, a)] →
        (∀ x, s.shared.running r = some x → ps'[r]? = some x) ∧
        (s.shared.running r = none → ps'[r]? = some .done ∨ broken s.net.phase = true ∧ ps'[r]? = some .panic))) ∧
    (broken s.net.phase = true → ∃ r, r < n ∧ callsOf r s.net.trace = prev ++ [(p, a)] ∧ s.shared.running r = none ∧
      ps'[r]? = some .panic)

theorem CrashInv.init (program : Nat → Packet → Address → Act σ) (l : Listener) (queued : List Datagram) (m0 : σ) :
    CrashInv program l.receivers.length m0 [] (SharedNet.init l queued m0) where
  running r := by simp [SharedNet.init, Shared.fresh, Listener.init, callsOf, returnsOf]
  start _ := ⟨rfl, rfl⟩
  round prev p a h := by simp [SharedNet.init, Listener.init, takenIn] at h

theorem CrashInv.same {program : Nat → Packet → Address → Act σ} {n : Nat} {m0 : σ} {fs : List (σ → σ)}
    {s : SharedNet σ} (h : CrashInv program n m0 fs s) {x : NetState} (ht : x.trace = s.net.trace)
    (hb : broken x.phase = broken s.net.phase) : CrashInv program n m0 fs { s with net := x } where
  running := by simpa [ht] using h.running
  start := by simpa [ht, hb] using h.start
  round := by simpa [ht, hb] using h.round

/-- A call that is running is one with the message taken last. -/
theorem running_current {l : Listener} {queued : List Datagram} {ls : List Label} {s : NetState}
    (h : Inv l queued ls s) {r : Nat} (hr : (callsOf r s.trace).length = returnsOf r s.trace + 1) :
    r < l.receivers.length ∧ ∃ prev p a, takenIn s.trace = prev ++ [(p, a)] ∧ callsOf r s.trace = prev ++ [(p, a)] := by
  have hp := h.phase
  unfold PhaseInv at hp
  split at hp
  · obtain ⟨prev, h1, h2, h3, h4, h5, h6, h7, h8⟩ := hp
    have hrun := h7 r
    rename_i k p a todo running pan hph
    have hmem : r ∈ running := by
      rcases Classical.em (r ∈ running) with hm | hm
      · exact hm
      · rw [if_neg hm] at hrun
        omega
    have hlt := h5 r hmem
    refine ⟨hlt, prev, p, a, h1, ?_⟩
    rw [h6 r hlt, if_neg]
    intro htodo
    exact (h4 r htodo).2 hmem
  · obtain ⟨prev, p, a, -, -, h3, -⟩ := hp
    have := h3 r
    omega
  · have := hp.2 r
    omega

theorem CrashInv.touch {program : Nat → Packet → Address → Act σ} {l : Listener} {queued : List Datagram}
    {ls : List Label} {m0 : σ} {fs : List (σ → σ)} {s : SharedNet σ} (hi : Inv l queued ls s.net)
    (h : CrashInv program l.receivers.length m0 fs s) {r : Nat} {next : σ → Act σ} {change : σ → σ}
    (hr : s.shared.running r = some (.step next change)) :
    CrashInv program l.receivers.length m0 fs { s with
      shared := ⟨change s.shared.memory, fun i => if i = r then some (next s.shared.memory) else s.shared.running i⟩ } := by
  have hlen := (h.running r).mp (by rw [hr]; rfl)
  obtain ⟨hlt, prev, p, a, ht, hc⟩ := running_current hi hlen
  refine ⟨?_, ?_, ?_⟩
  · intro i
    rw [← h.running i]
    by_cases hir : i = r
    · subst hir; simp [hr]
    · simp [hir]
  · intro h0
    rw [ht] at h0
    simp at h0
  · intro prev' p' a' ht'
    have heq := ht.symm.trans ht'
    obtain ⟨rfl, h2⟩ := List.append_inj' heq rfl
    simp only [List.cons.injEq, Prod.mk.injEq, and_true] at h2
    obtain ⟨rfl, rfl⟩ := h2
    obtain ⟨m1, fs1, fs2, ps', h1, h2, h3, h4, h5⟩ := h.round prev p a ht
    have hps : ps'[r]? = some (.step next change) := ((h4 r hlt).2 hc).1 _ hr
    have hlt' : r < ps'.length := (List.getElem?_eq_some_iff.mp hps).1
    refine ⟨m1, fs1, fs2, ps'.set r (next s.shared.memory), h1, h2, .step r next change h3 hps, ?_, ?_⟩
    · intro i hi'
      by_cases hir : i = r
      · subst hir
        rw [List.getElem?_set_self hlt']
        refine ⟨?_, ?_⟩
        · intro hcc
          have := hcc.symm.trans hc
          simp at this
        · intro _
          simp
      · rw [List.getElem?_set_ne (Ne.symm hir)]
        simpa [hir] using h4 i hi'
    · intro hb
      obtain ⟨i, g1, g2, g3, g4⟩ := h5 hb
      have hir : i ≠ r := by
        rintro rfl
        rw [hr] at g3
        simp at g3
      refine ⟨i, g1, g2, ?_, ?_⟩
      · simp [hir, g3]
      · rw [List.getElem?_set_ne (Ne.symm hir)]
        exact g4

theorem CrashInv.other {program : Nat → Packet → Address → Act σ} {n : Nat} {m0 : σ} {fs : List (σ → σ)}
    {s : SharedNet σ} (h : CrashInv program n m0 fs s) (f : σ → σ) :
    CrashInv program n m0 (fs ++ [f]) { s with shared := { s.shared with memory := f s.shared.memory } } where
  running := h.running
  start h0 := ⟨by simp [(h.start h0).1], (h.start h0).2⟩
  round prev p a ht := by
    obtain ⟨m1, fs1, fs2, ps', h1, h2, h3, h4, h5⟩ := h.round prev p a ht
    exact ⟨m1, fs1, fs2 ++ [f], ps', by simp [h1], h2, .other f h3, h4, h5⟩

/-- When all have returned and none has panicked. -/
theorem CrashInv.quiet {program : Nat → Packet → Address → Act σ} {n : Nat} {m0 : σ} {fs : List (σ → σ)}
    {s : SharedNet σ} (h : CrashInv program n m0 fs s) (hb : broken s.net.phase = false)
    (hc : ∀ r, r < n → callsOf r s.net.trace = takenIn s.net.trace)
    (hr : ∀ r, (callsOf r s.net.trace).length = returnsOf r s.net.trace) :
    InTurn ((takenIn s.net.trace).map (programsFor program n)) fs m0 s.shared.memory := by
  rcases List.eq_nil_or_concat (takenIn s.net.trace) with h0 | ⟨prev, ⟨p, a⟩, h1⟩
  · rw [h0, (h.start h0).1]
    exact .nil
  · rw [List.concat_eq_append] at h1
    obtain ⟨m1, fs1, fs2, ps', g1, g2, g3, g4, -⟩ := h.round prev p a h1
    rw [h1, List.map_append, g1, ← List.append_nil fs2]
    refine g2.snoc (g3.mixed (.done ?_))
    intro q hq
    obtain ⟨r, hlt, rfl⟩ := List.getElem_of_mem hq
    have hlt' : r < n := by
      have := g3.length
      rw [this] at hlt
      simpa [programsFor] using hlt
    have hnone : s.shared.running r = none := by
      have := h.running r
      cases hs : s.shared.running r with
      | none => rfl
      | some x =>
        rw [hs] at this
        have h3 := hr r
        simp at this
        omega
    rcases ((g4 r hlt').2 (by rw [hc r hlt', h1])).2 hnone with h2 | ⟨h2, -⟩
    · rw [List.getElem?_eq_getElem hlt] at h2
      exact Option.some.inj h2
    · rw [hb] at h2
      simp at h2

/-- The steps with which no receiver is concerned. -/
theorem step_aside {l : Listener} {s s' : NetState} {x : Label} (h : l.step s x = some s')
    (hx : ∀ r, x ≠ .start r ∧ x ≠ .finish r ∧ x ≠ .crash r) :
    s'.trace = s.trace ∧ broken s'.phase = broken s.phase ∨
      ∃ p a, s'.trace = s.trace ++ [.taken p a] ∧ broken s'.phase = false ∧ broken s.phase = false ∧
        ∃ k, s.phase = .handling k := by
  cases x with
  | start r => exact absurd rfl (hx r).1
  | finish r => exact absurd rfl (hx r).2.1
  | crash r => exact absurd rfl (hx r).2.2
  | arrive d =>
    simp only [Listener.step, Option.some.injEq] at h
    subst h
    exact .inl ⟨rfl, rfl⟩
  | pollEvent =>
    simp only [Listener.step] at h
    split at h
    · rename_i hp _
      cases h
      exact .inl ⟨rfl, by rw [hp]; rfl⟩
    · simp at h
  | pollTimeout =>
    simp only [Listener.step] at h
    split at h
    · cases h
      exact .inl ⟨rfl, rfl⟩
    · simp at h
  | pollSpurious =>
    simp only [Listener.step] at h
    split at h
    · rename_i hp
      cases h
      exact .inl ⟨rfl, by rw [hp]; rfl⟩
    · simp at h
  | pollError =>
    simp only [Listener.step] at h
    split at h
    · rename_i hp
      cases h
      exact .inl ⟨rfl, by rw [hp]; rfl⟩
    · simp at h
  | recv =>
    simp only [Listener.step] at h
    split at h
    · rename_i k hp
      split at h
      · cases h
        exact .inl ⟨rfl, by rw [hp]; rfl⟩
      · cases h
        exact .inr ⟨_, _, rfl, rfl, by rw [hp]; rfl, _, hp⟩
    · simp at h
  | recvError =>
    simp only [Listener.step] at h
    split at h
    · rename_i hp
      cases h
      exact .inl ⟨rfl, by rw [hp]; rfl⟩
    · simp at h
  | join =>
    simp only [Listener.step] at h
    split at h
    · rename_i k p a todo running pan hp
      split at h
      · cases h
        refine .inl ⟨rfl, ?_⟩
        rw [hp]
        cases pan
        · by_cases hk : k = 0 <;> simp [broken, afterEvent, hk]
        · rfl
      · simp at h
    · simp at h

theorem follow_aside {program : Nat → Packet → Address → Act σ} {ph : Phase} {s s' : Shared σ} {x : Label}
    (h : s.follow program ph x = some s') (hx : ∀ r, x ≠ .start r ∧ x ≠ .finish r ∧ x ≠ .crash r) : s' = s := by
  cases x with
  | start r => exact absurd rfl (hx r).1
  | finish r => exact absurd rfl (hx r).2.1
  | crash r => exact absurd rfl (hx r).2.2
  | _ => simpa [Shared.follow, eq_comm] using h

theorem CrashInv.taken {program : Nat → Packet → Address → Act σ} {l : Listener} {queued : List Datagram}
    {ls : List Label} {m0 : σ} {fs : List (σ → σ)} {s : SharedNet σ} (hi : Inv l queued ls s.net)
    (h : CrashInv program l.receivers.length m0 fs s) {k : Nat} (hp : s.net.phase = .handling k) {x : NetState}
    {p : Packet} {a : Address} (ht : x.trace = s.net.trace ++ [.taken p a]) (hb : broken x.phase = false) :
    CrashInv program l.receivers.length m0 fs { s with net := x } := by
  have hph := hi.phase
  simp only [PhaseInv, hp] at hph
  obtain ⟨hc, hr⟩ := hph
  have hq := h.quiet (by rw [hp]; rfl) hc hr
  refine ⟨?_, ?_, ?_⟩
  · intro i
    simpa [ht, callsOf, returnsOf] using h.running i
  · intro h0
    simp [ht, takenIn] at h0
  · intro prev p' a' heq
    simp only [ht, takenIn_append, takenIn] at heq
    obtain ⟨rfl, h2⟩ := List.append_inj' heq rfl
    simp only [List.cons.injEq, Prod.mk.injEq, and_true] at h2
    obtain ⟨rfl, rfl⟩ := h2
    refine ⟨s.shared.memory, fs, [], _, by simp, hq, .start, ?_, ?_⟩
    · intro r hlt
      refine ⟨fun _ => by simp [programsFor, hlt], ?_⟩
      intro hcc
      simp [ht, callsOf, hc r hlt] at hcc
    · rw [hb]
      simp

theorem CrashInv.call {program : Nat → Packet → Address → Act σ} {l : Listener} {queued : List Datagram}
    {ls : List Label} {m0 : σ} {fs : List (σ → σ)} {s : SharedNet σ} (hi : Inv l queued ls s.net)
    (h : CrashInv program l.receivers.length m0 fs s) {r : Nat} {x : NetState} {m : Shared σ}
    (hx : l.step s.net (.start r) = some x) (hm : s.shared.follow program s.net.phase (.start r) = some m) :
    CrashInv program l.receivers.length m0 fs ⟨x, m⟩ := by
  simp only [Listener.step] at hx
  split at hx
  case h_2 => simp at hx
  rename_i k p a todo running pan hph
  split at hx
  case isFalse => simp at hx
  rename_i hmem
  simp only [Option.some.injEq] at hx
  simp only [Shared.follow, hph, Option.some.injEq] at hm
  have hp := hi.phase
  simp only [PhaseInv, hph] at hp
  obtain ⟨prev, h1, h2, h3, h4, h5, h6, h7, h8⟩ := hp
  obtain ⟨hlt, hnr⟩ := h4 r hmem
  have hc : callsOf r s.net.trace = prev := by rw [h6 r hlt, if_pos hmem]
  have hret : (callsOf r s.net.trace).length = returnsOf r s.net.trace := by
    have := h7 r
    rwa [if_neg hnr] at this
  have hself : callsOf r (s.net.trace ++ [Ev.call r p a]) = prev ++ [(p, a)] := by simp [callsOf, hc]
  have hother : ∀ i, i ≠ r → callsOf i (s.net.trace ++ [Ev.call r p a]) = callsOf i s.net.trace := by
    intro i hir; simp [callsOf, Ne.symm hir]
  have hrets : ∀ i, returnsOf i (s.net.trace ++ [Ev.call r p a]) = returnsOf i s.net.trace := by
    intro i; simp [returnsOf]
  have hbr : broken x.phase = broken s.net.phase := by rw [← hx, hph]; rfl
  have htr : x.trace = s.net.trace ++ [Ev.call r p a] := by rw [← hx]
  subst hm
  refine ⟨?_, ?_, ?_⟩
  · intro i
    simp only [htr]
    by_cases hir : i = r
    · subst hir
      rw [hself, hrets, ← hret, hc]
      simp
    · rw [hother i hir, hrets]
      simpa [hir] using h.running i
  · intro h0
    simp [htr, takenIn, h1] at h0
  · intro prev' p' a' ht'
    simp only [htr, takenIn_append, takenIn, List.append_nil] at ht'
    have heq := h1.symm.trans ht'
    obtain ⟨rfl, g2⟩ := List.append_inj' heq rfl
    simp only [List.cons.injEq, Prod.mk.injEq, and_true] at g2
    obtain ⟨rfl, rfl⟩ := g2
    obtain ⟨m1, fs1, fs2, ps', e1, e2, e3, e4, e5⟩ := h.round prev p a h1
    refine ⟨m1, fs1, fs2, ps', e1, e2, e3, ?_, ?_⟩
    · intro i hlti
      simp only [htr, hbr]
      by_cases hir : i = r
      · subst hir
        rw [hself]
        refine ⟨?_, ?_⟩
        · intro hcc
          simp at hcc
        · intro _
          have := (e4 i hlti).1 hc
          simp [this]
      · rw [hother i hir]
        simpa [hir] using e4 i hlti
    · simp only [htr, hbr]
      intro hb
      obtain ⟨i, g1, g2, g3, g4⟩ := e5 hb
      have hir : i ≠ r := by
        rintro rfl
        rw [hc] at g2
        simp at g2
      exact ⟨i, g1, by rw [hother i hir, g2], by simp [hir, g3], g4⟩

theorem CrashInv.ended {program : Nat → Packet → Address → Act σ} {l : Listener} {queued : List Datagram}
    {ls : List Label} {m0 : σ} {fs : List (σ → σ)} {s : SharedNet σ} (hi : Inv l queued ls s.net)
    (h : CrashInv program l.receivers.length m0 fs s) {r : Nat} {x : NetState} {q : Act σ}
    (hq : s.shared.running r = some q) (hd : q = .done ∧ broken x.phase = broken s.net.phase ∨
      q = .panic ∧ broken x.phase = true)
    (htr : x.trace = s.net.trace ++ [.ret r]) :
    CrashInv program l.receivers.length m0 fs
      ⟨x, { s.shared with running := fun i => if i = r then none else s.shared.running i }⟩ := by
  have hlen := (h.running r).mp (by rw [hq]; rfl)
  obtain ⟨hlt, prev, p, a, ht, hc⟩ := running_current hi hlen
  have hcalls : ∀ i, callsOf i (s.net.trace ++ [Ev.ret r]) = callsOf i s.net.trace := by intro i; simp [callsOf]
  have hself : returnsOf r (s.net.trace ++ [Ev.ret r]) = returnsOf r s.net.trace + 1 := by simp [returnsOf]
  have hother : ∀ i, i ≠ r → returnsOf i (s.net.trace ++ [Ev.ret r]) = returnsOf i s.net.trace := by
    intro i hir; simp [returnsOf, Ne.symm hir]
  have hmono : broken s.net.phase = true → broken x.phase = true := by
    intro hb
    rcases hd with ⟨-, h2⟩ | ⟨-, h2⟩
    · rw [h2, hb]
    · exact h2
  refine ⟨?_, ?_, ?_⟩
  · intro i
    simp only [htr, hcalls]
    by_cases hir : i = r
    · subst hir
      rw [hself, hlen]
      simp
    · rw [hother i hir]
      simpa [hir] using h.running i
  · intro h0
    simp [htr, takenIn, ht] at h0
  · intro prev' p' a' ht'
    simp only [htr, takenIn_append, takenIn, List.append_nil] at ht'
    have heq := ht.symm.trans ht'
    obtain ⟨rfl, g2⟩ := List.append_inj' heq rfl
    simp only [List.cons.injEq, Prod.mk.injEq, and_true] at g2
    obtain ⟨rfl, rfl⟩ := g2
    obtain ⟨m1, fs1, fs2, ps', e1, e2, e3, e4, e5⟩ := h.round prev p a ht
    have hps : ps'[r]? = some q := ((e4 r hlt).2 hc).1 q hq
    refine ⟨m1, fs1, fs2, ps', e1, e2, e3, ?_, ?_⟩
    · intro i hlti
      simp only [htr, hcalls]
      refine ⟨(e4 i hlti).1, ?_⟩
      intro hcc
      by_cases hir : i = r
      · subst hir
        simp only [if_true]
        refine ⟨fun _ hh => by simp at hh, fun _ => ?_⟩
        rcases hd with ⟨rfl, -⟩ | ⟨rfl, hb⟩
        · exact .inl hps
        · exact .inr ⟨hb, hps⟩
      · simp only [hir, if_false]
        refine ⟨((e4 i hlti).2 hcc).1, fun hn => ?_⟩
        rcases ((e4 i hlti).2 hcc).2 hn with g | ⟨g1, g2⟩
        · exact .inl g
        · exact .inr ⟨hmono g1, g2⟩
    · simp only [htr, hcalls]
      intro hb
      rcases hd with ⟨rfl, h2⟩ | ⟨rfl, -⟩
      · obtain ⟨i, g1, g2, g3, g4⟩ := e5 (by rw [← h2]; exact hb)
        refine ⟨i, g1, g2, ?_, g4⟩
        split
        · rfl
        · exact g3
      · exact ⟨r, hlt, hc, by simp, hps⟩

theorem CrashInv.step {program : Nat → Packet → Address → Act σ} {l : Listener} {queued : List Datagram}
    {ls : List Label} {m0 : σ} {fs : List (σ → σ)} {s s' : SharedNet σ} (hi : Inv l queued ls s.net)
    (h : CrashInv program l.receivers.length m0 fs s) {e : SLabel σ} (hs : s.step program l e = some s') :
    CrashInv program l.receivers.length m0 (fs ++ changesIn [e]) s' := by
  cases e with
  | other f =>
    simp only [SharedNet.step, Option.some.injEq] at hs
    subst hs
    exact h.other f
  | touch r =>
    simp only [SharedNet.step] at hs
    split at hs
    · rename_i hr
      simp only [Option.some.injEq] at hs
      subst hs
      simp only [changesIn, List.append_nil]
      exact h.touch hi hr
    · simp at hs
  | net x =>
    simp only [changesIn, List.append_nil]
    simp only [SharedNet.step] at hs
    cases hx : l.step s.net x with
    | none => rw [hx] at hs; simp at hs
    | some n =>
      cases hf : s.shared.follow program s.net.phase x with
      | none => rw [hx, hf] at hs; simp at hs
      | some m =>
        rw [hx, hf] at hs
        simp only [Option.some.injEq] at hs
        subst hs
        rcases Classical.em (∀ r, x ≠ .start r ∧ x ≠ .finish r ∧ x ≠ .crash r) with ha | ha
        · have := follow_aside hf ha
          subst this
          rcases step_aside hx ha with ⟨h1, h2⟩ | ⟨p, a, h1, h2, -, k, h3⟩
          · exact h.same h1 h2
          · exact h.taken hi h3 h1 h2
        · cases x with
          | start r => exact h.call hi hx hf
          | finish r =>
            simp only [Shared.follow] at hf
            split at hf
            case h_2 => simp at hf
            rename_i hq
            simp only [Option.some.injEq] at hf
            subst hf
            simp only [Listener.step] at hx
            split at hx
            case h_2 => simp at hx
            rename_i hph
            split at hx
            case isFalse => simp at hx
            simp only [Option.some.injEq] at hx
            subst hx
            exact h.ended hi hq (.inl ⟨rfl, by rw [hph]; rfl⟩) rfl
          | crash r =>
            simp only [Shared.follow] at hf
            split at hf
            case h_2 => simp at hf
            rename_i hq
            simp only [Option.some.injEq] at hf
            subst hf
            simp only [Listener.step] at hx
            split at hx
            case h_2 => simp at hx
            rename_i hph
            split at hx
            case isFalse => simp at hx
            simp only [Option.some.injEq] at hx
            subst hx
            exact h.ended hi hq (.inr ⟨rfl, rfl⟩) rfl
          | _ => exact absurd (fun r => ⟨nofun, nofun, nofun⟩) ha

theorem crash_run {program : Nat → Packet → Address → Act σ} {l : Listener} {queued : List Datagram} {m0 : σ}
    (w : List (SLabel σ)) (s : SharedNet σ) (h : (SharedNet.init l queued m0).run program l w = some s) :
    CrashInv program l.receivers.length m0 (changesIn w) s := by
  induction hw : w.length generalizing w s with
  | zero =>
    have : w = [] := List.length_eq_zero_iff.mp hw
    subst this
    simp only [SharedNet.run, Option.some.injEq] at h
    subst h
    exact .init _ _ _ _
  | succ k ih =>
    rcases List.eq_nil_or_concat w with rfl | ⟨w', e, rfl⟩
    · simp at hw
    rw [List.concat_eq_append] at *
    obtain ⟨m, hm, he⟩ := SharedNet.run_snoc h
    rw [changesIn_append]
    have hk : w'.length = k := by simpa using hw
    exact (ih w' m hm hk).step (inv_run l queued _ _ (SharedNet.project w' _ m hm)) he

/-! ## Theorems -/

/-- C104. At every moment of every execution, also while receivers are at work, and after one has panicked: the datagrams
read before the last one have been dealt with one after the other, in the order of their arrival, each by all receivers
to the end, none of which panicked.  For the last one, the receivers have each made some of their sections: those not
yet called none, those running as many as they have, those that have returned all.  When no receiver is at work, all
have made all. -/
theorem C104 (program : Nat → Packet → Address → Act σ) (l : Listener) (queued : List Datagram) (m0 : σ)
    (w : List (SLabel σ)) (s : SharedNet σ) (h : (SharedNet.init l queued m0).run program l w = some s) :
    ∃ handled, queued ++ arrivals (netIn w) = handled ++ s.net.queue ∧
      (handled = [] → s.shared.memory = (changesIn w).foldl (fun m f => f m) m0) ∧
      ∀ prev d, handled = prev ++ [d] → ∃ m1 before since left, changesIn w = before ++ since ∧
        InTurn (prev.map fun d => programsFor program l.receivers.length (received l.buffersize d)) before m0 m1 ∧
        Ran (programsFor program l.receivers.length (received l.buffersize d)) m1 since left s.shared.memory ∧
        (∀ r, r < l.receivers.length →
          (callsOf r s.net.trace = prev.map (received l.buffersize) ∧ s.shared.running r = none ∧
            left[r]? = some (program r (received l.buffersize d).1 (received l.buffersize d).2)) ∨
          (callsOf r s.net.trace = (prev ++ [d]).map (received l.buffersize) ∧
            match s.shared.running r with
            | some x => left[r]? = some x
            | none => left[r]? = some .done ∨ left[r]? = some .panic ∧ idle s.net.phase = false)) ∧
        (idle s.net.phase = true → ∀ x ∈ left, x = .done) := by
  have hinv := inv_run l queued _ _ (SharedNet.project w _ s h)
  have hC := crash_run w s h
  obtain ⟨handled, hf, htaken⟩ := hinv.fifo
  refine ⟨handled, hf, ?_, ?_⟩
  · rintro rfl
    exact (hC.start (by simpa using htaken)).1
  · rintro prev d rfl
    rw [List.map_append] at htaken
    obtain ⟨m1, before, since, left, h1, h2, h3, h4, h5⟩ := hC.round (prev.map (received l.buffersize))
      (received l.buffersize d).1 (received l.buffersize d).2 htaken
    rw [List.map_map] at h2
    have hcalls : ∀ r, r < l.receivers.length → (callsOf r s.net.trace = prev.map (received l.buffersize) ∨
        callsOf r s.net.trace = prev.map (received l.buffersize) ++ [received l.buffersize d]) := by
      intro r hr
      have hp := hinv.phase
      unfold PhaseInv at hp
      split at hp
      · obtain ⟨prev', g1, -, -, -, -, g6, -⟩ := hp
        have := g6 r hr
        obtain ⟨e1, e2⟩ := List.append_inj' (g1.symm.trans htaken) rfl
        rw [e1] at this
        split at this
        · exact .inl this
        · right
          rw [this]
          simp only [List.map_cons, List.map_nil, List.cons.injEq, and_true] at e2
          rw [e2]
      · obtain ⟨prev', p', a', g1, g2, -⟩ := hp
        obtain ⟨e1, e2⟩ := List.append_inj' (g1.symm.trans htaken) rfl
        have := g2 r hr
        rw [e1] at this
        simp only [List.map_cons, List.map_nil, List.cons.injEq, and_true] at e2
        rw [e2] at this
        exact this
      · right
        have := hp.1 r hr
        rw [this, htaken]
        rfl
    have hbi : broken s.net.phase = true → idle s.net.phase = false := by
      cases s.net.phase <;> simp [broken, idle]
    have hstat : ∀ r, r < l.receivers.length →
          (callsOf r s.net.trace = prev.map (received l.buffersize) ∧ s.shared.running r = none ∧
            left[r]? = some (program r (received l.buffersize d).1 (received l.buffersize d).2)) ∨
          (callsOf r s.net.trace = (prev ++ [d]).map (received l.buffersize) ∧
            match s.shared.running r with
            | some x => left[r]? = some x
            | none => left[r]? = some .done ∨ left[r]? = some .panic ∧ idle s.net.phase = false) := by
      intro r hr
      rcases hcalls r hr with g | g
      · refine .inl ⟨g, ?_, (h4 r hr).1 g⟩
        cases hs : s.shared.running r with
        | none => rfl
        | some x =>
          have := (hC.running r).mp (by rw [hs]; rfl)
          obtain ⟨-, prev', p', a', e1, e2⟩ := running_current hinv this
          obtain ⟨e3, -⟩ := List.append_inj' (e1.symm.trans htaken) rfl
          rw [g, e3] at e2
          simp at e2
      · refine .inr ⟨by rw [List.map_append]; exact g, ?_⟩
        obtain ⟨k1, k2⟩ := (h4 r hr).2 g
        split
        · rename_i hs
          exact k1 _ hs
        · rename_i hs
          rcases k2 hs with k | ⟨k, k'⟩
          · exact .inl k
          · exact .inr ⟨k', hbi k⟩
    refine ⟨m1, before, since, left, h1, h2, h3, hstat, ?_⟩
    intro hidle x hx
    have hq : (∀ r, r < l.receivers.length → callsOf r s.net.trace = takenIn s.net.trace) ∧
        (∀ r, (callsOf r s.net.trace).length = returnsOf r s.net.trace) := by
      have := hinv.phase
      cases hp : s.net.phase with
      | polling => simpa [PhaseInv, hp] using this
      | handling => simpa [PhaseInv, hp] using this
      | dispatch => simp [hp, idle] at hidle
      | stopped => simp [hp, idle] at hidle
    obtain ⟨r, hlt, rfl⟩ := List.getElem_of_mem hx
    have hlt' : r < l.receivers.length := by
      have := h3.length
      rw [this] at hlt
      simpa [programsFor] using hlt
    have hnone : s.shared.running r = none := by
      have := hC.running r
      cases hs : s.shared.running r with
      | none => rfl
      | some x =>
        rw [hs] at this
        have h3 := hq.2 r
        simp at this
        omega
    rcases hstat r hlt' with ⟨g, -⟩ | ⟨-, g⟩
    · have := hq.1 r hlt'
      rw [g, htaken] at this
      simp at this
    · rw [hnone] at g
      simp only [hidle] at g
      rcases g with g | ⟨-, g⟩
      · rw [List.getElem?_eq_getElem hlt] at g
        exact Option.some.inj g
      · simp at g

/-- C104. When a panic of a receiver has ended the thread: everything before the datagram in question has been dealt with
completely.  For this one some receiver has panicked; every other one has also ended (in whatever way), with all its
work up to there done, or was never called and has done nothing; and what had been done is not undone. -/
theorem C104_panic (program : Nat → Packet → Address → Act σ) (l : Listener) (queued : List Datagram) (m0 : σ)
    (w : List (SLabel σ)) (s : SharedNet σ) (h : (SharedNet.init l queued m0).run program l w = some s)
    (hs : s.net.phase = .stopped .receiverPanic) :
    ∃ prev d, queued ++ arrivals (netIn w) = prev ++ d :: s.net.queue ∧
      ∃ m1 before since left, changesIn w = before ++ since ∧
        InTurn (prev.map fun d => programsFor program l.receivers.length (received l.buffersize d)) before m0 m1 ∧
        Ran (programsFor program l.receivers.length (received l.buffersize d)) m1 since left s.shared.memory ∧
        (∃ r, r < l.receivers.length ∧ left[r]? = some .panic) ∧
        (∀ r, s.shared.running r = none) ∧
        ∀ r, r < l.receivers.length → left[r]? = some .done ∨ left[r]? = some .panic ∨
          callsOf r s.net.trace = prev.map (received l.buffersize) ∧
            left[r]? = some (program r (received l.buffersize d).1 (received l.buffersize d).2) := by
  have hinv := inv_run l queued _ _ (SharedNet.project w _ s h)
  have hC := crash_run w s h
  have hp := hinv.phase
  simp only [PhaseInv, hs] at hp
  obtain ⟨prev, p, a, g1, g2, g3, -⟩ := hp
  obtain ⟨handled, hf, htaken⟩ := hinv.fifo
  have hnone : ∀ r, s.shared.running r = none := by
    intro r
    have := hC.running r
    cases hs : s.shared.running r with
    | none => rfl
    | some x =>
      rw [hs] at this
      have h3 := g3 r
      simp at this
      omega
  have hmap := g1.symm.trans htaken
  rcases List.eq_nil_or_concat handled with rfl | ⟨before, d, rfl⟩
  · simp at hmap
  rw [List.concat_eq_append] at *
  rw [List.map_append] at hmap
  obtain ⟨rfl, e⟩ := List.append_inj' hmap rfl
  simp only [List.map_cons, List.map_nil, List.cons.injEq, and_true] at e
  refine ⟨before, d, by rw [hf]; simp, ?_⟩
  obtain ⟨m1, fs1, fs2, left, h1, h2, h3, h4, h5⟩ := hC.round _ p a g1
  rw [← e]
  rw [List.map_map] at h2
  obtain ⟨r, k1, -, -, k4⟩ := h5 (by rw [hs]; rfl)
  refine ⟨m1, fs1, fs2, left, h1, h2, h3, ⟨r, k1, k4⟩, hnone, ?_⟩
  intro r hr
  rcases g2 r hr with g | g
  · exact .inr (.inr ⟨g, (h4 r hr).1 g⟩)
  · rcases ((h4 r hr).2 g).2 (hnone r) with k | ⟨-, k⟩
    · exact .inl k
    · exact .inr (.inl k)

/-- C104. From then on the receivers do nothing to the memory: whatever happens, only others change it. -/
theorem C104_after (program : Nat → Packet → Address → Act σ) (l : Listener) (queued : List Datagram) (m0 : σ)
    (w : List (SLabel σ)) (s : SharedNet σ) (h : (SharedNet.init l queued m0).run program l w = some s) (cause : Stop)
    (hs : s.net.phase = .stopped cause) (w' : List (SLabel σ)) (s' : SharedNet σ) (h' : s.run program l w' = some s') :
    s'.shared.memory = (changesIn w').foldl (fun m f => f m) s.shared.memory ∧ s'.net.phase = .stopped cause := by
  have hinv := inv_run l queued _ _ (SharedNet.project w _ s h)
  have hC := crash_run w s h
  have hnone : ∀ r, s.shared.running r = none := by
    intro r
    have hret : (callsOf r s.net.trace).length = returnsOf r s.net.trace := by
      have hp := hinv.phase
      cases cause
      · simp only [PhaseInv, hs] at hp
        exact hp.2 r
      · simp only [PhaseInv, hs] at hp
        exact hp.2 r
      · simp only [PhaseInv, hs] at hp
        obtain ⟨-, -, -, -, -, g, -⟩ := hp
        exact g r
    have := hC.running r
    cases hs : s.shared.running r with
    | none => rfl
    | some x =>
      rw [hs] at this
      simp at this
      omega
  clear h hC hinv
  induction w' generalizing s with
  | nil =>
    simp only [SharedNet.run, Option.some.injEq] at h'
    subst h'
    exact ⟨rfl, hs⟩
  | cons e w' ih =>
    simp only [SharedNet.run] at h'
    cases he : s.step program l e with
    | none => rw [he] at h'; simp at h'
    | some s1 =>
      rw [he] at h'
      cases e with
      | touch r => simp [SharedNet.step, hnone r] at he
      | other f =>
        simp only [SharedNet.step, Option.some.injEq] at he
        subst he
        refine ih _ ?_ h' ?_
        · exact hs
        · exact hnone

      | net x =>
        simp only [SharedNet.step] at he
        cases hx : l.step s.net x with
        | none => rw [hx] at he; simp at he
        | some n =>
          cases hf : s.shared.follow program s.net.phase x with
          | none => rw [hx, hf] at he; simp at he
          | some m =>
            rw [hx, hf] at he
            simp only [Option.some.injEq] at he
            subst he
            have harr : ∃ d, x = .arrive d := by
              cases x <;> simp [Listener.step, hs] at hx ⊢
            obtain ⟨d, rfl⟩ := harr
            simp only [Listener.step, Option.some.injEq] at hx
            simp only [Shared.follow, Option.some.injEq] at hf
            subst hx hf
            refine ih ⟨{ s.net with queue := s.net.queue ++ [d], ready := true }, s.shared⟩ ?_ h' ?_
            · exact hs
            · exact hnone


theorem Ran.one {p : Act σ} {m m' : σ} {left : List (Act σ)} (h : Ran [p] m [] left m') :
    ∃ q, left = [q] ∧ q.alone m' = p.alone m ∧ q.panics m' = p.panics m := by
  generalize hps : [p] = ps at h
  generalize hfs : ([] : List (σ → σ)) = fs at h
  induction h with
  | start => exact ⟨p, hps.symm, rfl, rfl⟩
  | step i next change _ hp ih =>
    obtain ⟨q, rfl, hq, hq'⟩ := ih hfs
    cases i with
    | succ i => simp at hp
    | zero =>
      simp only [List.getElem?_cons_zero, Option.some.injEq] at hp
      subst hp
      exact ⟨next _, rfl, by rw [← hq]; rfl, by rw [← hq']; rfl⟩
  | other f _ ih => simp at hfs

theorem Mixed.one {p : Act σ} {m m' : σ} (h : Mixed [p] [] m m') : m' = p.alone m ∧ p.panics m = false := by
  generalize hps : [p] = ps at h
  generalize hfs : ([] : List (σ → σ)) = fs at h
  induction h generalizing p with
  | done hd =>
    subst hps
    have : p = .done := hd p (by simp)
    subst this
    exact ⟨rfl, rfl⟩
  | step i next change hp _ ih =>
    subst hps
    cases i with
    | succ i => simp at hp
    | zero =>
      simp only [List.getElem?_cons_zero, Option.some.injEq] at hp
      subst hp
      exact ih rfl hfs
  | other f _ ih => simp at hfs

theorem InTurn.one {program : Packet × Address → Act σ} {ds : List (Packet × Address)} {m m' : σ}
    (h : InTurn (ds.map fun d => [program d]) [] m m') : m' = ds.foldl (fun m d => (program d).alone m) m ∧
      ∀ prev d rest, ds = prev ++ d :: rest →
        (program d).panics (prev.foldl (fun m d => (program d).alone m) m) = false := by
  induction ds generalizing m with
  | nil =>
    cases h with
    | nil => exact ⟨rfl, by simp⟩
  | cons d ds ih =>
    generalize hfs : ([] : List (σ → σ)) = fs at h
    cases h with
    | cons hm ht =>
      obtain ⟨rfl, rfl⟩ := List.append_eq_nil_iff.mp hfs.symm
      obtain ⟨h1, h2⟩ := Mixed.one hm
      obtain ⟨i1, i2⟩ := ih ht
      subst h1
      refine ⟨i1, ?_⟩
      intro prev d' rest hd
      cases prev with
      | nil =>
        simp only [List.nil_append, List.cons.injEq] at hd
        rw [← hd.1]
        exact h2
      | cons x prev =>
        simp only [List.cons_append, List.cons.injEq] at hd
        obtain ⟨rfl, hd⟩ := hd
        exact i2 prev d' rest hd

/-- C104. One receiver, e.g. the one that hands messages to the registry, and nobody else using the memory: at any moment between
two messages and after the thread has ended for whatever reason, the memory is as if the receiver had been called with
one datagram after the other, each time until it returned or, with the last one, panicked.  Nothing of what it had done
before the panic is missing and nothing is undone.  It has panicked exactly when the thread has ended for that reason, and
with the last datagram only. -/
theorem C104_one (program : Nat → Packet → Address → Act σ) (l : Listener) (hl : l.receivers.length = 1)
    (queued : List Datagram) (m0 : σ) (w : List (SLabel σ)) (s : SharedNet σ)
    (h : (SharedNet.init l queued m0).run program l w = some s) (ho : changesIn w = [])
    (hs : idle s.net.phase = true ∨ ∃ cause, s.net.phase = .stopped cause) :
    let work := fun d => program 0 (received l.buffersize d).1 (received l.buffersize d).2
    let memory := fun ds => List.foldl (fun m d => (work d).alone m) m0 ds
    ∃ handled, queued ++ arrivals (netIn w) = handled ++ s.net.queue ∧ s.shared.memory = memory handled ∧
      (s.net.phase = .stopped .receiverPanic → handled ≠ []) ∧
      ∀ prev d rest, handled = prev ++ d :: rest →
        ((work d).panics (memory prev) = true ↔ rest = [] ∧ s.net.phase = .stopped .receiverPanic) := by
  intro work memory
  have hinv := inv_run l queued _ _ (SharedNet.project w _ s h)
  have hC := crash_run w s h
  obtain ⟨handled, hf, htaken⟩ := hinv.fifo
  refine ⟨handled, hf, ?_⟩
  rcases List.eq_nil_or_concat handled with rfl | ⟨prev, d, rfl⟩
  · obtain ⟨g1, g2⟩ := hC.start (by simpa using htaken)
    refine ⟨by rw [g1, ho]; rfl, ?_, by simp⟩
    intro hp
    rw [hp] at g2
    simp [broken] at g2
  rw [List.concat_eq_append] at *
  rw [List.map_append] at htaken
  obtain ⟨m1, before, since, left, h1, h2, h3, h4, h5⟩ := hC.round (prev.map (received l.buffersize))
      (received l.buffersize d).1 (received l.buffersize d).2 htaken
  rw [ho] at h1
  obtain ⟨rfl, rfl⟩ := List.append_eq_nil_iff.mp h1.symm
  rw [hl] at h2 h3
  obtain ⟨q, rfl, hq, hq'⟩ := Ran.one h3
  obtain ⟨h2', hnp⟩ := InTurn.one (program := fun d => program 0 d.1 d.2) h2
  rw [List.foldl_map] at h2'
  have hm1 : m1 = memory prev := h2'
  have hlast : memory (prev ++ [d]) = (work d).alone m1 := by
    simp only [memory, List.foldl_append, List.foldl_cons, List.foldl_nil, hm1]
  have hend : (q = .done ∧ s.net.phase ≠ .stopped .receiverPanic) ∨ (q = .panic ∧ s.net.phase = .stopped .receiverPanic) := by
    rcases Classical.em (s.net.phase = .stopped .receiverPanic) with hp | hp
    · obtain ⟨r, k1, -, -, k4⟩ := h5 (by rw [hp]; rfl)
      have hr : r = 0 := by omega
      subst hr
      exact .inr ⟨by simpa using k4, hp⟩
    · have hp' : (∀ r, r < l.receivers.length → callsOf r s.net.trace = takenIn s.net.trace) ∧
          (∀ r, (callsOf r s.net.trace).length = returnsOf r s.net.trace) := by
        have := hinv.phase
        cases hph : s.net.phase with
        | polling => simpa [PhaseInv, hph] using this
        | handling => simpa [PhaseInv, hph] using this
        | dispatch => simp [hph, idle] at hs
        | stopped c =>
          cases c with
          | receiverPanic => exact absurd hph hp
          | _ => simpa [PhaseInv, hph] using this
      have hb : broken s.net.phase = false := by
        cases hph : s.net.phase with
        | polling => rfl
        | handling => rfl
        | dispatch => simp [hph, idle] at hs
        | stopped c =>
          cases c with
          | receiverPanic => exact absurd hph hp
          | _ => rfl
      have hnone : s.shared.running 0 = none := by
        have := hC.running 0
        cases hr : s.shared.running 0 with
        | none => rfl
        | some x =>
          rw [hr] at this
          have h3 := hp'.2 0
          simp at this
          omega
      rcases ((h4 0 (by omega)).2 (by rw [hp'.1 0 (by omega), htaken]; rfl)).2 hnone with k | ⟨k, -⟩
      · exact .inl ⟨by simpa using k, hp⟩
      · rw [hb] at k
        simp at k
  refine ⟨?_, by simp, ?_⟩
  · rw [hlast]
    refine Eq.trans ?_ hq
    rcases hend with ⟨rfl, -⟩ | ⟨rfl, -⟩ <;> rfl
  · intro prev' d' rest hd
    rcases List.eq_nil_or_concat rest with rfl | ⟨rest', x, rfl⟩
    · obtain ⟨rfl, hd'⟩ := List.append_inj' hd rfl
      simp only [List.cons.injEq, and_true] at hd'
      subst hd'
      rw [← hm1]
      have : (work d).panics m1 = q.panics s.shared.memory := hq'.symm
      rw [this]
      rcases hend with ⟨rfl, k⟩ | ⟨rfl, k⟩
      · simp [Act.panics, k]
      · simp [Act.panics, k]
    · rw [List.concat_eq_append] at *
      have hd' : prev ++ [d] = (prev' ++ d' :: rest') ++ [x] := by simpa using hd
      obtain ⟨rfl, -⟩ := List.append_inj' hd' rfl
      have := hnp (prev'.map (received l.buffersize)) (received l.buffersize d') (rest'.map (received l.buffersize)) (by simp)
      rw [List.foldl_map] at this
      have this' : (work d').panics (memory prev') = false := this
      rw [this']
      simp

/-! ## Examples -/

/-- Moves one from the first account to the second, in two sections, and panics between them when nothing was there. -/
def transfer : Act (Nat × Nat) :=
  .step (fun m => if m.1 = 0 then .panic else .step (fun _ => .done) fun m => (m.1, m.2 + 1)) fun m => (m.1 - 1, m.2)

/-- Counts the message before anything else; panics when the second account has something; goes on otherwise. -/
def halfway : Act (Nat × Nat) :=
  .step (fun m => if m.2 = 0 then .step (fun _ => .done) fun m => (m.1, m.2 + 1) else .panic) fun m => (m.1 + 1, m.2)

/-- An application with two receivers, both of which may panic. -/
def twoThatPanic : Listener := ⟨[⟨fun _ _ => true, fun _ _ => []⟩, ⟨fun _ _ => true, fun _ _ => []⟩], 4⟩

/-- And with one. -/
def oneThatPanics : Listener := ⟨[⟨fun _ _ => true, fun _ _ => []⟩], 4⟩

/-- C104. Work may remain half done: two messages, both counted in the first account, but the receiver panics with the second
one before it has changed the second account; the thread ends, the third message stays in the queue, and the memory stays
as it is. -/
theorem C104_half (d1 d2 d3 : Datagram) : ∃ w s, (SharedNet.init oneThatPanics [d1, d2, d3] (0, 0)).run (fun _ _ _ => halfway)
    oneThatPanics w = some s ∧ changesIn w = [] ∧ s.net.phase = .stopped .receiverPanic ∧ s.net.queue = [d3] ∧
    s.shared.memory = (2, 1) ∧ (halfway.alone (0, 0)) = (1, 1) := by
  refine ⟨[.net .pollEvent, .net .recv, .net (.start 0), .touch 0, .touch 0, .net (.finish 0), .net .join,
    .net .pollSpurious, .net .recv, .net (.start 0), .touch 0, .net (.crash 0), .net .join], _, rfl, rfl, rfl, rfl, rfl, rfl⟩

/-- Example: two receivers at work, one of which panics while the other one is in the middle of its work, which goes on, and
something else happens to the memory; then the thread ends.  C104, C104_panic and C104_after are about such executions. -/
example (d : Datagram) : ∃ w s, (SharedNet.init twoThatPanic [] (0, 3)).run
      (fun r _ _ => if r = 0 then transfer else .step (fun _ => .done) fun m => (m.1 + 10, m.2)) twoThatPanic w = some s ∧
    changesIn w = [fun m => (m.1, m.2 + 100)] ∧ arrivals (netIn w) = [d] ∧ s.net.phase = .stopped .receiverPanic ∧
    s.shared.memory = (10, 103) := by
  refine ⟨[.net (.arrive d), .net .pollEvent, .net .recv, .net (.start 1), .net (.start 0), .touch 0,
    .other (fun m => (m.1, m.2 + 100)), .net (.crash 0), .touch 1, .net (.finish 1), .net .join], _, rfl, rfl, rfl, rfl, rfl⟩

/-! ## Cases for the theorems above -/

/-- `C104_one`: the execution of `C104_half`; the receiver panics with the second message and not with the first. -/
example (d1 d2 d3 : Datagram) (w : List (SLabel (Nat × Nat))) (s : SharedNet (Nat × Nat))
    (h : (SharedNet.init oneThatPanics [d1, d2, d3] (0, 0)).run (fun _ _ _ => halfway) oneThatPanics w = some s)
    (ho : changesIn w = []) (hs : s.net.phase = .stopped .receiverPanic) :
    ∃ handled, handled ≠ [] ∧ [d1, d2, d3] ++ arrivals (netIn w) = handled ++ s.net.queue := by
  obtain ⟨handled, h1, -, h2, -⟩ := C104_one (fun _ _ _ => halfway) oneThatPanics rfl [d1, d2, d3] (0, 0) w s h ho (.inr ⟨_, hs⟩)
  exact ⟨handled, h2 hs, h1⟩

end Ipv8
