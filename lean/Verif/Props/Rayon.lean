import Verif.Model.Rayon
import Verif.Props.Network
/-!
# Property C86: what a receiver's panic means for the others

`Model/Rayon.lean` splits the dispatch of a packet into the jobs rayon's parallel iterator makes of it.
-/

namespace Ipv8
open Spec

/-! ## Specification -/

/-- What can be seen of a step from outside of the pool, as a step of `Listener.step`. -/
def visible : RLabel → Option Label
  | .arrive d => some (.arrive d)
  | .pollEvent => some .pollEvent
  | .pollTimeout => some .pollTimeout
  | .pollSpurious => some .pollSpurious
  | .pollError => some .pollError
  | .recv => some .recv
  | .recvError => some .recvError
  | .call r _ => some (.start r)
  | .finish r _ => some (.finish r)
  | .crash r _ => some (.crash r)
  | .join => some .join
  | .split _ _ => none
  | .begin _ _ => none
  | .done _ => none

/-- The datagrams that arrive in an execution, in order. -/
def rarrivals (ls : List RLabel) : List Datagram := arrivals (ls.filterMap visible)

/-- The call of receiver `r` panicked in this execution.  (Then it did so on the packet taken last, see
`C46_panic_fatal`.) -/
def panickedIn (r : Nat) (ls : List RLabel) : Prop := ∃ hi, .crash r hi ∈ ls

/-- The thread is not in the middle of a packet: between two, or gone. -/
def RPhase.outside : RPhase → Bool
  | .scope .. => false
  | _ => true

/-- Receiver `r` was not called with all packets that were taken. -/
def missed (r : Nat) (t : List Ev) : Prop := callsOf r t ≠ takenIn t

/-- The two descriptions of the thread agree on where it is. -/
def samePlace : RPhase → Phase → Prop
  | .polling, .polling => True
  | .handling k, .handling k' => k = k'
  | .scope k p a _ panicked, .dispatch k' p' a' _ _ panicked' => k = k' ∧ p = p' ∧ a = a' ∧ panicked = panicked'
  | .stopped c, .stopped c' => c = c'
  | _, _ => False

/-! ## Simulation -/

/-- Receivers a job still has to call. -/
def Task.todo : Task → List Nat
  | .pending lo hi => List.range' lo (hi - lo)
  | .between lo hi => List.range' lo (hi - lo)
  | .inside r hi => List.range' (r + 1) (hi - (r + 1))

/-- The receiver a job is in. -/
def Task.running : Task → List Nat
  | .inside r _ => [r]
  | _ => []

/-- Refined and coarse phase. -/
def PhaseSim (C : Nat → Prop) : RPhase → Phase → Prop
  | .polling, .polling => True
  | .handling k, .handling k' => k = k'
  | .scope k p a tasks pan, .dispatch k' p' a' todo running pan' =>
    k = k' ∧ p = p' ∧ a = a' ∧ pan = pan' ∧ running.Perm (tasks.flatMap Task.running) ∧
      ∃ dropped, todo.Perm (tasks.flatMap Task.todo ++ dropped) ∧ (dropped ≠ [] → pan = true) ∧
        ∀ d ∈ dropped, ∃ q, d = q + 1 ∧ (q ∈ dropped ∨ C q)
  | .stopped c, .stopped c' => c = c'
  | _, _ => False

/-- Refined and coarse state. -/
structure Sim (l : Listener) (C : Nat → Prop) (s : RState) (n : NetState) : Prop where
  queue : s.queue = n.queue
  ready : s.ready = n.ready
  buffer : s.buffer = n.buffer
  trace : s.trace = n.trace
  phase : PhaseSim C s.phase n.phase
  missed : s.phase.outside = true → ∀ r, r < l.receivers.length → missed r s.trace →
    ∃ q, r = q + 1 ∧ (missed q s.trace ∨ C q)

theorem PhaseSim.mono {C D : Nat → Prop} (h : ∀ q, C q → D q) {x : RPhase} {y : Phase}
    (hs : PhaseSim C x y) : PhaseSim D x y := by
  cases x <;> cases y <;> simp only [PhaseSim] at hs ⊢
  · exact hs
  · obtain ⟨h1, h2, h3, h4, h5, dr, h6, h7, h8⟩ := hs
    refine ⟨h1, h2, h3, h4, h5, dr, h6, h7, fun d hd => ?_⟩
    obtain ⟨q, e, hq⟩ := h8 d hd
    exact ⟨q, e, hq.imp id (h q)⟩
  · exact hs

theorem Sim.mono {l : Listener} {C D : Nat → Prop} (h : ∀ q, C q → D q) {s : RState} {n : NetState}
    (hs : Sim l C s n) : Sim l D s n where
  queue := hs.queue
  ready := hs.ready
  buffer := hs.buffer
  trace := hs.trace
  phase := hs.phase.mono h
  missed := fun ho r hr hm => by
    obtain ⟨q, e, hq⟩ := hs.missed ho r hr hm
    exact ⟨q, e, hq.imp id (h q)⟩

/-- Taking a job out of the list. -/
theorem flatMap_take {t : Task} {ts : List Task} (h : t ∈ ts) (f : Task → List Nat) :
    (ts.flatMap f).Perm (f t ++ (ts.erase t).flatMap f) := by
  have := (List.perm_cons_erase h).flatMap_right f
  simpa using this

theorem range_cons {r hi : Nat} (h : r < hi) :
    List.range' r (hi - r) = r :: List.range' (r + 1) (hi - (r + 1)) := by
  obtain ⟨k, rfl⟩ : ∃ k, hi = r + (k + 1) := ⟨hi - r - 1, by omega⟩
  have e1 : r + (k + 1) - r = k + 1 := by omega
  have e2 : r + (k + 1) - (r + 1) = k := by omega
  rw [e1, e2, List.range'_succ]

theorem range_split {lo mid hi : Nat} (h1 : lo ≤ mid) (h2 : mid ≤ hi) :
    List.range' lo (hi - lo) = List.range' lo (mid - lo) ++ List.range' mid (hi - mid) := by
  have e : hi - lo = (mid - lo) + (hi - mid) := by omega
  rw [e, ← List.range'_append_1]
  congr 2
  omega

/-- The crash, if the label is one. -/
def crashOf (r : Nat) (x : RLabel) : Prop := ∃ hi, x = .crash r hi

/-- One step of the jobs is one step of the listening thread as `Listener.step` has it, or nothing that can be
seen. -/
theorem sim_step (l : Listener) (C : Nat → Prop) (s s' : RState) (n : NetState) (x : RLabel)
    (hs : Sim l C s n) (hi : PhaseInv l n) (h : l.rstep s x = some s') :
    ∃ n', l.run n (visible x).toList = some n' ∧ Sim l (fun q => C q ∨ crashOf q x) s' n' := by
  have hm : ∀ q, C q → C q ∨ crashOf q x := fun q => Or.inl
  obtain ⟨hq, hr, hb, ht, hp, hmi⟩ := hs
  have hmi' : s.phase.outside = true → ∀ r, r < l.receivers.length → missed r s.trace →
      ∃ q, r = q + 1 ∧ (missed q s.trace ∨ C q ∨ crashOf q x) := fun ho r hr hm => by
    obtain ⟨q, e, hq⟩ := hmi ho r hr hm
    exact ⟨q, e, hq.imp id .inl⟩
  cases x with
  | arrive d =>
    simp only [Listener.rstep, Option.some.injEq] at h
    subst h
    exact ⟨_, rfl, by simp [hq], rfl, hb, ht, hp.mono hm, hmi'⟩
  | pollEvent =>
    simp only [Listener.rstep] at h
    split at h
    · rename_i h1 h2
      cases h
      rw [h1] at hp hmi'
      cases hn : n.phase <;> simp only [hn, PhaseSim] at hp
      refine ⟨{ n with ready := false, phase := .handling 1 }, ?_, hq, rfl, hb, ht, rfl, fun _ => hmi' rfl⟩
      simp [visible, Listener.run, Listener.step, hn, ← hr, h2]
    · cases h
  | pollTimeout =>
    simp only [Listener.rstep] at h
    split at h
    · rename_i h1
      cases h
      have hp' := hp
      rw [h1] at hp
      cases hn : n.phase <;> simp only [hn, PhaseSim] at hp
      refine ⟨n, ?_, hq, hr, hb, ht, hp'.mono hm, hmi'⟩
      simp [visible, Listener.run, Listener.step, hn]
    · cases h
  | pollSpurious =>
    simp only [Listener.rstep] at h
    split at h
    · rename_i h1
      cases h
      rw [h1] at hp hmi'
      cases hn : n.phase <;> simp only [hn, PhaseSim] at hp
      refine ⟨{ n with phase := .handling 1 }, ?_, hq, hr, hb, ht, rfl, fun _ => hmi' rfl⟩
      simp [visible, Listener.run, Listener.step, hn]
    · cases h
  | pollError =>
    simp only [Listener.rstep] at h
    split at h
    · rename_i h1
      cases h
      rw [h1] at hp hmi'
      cases hn : n.phase <;> simp only [hn, PhaseSim] at hp
      refine ⟨{ n with phase := .stopped .pollError }, ?_, hq, hr, hb, ht, rfl, fun _ => hmi' rfl⟩
      simp [visible, Listener.run, Listener.step, hn]
    · cases h
  | recvError =>
    simp only [Listener.rstep] at h
    split at h
    · rename_i h1
      cases h
      rw [h1] at hp hmi'
      cases hn : n.phase <;> simp only [hn, PhaseSim] at hp
      subst hp
      refine ⟨{ n with phase := .stopped .recvError }, ?_, hq, hr, hb, ht, rfl, fun _ => hmi' rfl⟩
      simp [visible, Listener.run, Listener.step, hn]
    · cases h
  | recv =>
    simp only [Listener.rstep] at h
    split at h
    · rename_i k h1
      rw [h1] at hp hmi'
      cases hn : n.phase <;> simp only [hn, PhaseSim] at hp
      subst hp
      split at h
      · rename_i h2
        cases h
        refine ⟨{ n with phase := .stopped .recvError }, ?_, by simp [h2, ← hq], hr, hb, ht, rfl, fun _ => hmi' rfl⟩
        simp [visible, Listener.run, Listener.step, hn, ← hq, h2]
      · rename_i d q h2
        simp only [Option.some.injEq] at h
        subst h
        refine ⟨{ n with
          queue := q
          buffer := (recvInto n.buffer d.bytes).2
          phase := .dispatch k ⟨(recvInto n.buffer d.bytes).2.take (recvInto n.buffer d.bytes).1⟩ ⟨d.source⟩
            (List.range l.receivers.length) [] false
          trace := n.trace ++ [.taken ⟨(recvInto n.buffer d.bytes).2.take (recvInto n.buffer d.bytes).1⟩
            ⟨d.source⟩] }, ?_, rfl, hr, by simp [hb], by simp [hb, ht], ?_, fun ho => by simp [RPhase.outside] at ho⟩
        · simp [visible, Listener.run, Listener.step, hn, ← hq, h2]
        · simp only [PhaseSim, hb, true_and]
          refine ⟨by simp [Task.running], [], by simp [Task.todo, List.range_eq_range'], by simp, by simp⟩
    · cases h
  | split lo hi =>
    simp only [Listener.rstep] at h
    split at h
    · rename_i k p a tasks pan h1
      rw [h1] at hp
      split at h
      · rename_i h2
        simp only [Option.some.injEq] at h
        subst h
        cases hn : n.phase <;> simp only [hn, PhaseSim] at hp
        obtain ⟨rfl, rfl, rfl, rfl, h5, dr, h6, h7, h8⟩ := hp
        refine ⟨n, rfl, hq, hr, hb, ht, ?_, fun ho => by simp [RPhase.outside] at ho⟩
        simp only [hn, PhaseSim, true_and]
        refine ⟨h5.trans ((flatMap_take h2.1 _).trans (by simp [Task.running])), dr, h6.trans ?_, h7,
          fun d hd => ?_⟩
        · refine List.Perm.append_right _ ((flatMap_take h2.1 _).trans ?_)
          simp only [Task.todo, List.flatMap_cons]
          rw [range_split (lo := lo) (mid := lo + (hi - lo) / 2) (by omega) (by omega)]
          rw [List.append_assoc]
        · obtain ⟨q, e, hq⟩ := h8 d hd
          exact ⟨q, e, hq.imp id .inl⟩
      · cases h
    · cases h
  | begin lo hi =>
    simp only [Listener.rstep] at h
    split at h
    · rename_i k p a tasks pan h1
      rw [h1] at hp
      split at h
      · rename_i h2
        simp only [Option.some.injEq] at h
        subst h
        cases hn : n.phase <;> simp only [hn, PhaseSim] at hp
        obtain ⟨rfl, rfl, rfl, rfl, h5, dr, h6, h7, h8⟩ := hp
        refine ⟨n, rfl, hq, hr, hb, ht, ?_, fun ho => by simp [RPhase.outside] at ho⟩
        simp only [hn, PhaseSim, true_and]
        refine ⟨h5.trans ((flatMap_take h2 _).trans (by simp [Task.running])), dr, h6.trans ?_, h7,
          fun d hd => ?_⟩
        · exact List.Perm.append_right _ ((flatMap_take h2 _).trans (by simp [Task.todo]))
        · obtain ⟨q, e, hq⟩ := h8 d hd
          exact ⟨q, e, hq.imp id .inl⟩
      · cases h
    · cases h
  | done hi =>
    simp only [Listener.rstep] at h
    split at h
    · rename_i k p a tasks pan h1
      rw [h1] at hp
      split at h
      · rename_i h2
        simp only [Option.some.injEq] at h
        subst h
        cases hn : n.phase <;> simp only [hn, PhaseSim] at hp
        obtain ⟨rfl, rfl, rfl, rfl, h5, dr, h6, h7, h8⟩ := hp
        refine ⟨n, rfl, hq, hr, hb, ht, ?_, fun ho => by simp [RPhase.outside] at ho⟩
        simp only [hn, PhaseSim, true_and]
        refine ⟨h5.trans ((flatMap_take h2 _).trans (by simp [Task.running])), dr, h6.trans ?_, h7,
          fun d hd => ?_⟩
        · exact List.Perm.append_right _ ((flatMap_take h2 _).trans (by simp [Task.todo]))
        · obtain ⟨q, e, hq⟩ := h8 d hd
          exact ⟨q, e, hq.imp id .inl⟩
      · cases h
    · cases h
  | call r hi =>
    simp only [Listener.rstep] at h
    split at h
    · rename_i k p a tasks pan h1
      rw [h1] at hp
      split at h
      · rename_i h2
        simp only [Option.some.injEq] at h
        subst h
        cases hn : n.phase with
        | polling => simp only [hn, PhaseSim] at hp
        | handling => simp only [hn, PhaseSim] at hp
        | stopped => simp only [hn, PhaseSim] at hp
        | dispatch k' p' a' todo running pan' =>
        simp only [hn, PhaseSim] at hp
        obtain ⟨rfl, rfl, rfl, rfl, h5, dr, h6, h7, h8⟩ := hp
        have htodo := flatMap_take h2.1 Task.todo
        simp only [Task.todo] at htodo
        rw [range_cons h2.2] at htodo
        have h6' : todo.Perm (r :: (List.range' (r + 1) (hi - (r + 1)) ++
            (tasks.erase (.between r hi)).flatMap Task.todo ++ dr)) :=
          h6.trans (List.Perm.append_right dr htodo)
        have hmem : r ∈ todo := h6'.mem_iff.mpr (by simp)
        refine ⟨{ n with
          phase := .dispatch k p a (todo.erase r) (r :: running) pan
          trace := n.trace ++ [.call r p a] }, ?_, hq, hr, hb, by simp [ht], ?_,
          fun ho => by simp [RPhase.outside] at ho⟩
        · simp [visible, Listener.run, Listener.step, hn, hmem]
        simp only [PhaseSim, true_and]
        refine ⟨?_, dr, ?_, h7, fun d hd => ?_⟩
        · have := flatMap_take h2.1 Task.running
          simp only [List.flatMap_cons, Task.running, List.nil_append, List.singleton_append] at this ⊢
          exact (h5.trans this).cons _
        · have := h6'.erase r
          rw [List.erase_cons_head] at this
          exact this
        · obtain ⟨q, e, hq⟩ := h8 d hd
          exact ⟨q, e, hq.imp id .inl⟩
      · cases h
    · cases h
  | finish r hi =>
    simp only [Listener.rstep] at h
    split at h
    · rename_i k p a tasks pan h1
      rw [h1] at hp
      split at h
      · rename_i h2
        simp only [Option.some.injEq] at h
        subst h
        cases hn : n.phase with
        | polling => simp only [hn, PhaseSim] at hp
        | handling => simp only [hn, PhaseSim] at hp
        | stopped => simp only [hn, PhaseSim] at hp
        | dispatch k' p' a' todo running pan' =>
        simp only [hn, PhaseSim] at hp
        obtain ⟨rfl, rfl, rfl, rfl, h5, dr, h6, h7, h8⟩ := hp
        have h5' := h5.trans (flatMap_take h2 Task.running)
        simp only [Task.running, List.singleton_append] at h5'
        have hmem : r ∈ running := h5'.mem_iff.mpr (by simp)
        refine ⟨{ n with
          phase := .dispatch k p a todo (running.erase r) pan
          trace := n.trace ++ [.ret r] }, ?_, hq, hr, hb, by simp [ht], ?_,
          fun ho => by simp [RPhase.outside] at ho⟩
        · simp [visible, Listener.run, Listener.step, hn, hmem]
        simp only [PhaseSim, true_and]
        refine ⟨?_, dr, h6.trans ?_, h7, fun d hd => ?_⟩
        · have := h5'.erase r
          rw [List.erase_cons_head] at this
          exact this
        · exact List.Perm.append_right _ ((flatMap_take h2 _).trans (by simp [Task.todo]))
        · obtain ⟨q, e, hq⟩ := h8 d hd
          exact ⟨q, e, hq.imp id .inl⟩
      · cases h
    · cases h
  | crash r hi =>
    simp only [Listener.rstep] at h
    split at h
    · rename_i k p a tasks pan h1
      rw [h1] at hp
      split at h
      · rename_i h2
        simp only [Option.some.injEq] at h
        subst h
        cases hn : n.phase with
        | polling => simp only [hn, PhaseSim] at hp
        | handling => simp only [hn, PhaseSim] at hp
        | stopped => simp only [hn, PhaseSim] at hp
        | dispatch k' p' a' todo running pan' =>
        simp only [hn, PhaseSim] at hp
        obtain ⟨rfl, rfl, rfl, rfl, h5, dr, h6, h7, h8⟩ := hp
        have h5' := h5.trans (flatMap_take h2.1 Task.running)
        simp only [Task.running, List.singleton_append] at h5'
        have hmem : r ∈ running := h5'.mem_iff.mpr (by simp)
        refine ⟨{ n with
          phase := .dispatch k p a todo (running.erase r) true
          trace := n.trace ++ [.ret r] }, ?_, hq, hr, hb, by simp [ht], ?_,
          fun ho => by simp [RPhase.outside] at ho⟩
        · simp [visible, Listener.run, Listener.step, hn, hmem, h2.2]
        simp only [PhaseSim, true_and]
        refine ⟨?_, List.range' (r + 1) (hi - (r + 1)) ++ dr, h6.trans ?_, by simp, fun d hd => ?_⟩
        · have := h5'.erase r
          rw [List.erase_cons_head] at this
          exact this
        · have := List.Perm.append_right dr (flatMap_take h2.1 Task.todo)
          refine this.trans ?_
          simp only [Task.todo]
          rw [← List.append_assoc]
          exact List.Perm.append_right dr List.perm_append_comm
        · rcases List.mem_append.mp hd with hd | hd
          · rw [List.mem_range'_1] at hd
            obtain ⟨q, rfl⟩ : ∃ q, d = q + 1 := ⟨d - 1, by omega⟩
            refine ⟨q, rfl, ?_⟩
            by_cases hqr : q = r
            · exact .inr (.inr ⟨hi, by rw [hqr]⟩)
            · refine .inl (List.mem_append_left _ ?_)
              rw [List.mem_range'_1]
              omega
          · obtain ⟨q, e, hq⟩ := h8 d hd
            exact ⟨q, e, hq.imp (List.mem_append_right _) .inl⟩
      · cases h
    · cases h
  | join =>
    simp only [Listener.rstep] at h
    split at h
    · rename_i k p a pan h1
      rw [h1] at hp
      simp only [Option.some.injEq] at h
      subst h
      cases hn : n.phase with
      | polling => simp only [hn, PhaseSim] at hp
      | handling => simp only [hn, PhaseSim] at hp
      | stopped => simp only [hn, PhaseSim] at hp
      | dispatch k' p' a' todo running pan' =>
      simp only [hn, PhaseSim] at hp
      obtain ⟨rfl, rfl, rfl, rfl, h5, dr, h6, h7, h8⟩ := hp
      simp only [List.flatMap_nil, List.nil_append, List.perm_nil] at h5 h6
      subst h5
      simp only [PhaseInv, hn] at hi
      obtain ⟨prev, i1, _, _, _, _, i6, _, _⟩ := hi
      have hcalls : ∀ r, r < l.receivers.length → (missed r n.trace ↔ r ∈ dr) := by
        intro r hr
        unfold missed
        rw [i6 r hr, i1]
        by_cases hm : r ∈ todo
        · simp [hm, h6.mem_iff.mp hm]
        · have : r ∉ dr := fun hc => hm (h6.mem_iff.mpr hc)
          simp [hm, this]
      have hmiss : ∀ r, r < l.receivers.length → missed r s.trace →
          ∃ q, r = q + 1 ∧ (missed q s.trace ∨ C q ∨ crashOf q .join) := by
        intro r hr hm
        rw [ht] at hm ⊢
        obtain ⟨q, e, hq⟩ := h8 r ((hcalls r hr).mp hm)
        exact ⟨q, e, hq.imp (hcalls q (by omega)).mpr .inl⟩
      refine ⟨{ n with phase := if pan then .stopped .receiverPanic else afterEvent k }, ?_, hq, hr, hb, ht, ?_,
        fun _ => hmiss⟩
      · have : todo = [] ∨ pan = true := by
          cases hdr : dr with
          | nil => rw [hdr] at h6; exact .inl h6.eq_nil
          | cons d ds => exact .inr (h7 (by rw [hdr]; simp))
        simp [visible, Listener.run, Listener.step, hn, this]
      · cases pan with
        | true => simp [PhaseSim]
        | false =>
          simp only [rafterEvent, afterEvent, Bool.false_eq_true, if_false]
          by_cases hk : k = 0 <;> simp [hk, PhaseSim]
    · cases h

theorem sim_init (l : Listener) (queued : List Datagram) :
    Sim l (fun _ => False) (l.rinit queued) (l.init queued) where
  queue := rfl
  ready := rfl
  buffer := rfl
  trace := rfl
  phase := trivial
  missed := fun _ _ _ hm => absurd rfl hm

theorem sim_run (l : Listener) (queued : List Datagram) (ls : List RLabel) :
    ∀ (C : Nat → Prop) (past : List Label) (s s' : RState) (n : NetState), Sim l C s n →
      l.run (l.init queued) past = some n → l.rrun s ls = some s' →
      ∃ n', l.run (l.init queued) (past ++ ls.filterMap visible) = some n' ∧
        Sim l (fun q => C q ∨ panickedIn q ls) s' n' := by
  induction ls with
  | nil =>
    intro C past s s' n hs hp h
    simp only [Listener.rrun, Option.some.injEq] at h
    subst h
    exact ⟨n, by simpa using hp, hs.mono fun q => .inl⟩
  | cons x xs ih =>
    intro C past s s' n hs hp h
    simp only [Listener.rrun] at h
    cases hx : l.rstep s x with
    | none => rw [hx] at h; cases h
    | some m =>
      rw [hx] at h
      obtain ⟨n1, h1, h2⟩ := sim_step l C s m n x hs (inv_run l queued past n hp).phase hx
      have h3 : l.run (l.init queued) (past ++ (visible x).toList) = some n1 := by
        rw [run_append, hp]; exact h1
      obtain ⟨n2, h4, h5⟩ := ih _ _ m s' n1 h2 h3 h
      refine ⟨n2, ?_, h5.mono ?_⟩
      · rw [List.append_assoc] at h4
        cases hv : visible x <;> simpa [hv] using h4
      · rintro q ((hc | ⟨hi, rfl⟩) | ⟨hi, hm⟩)
        · exact .inl hc
        · exact .inr ⟨hi, by simp⟩
        · exact .inr ⟨hi, List.mem_cons_of_mem _ hm⟩

theorem PhaseSim.samePlace {C : Nat → Prop} {x : RPhase} {y : Phase} (h : PhaseSim C x y) : samePlace x y := by
  cases x <;> cases y <;> simp only [PhaseSim] at h <;> simp only [Ipv8.samePlace]
  · exact h
  · exact ⟨h.1, h.2.1, h.2.2.1, h.2.2.2.1⟩
  · exact h

/-- C86. Whatever the jobs of the pool do looks from outside like an execution of `Listener.step`: with the same
arrivals, failures, calls, returns and panics in the same order, and the same state in the end.  So everything
proved about those holds of these. -/
theorem C86_refines (l : Listener) (queued : List Datagram) (ls : List RLabel) (s : RState)
    (h : l.rrun (l.rinit queued) ls = some s) :
    ∃ n, l.run (l.init queued) (ls.filterMap visible) = some n ∧ s.queue = n.queue ∧ s.ready = n.ready ∧
      s.buffer = n.buffer ∧ s.trace = n.trace ∧ samePlace s.phase n.phase := by
  obtain ⟨n, h1, h2⟩ := sim_run l queued ls _ [] _ s _ (sim_init l queued) rfl h
  exact ⟨n, by simpa using h1, h2.queue, h2.ready, h2.buffer, h2.trace, h2.phase.samePlace⟩

/-- C86. If a receiver was left out when a packet was handed over, then the one that was registered just before
it was left out as well, or panicked on this packet. -/
theorem C86 (l : Listener) (queued : List Datagram) (ls : List RLabel) (s : RState)
    (h : l.rrun (l.rinit queued) ls = some s) (ho : s.phase.outside = true) (r : Nat)
    (hr : r < l.receivers.length) (hm : missed r s.trace) :
    ∃ q, r = q + 1 ∧ (missed q s.trace ∨ panickedIn q ls) := by
  obtain ⟨n, h1, h2⟩ := sim_run l queued ls _ [] _ s _ (sim_init l queued) rfl h
  obtain ⟨q, e, hq⟩ := h2.missed ho r hr hm
  exact ⟨q, e, hq.imp id (fun h => h.resolve_left id)⟩

/-- C86. So a receiver's panic harms only those behind it: whoever was left out has a receiver in front of it
that panicked. -/
theorem C86_earlier (l : Listener) (queued : List Datagram) (ls : List RLabel) (s : RState)
    (h : l.rrun (l.rinit queued) ls = some s) (ho : s.phase.outside = true) (r : Nat)
    (hr : r < l.receivers.length) (hm : missed r s.trace) : ∃ q, q < r ∧ panickedIn q ls := by
  induction r with
  | zero => obtain ⟨q, e, _⟩ := C86 l queued ls s h ho 0 hr hm; omega
  | succ r ih =>
    obtain ⟨q, e, hq⟩ := C86 l queued ls s h ho (r + 1) hr hm
    obtain rfl : r = q := by omega
    rcases hq with hq | hq
    · obtain ⟨q', h1, h2⟩ := ih (by omega) hq
      exact ⟨q', by omega, h2⟩
    · exact ⟨r, by omega, hq⟩

/-- C86. A receiver in front of which nobody panics, in particular the first one, is called with every packet
that is taken out of the socket, whatever the others do: whenever the thread is between two packets or gone, it
has seen all of them. -/
theorem C86_first (l : Listener) (queued : List Datagram) (ls : List RLabel) (s : RState)
    (h : l.rrun (l.rinit queued) ls = some s) (ho : s.phase.outside = true) (r : Nat)
    (hr : r < l.receivers.length) (hf : ∀ q, q < r → ¬ panickedIn q ls) :
    callsOf r s.trace = takenIn s.trace := by
  by_cases hm : missed r s.trace
  · obtain ⟨q, h1, h2⟩ := C86_earlier l queued ls s h ho r hr hm
    exact absurd h2 (hf q h1)
  · exact Classical.not_not.mp hm

/-! ## The other direction -/

/-- Jobs in which every receiver has its own range. -/
structure FullSim (s : RState) (n : NetState) : Prop where
  queue : s.queue = n.queue
  ready : s.ready = n.ready
  buffer : s.buffer = n.buffer
  trace : s.trace = n.trace
  phase : match s.phase, n.phase with
    | .polling, .polling => True
    | .handling k, .handling k' => k = k'
    | .scope k p a tasks pan, .dispatch k' p' a' todo running pan' =>
      k = k' ∧ p = p' ∧ a = a' ∧ pan = pan' ∧
        tasks.Perm (todo.map (fun r => .between r (r + 1)) ++ running.map (fun r => .inside r (r + 1)))
    | .stopped c, .stopped c' => c = c'
    | _, _ => False

theorem rrun_append (l : Listener) (s : RState) (a b : List RLabel) :
    l.rrun s (a ++ b) = (l.rrun s a).bind (fun s' => l.rrun s' b) := by
  induction a generalizing s with
  | nil => rfl
  | cons x a ih =>
    simp only [List.cons_append, Listener.rrun]
    cases l.rstep s x with
    | none => rfl
    | some s' => exact ih s'

/-- A job can be halved until every receiver has its own. -/
theorem split_all (l : Listener) (k : Nat) (p : Packet) (a : Address) (pan : Bool) (w : Nat) :
    ∀ (lo hi : Nat) (s : RState) (tasks : List Task), hi - lo ≤ w → lo < hi →
      s.phase = .scope k p a tasks pan → .pending lo hi ∈ tasks →
      ∃ ls tasks', l.rrun s ls = some { s with phase := .scope k p a tasks' pan } ∧
        ls.filterMap visible = [] ∧
        tasks'.Perm ((List.range' lo (hi - lo)).map (fun r => Task.between r (r + 1)) ++
          tasks.erase (.pending lo hi)) := by
  induction w with
  | zero => intro lo hi s tasks h1 h2; omega
  | succ w ih =>
    intro lo hi s tasks hw hlt hp hm
    by_cases h2 : lo + 2 ≤ hi
    · let mid := lo + (hi - lo) / 2
      have hmid : lo < mid ∧ mid < hi := by simp only [mid]; omega
      let t1 := Task.pending lo mid :: Task.pending mid hi :: tasks.erase (.pending lo hi)
      have hs : l.rstep s (.split lo hi) = some { s with phase := .scope k p a t1 pan } := by
        simp [Listener.rstep, hp, hm, h2, t1, mid]
      obtain ⟨l1, u1, r1, v1, p1⟩ := ih lo mid { s with phase := .scope k p a t1 pan } t1
        (by omega) hmid.1 rfl (by simp [t1])
      have e1 : t1.erase (.pending lo mid) = Task.pending mid hi :: tasks.erase (.pending lo hi) := by
        simp [t1]
      rw [e1] at p1
      obtain ⟨l2, u2, r2, v2, p2⟩ := ih mid hi { s with phase := .scope k p a u1 pan } u1
        (by omega) hmid.2 rfl (p1.mem_iff.mpr (by simp))
      refine ⟨.split lo hi :: (l1 ++ l2), u2, ?_, ?_, p2.trans ?_⟩
      · simp only [Listener.rrun, hs, rrun_append, r1, Option.bind_some]
        exact r2
      · simp only [List.filterMap_cons, visible, List.filterMap_append, v1, v2, List.append_nil]
      · rw [range_split (Nat.le_of_lt hmid.1) (Nat.le_of_lt hmid.2), List.map_append, List.append_assoc]
        have p3 := p1.erase (.pending mid hi)
        refine (List.Perm.append_left _ p3).trans ?_
        have e2 : (List.map (fun r => Task.between r (r + 1)) (List.range' lo (mid - lo)) ++
            Task.pending mid hi :: tasks.erase (.pending lo hi)).erase (.pending mid hi) =
            List.map (fun r => Task.between r (r + 1)) (List.range' lo (mid - lo)) ++
              tasks.erase (.pending lo hi) := by
          rw [List.erase_append_right _ (by simp)]
          simp
        rw [e2, ← List.append_assoc, ← List.append_assoc]
        exact List.Perm.append_right _ List.perm_append_comm
    · obtain rfl : hi = lo + 1 := by omega
      refine ⟨[.begin lo (lo + 1)], .between lo (lo + 1) :: tasks.erase (.pending lo (lo + 1)), ?_, rfl, ?_⟩
      · simp [Listener.rrun, Listener.rstep, hp, hm]
      · simp

/-- The pool can do what `Listener.step` does, unless that leaves somebody out. -/
theorem full_step (l : Listener) (s : RState) (n n' : NetState) (x : Label) (hs : FullSim s n)
    (h : l.step n x = some n')
    (hj : ∀ k p a todo running pan, x = .join → n.phase = .dispatch k p a todo running pan → todo = []) :
    ∃ ls s', l.rrun s ls = some s' ∧ ls.filterMap visible = [x] ∧ FullSim s' n' := by
  obtain ⟨hq, hr, hb, ht, hp⟩ := hs
  cases x with
  | arrive d =>
    simp only [Listener.step, Option.some.injEq] at h
    subst h
    exact ⟨[.arrive d], { s with queue := s.queue ++ [d], ready := true }, by simp [Listener.rrun, Listener.rstep],
      rfl, by simp [hq], rfl, hb, ht, hp⟩
  | pollEvent =>
    simp only [Listener.step] at h
    split at h
    · rename_i h1 h2
      cases h
      rw [h1] at hp
      cases hn : s.phase <;> simp only [hn] at hp
      exact ⟨[.pollEvent], { s with ready := false, phase := .handling 1 },
        by simp [Listener.rrun, Listener.rstep, hn, hr, h2], rfl, hq, rfl, hb, ht, rfl⟩
    · cases h
  | pollTimeout =>
    simp only [Listener.step] at h
    split at h
    · rename_i h1
      cases h
      have hp' := hp
      rw [h1] at hp
      cases hn : s.phase <;> simp only [hn] at hp
      exact ⟨[.pollTimeout], s, by simp [Listener.rrun, Listener.rstep, hn], rfl, hq, hr, hb, ht, hp'⟩
    · cases h
  | pollSpurious =>
    simp only [Listener.step] at h
    split at h
    · rename_i h1
      cases h
      rw [h1] at hp
      cases hn : s.phase <;> simp only [hn] at hp
      exact ⟨[.pollSpurious], { s with phase := .handling 1 },
        by simp [Listener.rrun, Listener.rstep, hn], rfl, hq, hr, hb, ht, rfl⟩
    · cases h
  | pollError =>
    simp only [Listener.step] at h
    split at h
    · rename_i h1
      cases h
      rw [h1] at hp
      cases hn : s.phase <;> simp only [hn] at hp
      exact ⟨[.pollError], { s with phase := .stopped .pollError },
        by simp [Listener.rrun, Listener.rstep, hn], rfl, hq, hr, hb, ht, rfl⟩
    · cases h
  | recvError =>
    simp only [Listener.step] at h
    split at h
    · rename_i h1
      cases h
      rw [h1] at hp
      cases hn : s.phase <;> simp only [hn] at hp
      exact ⟨[.recvError], { s with phase := .stopped .recvError },
        by simp [Listener.rrun, Listener.rstep, hn, hp], rfl, hq, hr, hb, ht, rfl⟩
    · cases h
  | recv =>
    simp only [Listener.step] at h
    split at h
    · rename_i k h1
      rw [h1] at hp
      cases hn : s.phase <;> simp only [hn] at hp
      subst hp
      split at h
      · rename_i h2
        cases h
        exact ⟨[.recv], { s with phase := .stopped .recvError },
          by simp [Listener.rrun, Listener.rstep, hn, hq, h2], rfl, by simp [hq, h2], hr, hb, ht, rfl⟩
      · rename_i d q h2
        simp only [Option.some.injEq] at h
        subst h
        let pk : Packet := ⟨(recvInto n.buffer d.bytes).2.take (recvInto n.buffer d.bytes).1⟩
        let s1 : RState := { s with
          queue := q
          buffer := (recvInto n.buffer d.bytes).2
          phase := .scope k pk ⟨d.source⟩ [.pending 0 l.receivers.length] false
          trace := n.trace ++ [.taken pk ⟨d.source⟩] }
        have h3 : l.rstep s .recv = some s1 := by
          simp [Listener.rstep, hn, hq, h2, hb, ht, s1, pk]
        have h4 : ∃ ls tasks', l.rrun s1 ls = some { s1 with phase := .scope k pk ⟨d.source⟩ tasks' false } ∧
            ls.filterMap visible = [] ∧
            tasks'.Perm ((List.range l.receivers.length).map (fun r => Task.between r (r + 1))) := by
          by_cases h0 : 0 < l.receivers.length
          · obtain ⟨ls, ts, r1, r2, r3⟩ := split_all l k pk ⟨d.source⟩ false l.receivers.length 0 _ s1 _
              (by omega) h0 rfl (by simp)
            refine ⟨ls, ts, r1, r2, ?_⟩
            simpa [List.range_eq_range'] using r3
          · have h0 : l.receivers.length = 0 := by omega
            refine ⟨[.begin 0 0, .done 0], [], ?_, rfl, ?_⟩
            · simp [Listener.rrun, Listener.rstep, s1, h0]
            · simp [h0]
        obtain ⟨ls, ts, r1, r2, r3⟩ := h4
        refine ⟨.recv :: ls, { s1 with phase := .scope k pk ⟨d.source⟩ ts false }, ?_, ?_, rfl, hr, rfl, rfl, ?_⟩
        · simp only [Listener.rrun, h3, r1]
        · simp only [List.filterMap_cons, visible, r2]
        · simp only [true_and, pk, List.map_nil, List.append_nil]
          exact r3
    · cases h
  | start r =>
    simp only [Listener.step] at h
    split at h
    · rename_i k p a todo running pan h1
      rw [h1] at hp
      split at h
      · rename_i h2
        simp only [Option.some.injEq] at h
        subst h
        cases hn : s.phase with
        | polling => simp only [hn] at hp
        | handling => simp only [hn] at hp
        | stopped => simp only [hn] at hp
        | scope k' p' a' tasks pan' =>
        simp only [hn] at hp
        obtain ⟨rfl, rfl, rfl, rfl, h5⟩ := hp
        have hmem : Task.between r (r + 1) ∈ tasks := h5.mem_iff.mpr (by simp [h2])
        refine ⟨[.call r (r + 1)], { s with
          phase := .scope k' p' a' (.inside r (r + 1) :: tasks.erase (.between r (r + 1))) pan'
          trace := s.trace ++ [.call r p' a'] }, ?_, rfl, hq, hr, hb, by simp [ht], ?_⟩
        · simp [Listener.rrun, Listener.rstep, hn, hmem]
        · simp only [true_and, List.map_cons]
          refine List.Perm.trans ?_ List.perm_middle.symm
          refine List.Perm.cons _ ((h5.erase _).trans ?_)
          rw [List.erase_append_left _ (by simp [h2])]
          refine List.Perm.append_right _ ?_
          have := ((List.perm_cons_erase h2).map (fun r => Task.between r (r + 1))).erase (Task.between r (r + 1))
          simpa using this
      · cases h
    · cases h
  | finish r =>
    simp only [Listener.step] at h
    split at h
    · rename_i k p a todo running pan h1
      rw [h1] at hp
      split at h
      · rename_i h2
        simp only [Option.some.injEq] at h
        subst h
        cases hn : s.phase with
        | polling => simp only [hn] at hp
        | handling => simp only [hn] at hp
        | stopped => simp only [hn] at hp
        | scope k' p' a' tasks pan' =>
        simp only [hn] at hp
        obtain ⟨rfl, rfl, rfl, rfl, h5⟩ := hp
        have hmem : Task.inside r (r + 1) ∈ tasks := h5.mem_iff.mpr (by simp [h2])
        refine ⟨[.finish r (r + 1), .done (r + 1)], { s with
          phase := .scope k' p' a' (tasks.erase (.inside r (r + 1))) pan'
          trace := s.trace ++ [.ret r] }, ?_, rfl, hq, hr, hb, by simp [ht], ?_⟩
        · simp [Listener.rrun, Listener.rstep, hn, hmem]
        · simp only [true_and]
          refine (h5.erase _).trans ?_
          rw [List.erase_append_right _ (by simp)]
          refine List.Perm.append_left _ ?_
          have := ((List.perm_cons_erase h2).map (fun r => Task.inside r (r + 1))).erase (Task.inside r (r + 1))
          simpa using this
      · cases h
    · cases h
  | crash r =>
    simp only [Listener.step] at h
    split at h
    · rename_i k p a todo running pan h1
      rw [h1] at hp
      split at h
      · rename_i h2
        simp only [Option.some.injEq] at h
        subst h
        cases hn : s.phase with
        | polling => simp only [hn] at hp
        | handling => simp only [hn] at hp
        | stopped => simp only [hn] at hp
        | scope k' p' a' tasks pan' =>
        simp only [hn] at hp
        obtain ⟨rfl, rfl, rfl, rfl, h5⟩ := hp
        have hmem : Task.inside r (r + 1) ∈ tasks := h5.mem_iff.mpr (by simp [h2.1])
        refine ⟨[.crash r (r + 1)], { s with
          phase := .scope k' p' a' (tasks.erase (.inside r (r + 1))) true
          trace := s.trace ++ [.ret r] }, ?_, rfl, hq, hr, hb, by simp [ht], ?_⟩
        · simp [Listener.rrun, Listener.rstep, hn, hmem, h2.2]
        · simp only [true_and]
          refine (h5.erase _).trans ?_
          rw [List.erase_append_right _ (by simp)]
          refine List.Perm.append_left _ ?_
          have := ((List.perm_cons_erase h2.1).map (fun r => Task.inside r (r + 1))).erase (Task.inside r (r + 1))
          simpa using this
      · cases h
    · cases h
  | join =>
    simp only [Listener.step] at h
    split at h
    · rename_i k p a todo running pan h1
      rw [h1] at hp
      split at h
      · rename_i h2
        simp only [Option.some.injEq] at h
        subst h
        cases hn : s.phase with
        | polling => simp only [hn] at hp
        | handling => simp only [hn] at hp
        | stopped => simp only [hn] at hp
        | scope k' p' a' tasks pan' =>
        simp only [hn] at hp
        obtain ⟨rfl, rfl, rfl, rfl, h5⟩ := hp
        rw [hj _ _ _ _ _ _ rfl h1, h2.1] at h5
        simp only [List.map_nil, List.append_nil, List.perm_nil] at h5
        subst h5
        refine ⟨[.join], { s with phase := if pan' then .stopped .receiverPanic else rafterEvent k' },
          by simp [Listener.rrun, Listener.rstep, hn], rfl, hq, hr, hb, ht, ?_⟩
        cases pan' with
        | true => simp
        | false =>
          simp only [rafterEvent, afterEvent, Bool.false_eq_true, if_false]
          by_cases hk : k' = 0 <;> simp [hk]
      · cases h
    · cases h

/-- After the thread ended, only arrivals happen. -/
theorem dead_run (l : Listener) (ls : List Label) : ∀ (n n' : NetState), dead n.phase = true →
    l.run n ls = some n' → n'.phase = n.phase ∧ n'.trace = n.trace := by
  induction ls with
  | nil => intro n n' _ h; simp only [Listener.run, Option.some.injEq] at h; subst h; exact ⟨rfl, rfl⟩
  | cons x xs ih =>
    intro n n' hd h
    simp only [Listener.run] at h
    cases hx : l.step n x with
    | none => rw [hx] at h; cases h
    | some m =>
      rw [hx] at h
      obtain ⟨h1, h2⟩ := C46_final l n m x hd hx
      obtain ⟨h3, h4⟩ := ih m n' (by rw [h1]; exact hd) h
      exact ⟨h3.trans h1, h4.trans h2⟩

theorem full_run (l : Listener) (queued : List Datagram) (ls : List Label) :
    ∀ (past : List Label) (s : RState) (n n' : NetState), FullSim s n →
      l.run (l.init queued) past = some n → l.run n ls = some n' →
      (n'.phase = .stopped .receiverPanic → ∀ r, r < l.receivers.length → ¬ missed r n'.trace) →
      ∃ rls s', l.rrun s rls = some s' ∧ rls.filterMap visible = ls ∧ FullSim s' n' := by
  induction ls with
  | nil =>
    intro past s n n' hs _ h _
    simp only [Listener.run, Option.some.injEq] at h
    subst h
    exact ⟨[], s, rfl, rfl, hs⟩
  | cons x xs ih =>
    intro past s n n' hs hp h hmiss
    simp only [Listener.run] at h
    cases hx : l.step n x with
    | none => rw [hx] at h; cases h
    | some m =>
      rw [hx] at h
      obtain ⟨l1, s1, h1, h2, h3⟩ := full_step l s n m x hs hx (by
        intro k p a todo running pan hj hph
        subst hj
        cases htodo : todo with
        | nil => rfl
        | cons r rs =>
          exfalso
          have hinv := (inv_run l queued past n hp).phase
          simp only [PhaseInv, hph] at hinv
          obtain ⟨prev, i1, _, _, i4, _, i6, _, _⟩ := hinv
          have hr : r ∈ todo := by simp [htodo]
          simp only [Listener.step, hph] at hx
          split at hx
          · rename_i hc
            have hpan : pan = true := hc.2.resolve_left (by simp [htodo])
            simp only [hpan, if_true, Option.some.injEq] at hx
            subst hx
            obtain ⟨e1, e2⟩ := dead_run l xs _ n' (by simp [dead]) h
            refine hmiss e1 r (i4 r hr).1 ?_
            unfold missed
            rw [e2]
            simp only
            rw [i6 r (i4 r hr).1, i1]
            simp [hr]
          · cases hx)
      obtain ⟨l2, s2, h4, h5, h6⟩ := ih (past ++ [x]) s1 m n' h3
        ((run_snoc l _ _ _ _).mpr ⟨n, hp, hx⟩) h hmiss
      refine ⟨l1 ++ l2, s2, ?_, ?_, h6⟩
      · rw [rrun_append, h1]; exact h4
      · simp [h2, h5]

/-- C86. Conversely, the pool can do everything that `Listener.step` allows, panics included, except for
leaving receivers out: an execution in which nobody is left out in the end is one of the pool. -/
theorem C86_possible (l : Listener) (queued : List Datagram) (ls : List Label) (n : NetState)
    (h : l.run (l.init queued) ls = some n)
    (hmiss : n.phase = .stopped .receiverPanic → ∀ r, r < l.receivers.length → ¬ missed r n.trace) :
    ∃ rls s, l.rrun (l.rinit queued) rls = some s ∧ rls.filterMap visible = ls ∧ s.queue = n.queue ∧
      s.trace = n.trace ∧ samePlace s.phase n.phase := by
  obtain ⟨rls, s, h1, h2, h3⟩ := full_run l queued ls [] (l.rinit queued) _ n
    ⟨rfl, rfl, rfl, rfl, trivial⟩ rfl h hmiss
  refine ⟨rls, s, h1, h2, h3.queue, h3.trace, ?_⟩
  have hp := h3.phase
  cases hs : s.phase <;> cases hn : n.phase <;> simp only [hs, hn] at hp <;> simp only [samePlace]
  · exact hp
  · exact ⟨hp.1, hp.2.1, hp.2.2.1, hp.2.2.2.1⟩
  · exact hp

/-! ## The scope ends -/

/-- What a job has left to do, at most: to halve or begin, and two steps per receiver and one at the end for
every range that may come out of it. -/
def Task.work : Task → Nat
  | .pending lo hi => if lo < hi then 5 * (hi - lo) - 1 else 2
  | .between lo hi => 2 * (hi - lo) + 1
  | .inside r hi => 2 * (hi - (r + 1)) + 2

/-- Steps of the pool and of the scope (not of the socket). -/
def RLabel.pool : RLabel → Bool
  | .split _ _ => true
  | .begin _ _ => true
  | .call _ _ => true
  | .finish _ _ => true
  | .crash _ _ => true
  | .done _ => true
  | _ => false

/-- What the jobs have left to do. -/
def RState.work (s : RState) : Nat :=
  match s.phase with
  | .scope _ _ _ tasks _ => (tasks.map Task.work).sum
  | _ => 0

theorem sum_take {t : Task} {ts : List Task} (h : t ∈ ts) :
    (ts.map Task.work).sum = t.work + ((ts.erase t).map Task.work).sum := by
  have := ((List.perm_cons_erase h).map Task.work).sum_nat
  simpa using this

/-- Every step of the pool makes it less. -/
theorem pool_step (l : Listener) (s s' : RState) (x : RLabel) (hx : x.pool = true) (h : l.rstep s x = some s') :
    s'.work + 1 ≤ s.work ∧ s'.phase.outside = false := by
  cases x <;> simp only [RLabel.pool, Bool.false_eq_true] at hx
  all_goals
    simp only [Listener.rstep] at h
    split at h
    · rename_i k p a tasks pan h1
      split at h
      · rename_i h2
        simp only [Option.some.injEq] at h
        subst h
        first
        | have h3 := sum_take h2
          simp only [Task.work] at h3
          simp only [RState.work, h1, h3, List.map_cons, List.sum_cons, Task.work, RPhase.outside, and_true]
          repeat' split
          all_goals omega
        | have h3 := sum_take h2.1
          simp only [Task.work] at h3
          simp only [RState.work, h1, h3, List.map_cons, List.sum_cons, Task.work, RPhase.outside, and_true]
          have h4 := h2.2
          repeat' split
          all_goals omega
      · cases h
    · cases h

/-- The bounds of a job are in order. -/
def Task.wf : Task → Prop
  | .pending lo hi => lo ≤ hi
  | .between lo hi => lo ≤ hi
  | .inside r hi => r < hi

/-- Those of all jobs are. -/
def RState.wf (s : RState) : Prop :=
  match s.phase with
  | .scope _ _ _ tasks _ => ∀ t ∈ tasks, t.wf
  | _ => True

theorem wf_step (l : Listener) (s s' : RState) (x : RLabel) (hw : s.wf) (h : l.rstep s x = some s') : s'.wf := by
  cases x with
  | arrive d =>
    simp only [Listener.rstep, Option.some.injEq] at h
    subst h
    exact hw
  | recv =>
    simp only [Listener.rstep] at h
    split at h
    · split at h
      · cases h; trivial
      · simp only [Option.some.injEq] at h
        subst h
        simp [RState.wf, Task.wf]
    · cases h
  | pollEvent => simp only [Listener.rstep] at h; split at h <;> cases h; trivial
  | pollTimeout => simp only [Listener.rstep] at h; split at h <;> cases h; exact hw
  | pollSpurious => simp only [Listener.rstep] at h; split at h <;> cases h; trivial
  | pollError => simp only [Listener.rstep] at h; split at h <;> cases h; trivial
  | recvError => simp only [Listener.rstep] at h; split at h <;> cases h; trivial
  | join =>
    simp only [Listener.rstep] at h
    split at h
    · rename_i k p a pan _
      simp only [Option.some.injEq] at h
      subst h
      simp only [RState.wf, rafterEvent]
      cases pan with
      | true => simp
      | false => by_cases hk : k = 0 <;> simp [hk]
    · cases h
  | split lo hi =>
    simp only [Listener.rstep] at h
    split at h
    · rename_i h1
      split at h
      · rename_i h2
        simp only [Option.some.injEq] at h
        subst h
        simp only [RState.wf, h1] at hw
        simp only [RState.wf, List.mem_cons]
        rintro t (rfl | rfl | ht)
        · simp only [Task.wf]; omega
        · have := h2.2; simp only [Task.wf]; omega
        · exact hw t (List.mem_of_mem_erase ht)
      · cases h
    · cases h
  | begin lo hi =>
    simp only [Listener.rstep] at h
    split at h
    · rename_i h1
      split at h
      · rename_i h2
        simp only [Option.some.injEq] at h
        subst h
        simp only [RState.wf, h1] at hw
        simp only [RState.wf, List.mem_cons]
        rintro t (rfl | ht)
        · have h3 := hw _ h2; exact h3
        · exact hw t (List.mem_of_mem_erase ht)
      · cases h
    · cases h
  | call r hi =>
    simp only [Listener.rstep] at h
    split at h
    · rename_i h1
      split at h
      · rename_i h2
        simp only [Option.some.injEq] at h
        subst h
        simp only [RState.wf, h1] at hw
        simp only [RState.wf, List.mem_cons]
        rintro t (rfl | ht)
        · exact h2.2
        · exact hw t (List.mem_of_mem_erase ht)
      · cases h
    · cases h
  | finish r hi =>
    simp only [Listener.rstep] at h
    split at h
    · rename_i h1
      split at h
      · rename_i h2
        simp only [Option.some.injEq] at h
        subst h
        simp only [RState.wf, h1] at hw
        simp only [RState.wf, List.mem_cons]
        rintro t (rfl | ht)
        · have h3 := hw _ h2; exact h3
        · exact hw t (List.mem_of_mem_erase ht)
      · cases h
    · cases h
  | crash r hi =>
    simp only [Listener.rstep] at h
    split at h
    · rename_i h1
      split at h
      · simp only [Option.some.injEq] at h
        subst h
        simp only [RState.wf, h1] at hw
        exact fun t ht => hw t (List.mem_of_mem_erase ht)
      · cases h
    · cases h
  | done hi =>
    simp only [Listener.rstep] at h
    split at h
    · rename_i h1
      split at h
      · simp only [Option.some.injEq] at h
        subst h
        simp only [RState.wf, h1] at hw
        exact fun t ht => hw t (List.mem_of_mem_erase ht)
      · cases h
    · cases h

theorem wf_run (l : Listener) (ls : List RLabel) : ∀ (s s' : RState), s.wf → l.rrun s ls = some s' → s'.wf := by
  induction ls with
  | nil => intro s s' hw h; simp only [Listener.rrun, Option.some.injEq] at h; subst h; exact hw
  | cons x xs ih =>
    intro s s' hw h
    simp only [Listener.rrun] at h
    cases hx : l.rstep s x with
    | none => rw [hx] at h; cases h
    | some m => rw [hx] at h; exact ih m s' (wf_step l s m x hw hx) h

theorem pool_run (l : Listener) (ls : List RLabel) : ∀ (s s' : RState), (∀ x ∈ ls, x.pool = true) →
    l.rrun s ls = some s' → s'.work + ls.length ≤ s.work := by
  induction ls with
  | nil => intro s s' _ h; simp only [Listener.rrun, Option.some.injEq] at h; subst h; simp
  | cons x xs ih =>
    intro s s' hx h
    simp only [Listener.rrun] at h
    cases hm : l.rstep s x with
    | none => rw [hm] at h; cases h
    | some m =>
      rw [hm] at h
      obtain ⟨h1, h2⟩ := pool_step l s m x (hx x (by simp)) hm
      have := ih m s' (fun y hy => hx y (by simp [hy])) h
      simp only [List.length_cons]
      omega

/-- C86. Nothing gets stuck while a packet is handed over: either all jobs are done and the scope returns, or
the pool can make a step, and nobody has to panic for it. -/
theorem C86_progress (l : Listener) (queued : List Datagram) (ls : List RLabel) (s : RState)
    (h : l.rrun (l.rinit queued) ls = some s) (hs : s.phase.outside = false) :
    (l.rstep s .join).isSome = true ∨
      ∃ x, x.pool = true ∧ (∀ r hi, x ≠ .crash r hi) ∧ (l.rstep s x).isSome = true := by
  have hw := wf_run l ls _ s (by trivial) h
  cases hp : s.phase with
  | polling => rw [hp] at hs; simp [RPhase.outside] at hs
  | handling => rw [hp] at hs; simp [RPhase.outside] at hs
  | stopped => rw [hp] at hs; simp [RPhase.outside] at hs
  | scope k p a tasks pan =>
    cases tasks with
    | nil => exact .inl (by simp [Listener.rstep, hp])
    | cons t ts =>
      refine .inr ?_
      cases t with
      | pending lo hi => exact ⟨.begin lo hi, rfl, by simp, by simp [Listener.rstep, hp]⟩
      | inside r hi => exact ⟨.finish r hi, rfl, by simp, by simp [Listener.rstep, hp]⟩
      | between lo hi =>
        simp only [RState.wf, hp] at hw
        have : lo ≤ hi := hw (.between lo hi) (by simp)
        by_cases hlt : lo < hi
        · exact ⟨.call lo hi, rfl, by simp, by simp [Listener.rstep, hp, hlt]⟩
        · obtain rfl : lo = hi := by omega
          exact ⟨.done lo, rfl, by simp, by simp [Listener.rstep, hp]⟩

/-- C86. And it comes to an end: after a packet was taken, the pool makes at most `5 * n + 2` steps for `n`
receivers, however it chooses them, before the scope returns. -/
theorem C86_ends (l : Listener) (m s s' : RState) (ls : List RLabel) (hq : m.queue ≠ [])
    (h : l.rstep m .recv = some s) (hls : ∀ x ∈ ls, x.pool = true) (h' : l.rrun s ls = some s') :
    ls.length ≤ 5 * l.receivers.length + 2 := by
  have h1 := pool_run l ls s s' hls h'
  have h2 : s.work ≤ 5 * l.receivers.length + 2 := by
    simp only [Listener.rstep] at h
    split at h
    · split at h
      · rename_i h2; exact absurd h2 hq
      · simp only [Option.some.injEq] at h
        subst h
        simp only [RState.work, Task.work, List.map_cons, List.map_nil, List.sum_cons, List.sum_nil]
        split <;> omega
    · cases h
  omega

/-! ## Examples -/

/-- Three receivers, the first of which panics on everything. -/
def threeReceivers : Listener := ⟨[⟨fun _ _ => true, fun _ _ => []⟩, ⟨fun _ _ => false, fun _ _ => []⟩,
  ⟨fun _ _ => false, fun _ _ => []⟩], 16⟩

/-- With one job for all of them nobody else sees the packet; if the pool halves the range, `3 / 2 = 1`, only the
first is alone and the others do see it.  Which of the two happens depends on the load. -/
theorem C86_both (d : Datagram) :
    (∃ s, threeReceivers.rrun (threeReceivers.rinit [])
        [.arrive d, .pollEvent, .recv, .begin 0 3, .call 0 3, .crash 0 3, .join] = some s ∧
      s.phase = .stopped .receiverPanic ∧ missed 1 s.trace ∧ missed 2 s.trace) ∧
    (∃ s, threeReceivers.rrun (threeReceivers.rinit [])
        [.arrive d, .pollEvent, .recv, .split 0 3, .begin 0 1, .call 0 1, .crash 0 1, .begin 1 3, .call 1 3,
          .finish 1 3, .call 2 3, .finish 2 3, .done 3, .join] = some s ∧
      s.phase = .stopped .receiverPanic ∧ ¬ missed 1 s.trace ∧ ¬ missed 2 s.trace) := by
  refine ⟨⟨_, rfl, rfl, ?_, ?_⟩, ⟨_, rfl, rfl, ?_, ?_⟩⟩ <;> simp [missed, callsOf, takenIn, Listener.rinit]

/-! ## Cases for the theorems above -/

/-- Two receivers get a datagram: the range is halved and both halves are gone through at once. -/
def rayonRun : List RLabel :=
  [.split 0 2, .begin 0 1, .begin 1 2, .call 1 2, .call 0 1, .finish 0 1, .finish 1 2, .done 2, .done 1]

/-- `C86_ends`: of the twelve steps there could be, nine are taken. -/
example (m s s' : RState)
    (hm : exampleListener.rrun (exampleListener.rinit []) [.arrive exampleDatagram, .pollEvent] = some m)
    (h : exampleListener.rstep m .recv = some s) (h' : exampleListener.rrun s rayonRun = some s') :
    rayonRun.length ≤ 5 * 2 + 2 := by
  have hq : m.queue ≠ [] := by
    cases hm
    simp [Listener.rinit]
  exact C86_ends exampleListener m s s' rayonRun hq h (by decide) h'

/-- That execution exists. -/
example : ((exampleListener.rrun (exampleListener.rinit [])
    ([.arrive exampleDatagram, .pollEvent, .recv] ++ rayonRun ++ [.join])).map (·.phase)) = some .polling := by decide +kernel

/-- `C86_progress`: in the middle of it. -/
example (s : RState) (h : exampleListener.rrun (exampleListener.rinit [])
    ([.arrive exampleDatagram, .pollEvent, .recv] ++ rayonRun.take 5) = some s) :
    (exampleListener.rstep s .join).isSome = true ∨
      ∃ x, x.pool = true ∧ (∀ r hi, x ≠ .crash r hi) ∧ (exampleListener.rstep s x).isSome = true := by
  have hs : s.phase.outside = false := by
    cases h
    decide +kernel
  exact C86_progress exampleListener [] _ s h hs

/-- `C86_possible`: an execution of the simpler description. -/
example (n : NetState) (h : exampleListener.run (exampleListener.init []) exampleRun = some n) :
    ∃ rls s, exampleListener.rrun (exampleListener.rinit []) rls = some s ∧ rls.filterMap visible = exampleRun ∧
      s.trace = n.trace := by
  have hn : n.phase = .polling := by
    cases h
    rfl
  obtain ⟨rls, s, h1, h2, -, h3, -⟩ := C86_possible exampleListener [] exampleRun n h (by simp [hn])
  exact ⟨rls, s, h1, h2, h3⟩

/-- Two receivers, of which the first panics, on one branch: the second is not called. -/
def panicListener : Listener := ⟨[⟨fun _ _ => true, fun _ _ => []⟩, ⟨fun _ _ => false, fun _ _ => []⟩], 16⟩

def panicRun : List RLabel := [.arrive ⟨[1], .v4 1 1 1 1 1⟩, .pollEvent, .recv, .begin 0 2, .call 0 2, .crash 0 2, .join]

/-- `C86`, `C86_earlier`, `C86_first` -/
example (s : RState) (h : panicListener.rrun (panicListener.rinit []) panicRun = some s) :=
  C86 panicListener [] panicRun s h (by cases h; rfl) 1 (by decide) (by cases h; unfold missed; decide +kernel)
example (s : RState) (h : panicListener.rrun (panicListener.rinit []) panicRun = some s) :=
  C86_earlier panicListener [] panicRun s h (by cases h; rfl) 1 (by decide) (by cases h; unfold missed; decide +kernel)
example (s : RState) (h : panicListener.rrun (panicListener.rinit []) panicRun = some s) :=
  C86_first panicListener [] panicRun s h (by cases h; rfl) 0 (by decide) (by simp)
example : (panicListener.rrun (panicListener.rinit []) panicRun).isSome = true := by decide +kernel

end Ipv8
