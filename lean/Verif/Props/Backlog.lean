import Verif.Props.Network
/-!
# C47 continued: datagrams left behind

Between arrivals the thread sleeps in `poll`, and one notification takes one datagram out of the socket.
So what was left behind once is never caught up with.
-/

namespace Ipv8
open Spec

/-- The thread waits in `poll` and no readiness event is pending. -/
def Waiting (s : NetState) : Prop := s.phase = .polling ∧ s.ready = false

theorem backlog_step (l : Listener) (s s' : NetState) (x : Label) (hx : l.step s x = some s')
    (hns : x ≠ .pollSpurious) : s.queue.length + credit s' ≤ s'.queue.length + credit s := by
  cases x with
  | pollSpurious => exact absurd rfl hns
  | arrive d =>
    simp only [Listener.step, Option.some.injEq] at hx
    subst hx
    simp only [credit, List.length_append, List.length_cons, List.length_nil, if_true]
    omega
  | pollEvent =>
    simp only [Listener.step] at hx
    split at hx
    · rename_i hph hr
      cases hx
      simp [credit, hph, hr]
    · simp at hx
  | pollTimeout =>
    simp only [Listener.step] at hx
    split at hx
    · cases hx; exact Nat.le_refl _
    · simp at hx
  | pollError =>
    simp only [Listener.step] at hx
    split at hx
    · rename_i hph; cases hx; simp [credit, hph]
    · simp at hx
  | recvError =>
    simp only [Listener.step] at hx
    split at hx
    · rename_i hph; cases hx; simp only [credit, hph]; omega
    · simp at hx
  | recv =>
    simp only [Listener.step] at hx
    split at hx
    · rename_i k hph
      split at hx
      · cases hx; simp only [credit, hph]; omega
      · rename_i d q hqq
        simp only [Option.some.injEq] at hx
        subst hx
        simp only [credit, hph, hqq, List.length_cons]
        omega
    · simp at hx
  | start r =>
    simp only [Listener.step] at hx
    split at hx
    · rename_i hph
      split at hx
      · cases hx; simp [credit, hph]
      · simp at hx
    · simp at hx
  | finish r =>
    simp only [Listener.step] at hx
    split at hx
    · rename_i hph
      split at hx
      · cases hx; simp [credit, hph]
      · simp at hx
    · simp at hx
  | crash r =>
    simp only [Listener.step] at hx
    split at hx
    · rename_i hph
      split at hx
      · cases hx; simp [credit, hph]
      · simp at hx
    · simp at hx
  | join =>
    simp only [Listener.step] at hx
    split at hx
    · rename_i k p a todo running panicked hph
      split at hx
      · cases hx
        cases panicked with
        | true => simp only [credit, hph, if_true]; omega
        | false =>
          simp only [credit, hph, afterEvent]
          by_cases hk : k = 0 <;> simp [hk]
      · simp at hx
    · simp at hx

theorem backlog_run (l : Listener) (s s' : NetState) (ls : List Label) (h : l.run s ls = some s')
    (hns : .pollSpurious ∉ ls) : s.queue.length + credit s' ≤ s'.queue.length + credit s := by
  induction ls generalizing s with
  | nil => simp only [Listener.run, Option.some.injEq] at h; subst h; omega
  | cons x ls ih =>
    simp only [Listener.run] at h
    cases hx : l.step s x with
    | none => simp [hx] at h
    | some m =>
      simp only [hx] at h
      simp only [List.mem_cons, not_or] at hns
      have h1 := backlog_step l s m x hx (fun e => hns.1 e.symm)
      have h2 := ih m h hns.2
      omega

/-- C47, how bad it is: when the thread waits with `k` datagrams left in the socket, at least `k`
datagrams are in the socket at every later moment, whatever arrives and however the thread is scheduled
(unless `poll` reports a notification that no datagram caused). -/
theorem C47_never_catches_up (l : Listener) (s s' : NetState) (hw : Waiting s) (more : List Label)
    (h : l.run s more = some s') (hns : .pollSpurious ∉ more) : s.queue.length ≤ s'.queue.length := by
  have := backlog_run l s s' more h hns
  have hc : credit s = 0 := by simp [credit, hw.1, hw.2]
  omega

/-- C47, the delay: from the moment the thread waits, `n` arrivals lead to at most `n` more datagrams
being taken, and the ones that were left behind come first (C43).  So with `k` left behind, a datagram
that arrives is taken at the earliest when `k` more have arrived. -/
theorem C47_lag (l : Listener) (queued : List Datagram) (ls : List Label) (s s' : NetState)
    (h : l.run (l.init queued) ls = some s) (hw : Waiting s) (more : List Label)
    (h' : l.run s more = some s') (hns : .pollSpurious ∉ more) :
    (takenIn s'.trace).length ≤ (takenIn s.trace).length + (arrivals more).length := by
  obtain ⟨handled, h1, h2, _⟩ := C43 l queued ls s h
  have hrun : l.run (l.init queued) (ls ++ more) = some s' := by rw [run_append, h]; exact h'
  obtain ⟨handled', g1, g2, _⟩ := C43 l queued _ s' hrun
  have hq := C47_never_catches_up l s s' hw more h' hns
  have e1 := congrArg List.length h1
  have e2 := congrArg List.length g1
  rw [arrivals_append] at e2
  simp only [List.length_append] at e1 e2
  rw [h2, g2, List.length_map, List.length_map]
  omega

/-- Thread and pool always get to the point where nothing is left to do. -/
theorem settles (l : Listener) (hl : NoPanics l) (s : NetState) (h : Healthy s) :
    ∃ (more : List Label) (s' : NetState), (∀ x ∈ more, internal x = true) ∧ l.run s more = some s' ∧
      ∀ x, internal x = true → l.step s' x = none := by
  induction hn : work l s using Nat.strongRecOn generalizing s with
  | ind n ih =>
    subst hn
    by_cases hstuck : ∀ x, internal x = true → l.step s x = none
    · exact ⟨[], s, by simp, rfl, hstuck⟩
    · simp only [Classical.not_forall] at hstuck
      obtain ⟨x, hxi, hx⟩ := hstuck
      cases hs : l.step s x with
      | none => exact absurd hs hx
      | some m =>
        have hw := (internal_step l s m x h hs hxi).1
        obtain ⟨more, s', h1, h2, h3⟩ := ih (work l m) (by omega) m
          (healthy_step l hl s m x h hs (.inl hxi)) rfl
        refine ⟨x :: more, s', ?_, ?_, h3⟩
        · intro y hy
          rcases List.mem_cons.mp hy with rfl | hy
          · exact hxi
          · exact h1 y hy
        · simp only [Listener.run, hs]; exact h2

theorem run_arrivals (l : Listener) (ds : List Datagram) (s : NetState) :
    l.run s (ds.map .arrive) =
      some { s with queue := s.queue ++ ds, ready := s.ready || !ds.isEmpty } := by
  induction ds generalizing s with
  | nil => simp [Listener.run]
  | cons d ds ih =>
    simp only [List.map_cons, Listener.run, Listener.step]
    rw [ih]
    simp

theorem waiting_stays (l : Listener) (more : List Label) (s s' : NetState)
    (hp : s.phase = .polling ∨ s.phase = .stopped .pollError) (hr : s.ready = false)
    (hrun : l.run s more = some s') (hx : ∀ x ∈ more, x ≠ .pollSpurious ∧ ∀ d, x ≠ .arrive d) :
    s'.queue = s.queue ∧ s'.trace = s.trace := by
  induction more generalizing s with
  | nil =>
    simp only [Listener.run, Option.some.injEq] at hrun
    subst hrun
    exact ⟨rfl, rfl⟩
  | cons x more ih =>
    simp only [Listener.run] at hrun
    cases hst : l.step s x with
    | none => simp [hst] at hrun
    | some m =>
      simp only [hst] at hrun
      have hm : m.queue = s.queue ∧ m.ready = false ∧
          (m.phase = .polling ∨ m.phase = .stopped .pollError) ∧ m.trace = s.trace := by
        rcases hp with hp | hp <;> cases x <;>
          simp [Listener.step, hp, hr] at hst <;>
          first
            | (subst hst; simp [hr, hp]; done)
            | exact absurd rfl (hx _ List.mem_cons_self).1
            | exact absurd rfl ((hx _ List.mem_cons_self).2 _)
      obtain ⟨g1, g2⟩ := ih m hm.2.2.1 hm.2.1 hrun (fun y hy => hx y (by simp [hy]))
      exact ⟨by rw [g1, hm.1], by rw [g2, hm.2.2.2]⟩

/-- C47 is false for every listener and every burst: if several datagrams arrive before the thread
polls, then however thread and pool are scheduled they come to rest with only the first one delivered;
such executions exist; and the others stay in the socket through every continuation without arrivals and
unfounded notifications. -/
theorem C47_false_burst (l : Listener) (hl : NoPanics l) (d : Datagram) (ds : List Datagram) :
    (∃ (more : List Label) (s : NetState), (∀ x ∈ more, internal x = true) ∧
      l.run (l.init []) ((d :: ds).map .arrive ++ more) = some s ∧
      (∀ x, internal x = true → l.step s x = none)) ∧
    (∀ (more : List Label) (s : NetState), (∀ x ∈ more, internal x = true) →
      l.run (l.init []) ((d :: ds).map .arrive ++ more) = some s →
      (∀ x, internal x = true → l.step s x = none) →
      (∀ r, r < l.receivers.length → callsOf r s.trace = [received l.buffersize d]) ∧
      ∀ (rest : List Label) (s' : NetState), l.run s rest = some s' →
        (∀ x ∈ rest, x ≠ .pollSpurious ∧ ∀ d, x ≠ .arrive d) →
        s'.queue = ds ∧ s'.trace = s.trace) := by
  let m : NetState := { l.init [] with queue := d :: ds, ready := true }
  have hm : l.run (l.init []) ((d :: ds).map .arrive) = some m := by
    rw [run_arrivals]; rfl
  have hsm : Smooth ((d :: ds).map .arrive) := by
    intro x hx
    obtain ⟨y, _, rfl⟩ := List.mem_map.mp hx
    exact .inr (.inr ⟨y, rfl⟩)
  have hh : Healthy m := healthy_run l hl _ m _ (healthy_init l []) hm hsm
  constructor
  · obtain ⟨more, s, h1, h2, h3⟩ := settles l hl m hh
    exact ⟨more, s, h1, by rw [run_append, hm]; exact h2, h3⟩
  · intro more s hi hrun hstuck
    rw [run_append, hm] at hrun
    obtain ⟨_, hfin⟩ := C47_exact_partial l hl [] _ m hm hsm more s hi hrun
    obtain ⟨hq, ht, hc⟩ := hfin hstuck
    have hpr : promised m = 1 := rfl
    rw [hpr] at hq ht
    have htk : takenIn s.trace = [received l.buffersize d] := by
      rw [ht]; rfl
    refine ⟨fun r hr => by rw [hc r hr, htk], ?_⟩
    intro rest s' hrest hx
    have hhs := healthy_run l hl m s more hh hrun (fun x hx => .inl (hi x hx))
    rcases C47_progress l s hhs with ⟨hp, hr⟩ | ⟨x, s'', hxi, hx'⟩
    · obtain ⟨g1, g2⟩ := waiting_stays l rest s s' (.inl hp) hr hrest hx
      exact ⟨by rw [g1, hq]; rfl, g2⟩
    · rw [hstuck x hxi] at hx'; simp at hx'

/-- C47, datagrams that are already waiting when the thread starts: it is notified once, so exactly the
first of them is delivered, however thread and pool are scheduled, and the others stay in the socket until
something new arrives. -/
theorem C47_start (l : Listener) (hl : NoPanics l) (d : Datagram) (ds : List Datagram) :
    (∃ (more : List Label) (s : NetState), (∀ x ∈ more, internal x = true) ∧
      l.run (l.init (d :: ds)) more = some s ∧ (∀ x, internal x = true → l.step s x = none)) ∧
    (∀ (more : List Label) (s : NetState), (∀ x ∈ more, internal x = true) →
      l.run (l.init (d :: ds)) more = some s → (∀ x, internal x = true → l.step s x = none) →
      (∀ r, r < l.receivers.length → callsOf r s.trace = [received l.buffersize d]) ∧
      ∀ (rest : List Label) (s' : NetState), l.run s rest = some s' →
        (∀ x ∈ rest, x ≠ .pollSpurious ∧ ∀ d, x ≠ .arrive d) →
        s'.queue = ds ∧ s'.trace = s.trace) := by
  obtain ⟨h1, h2⟩ := C47_false_burst l hl d ds
  have hm : l.run (l.init []) ((d :: ds).map .arrive) = some (l.init (d :: ds)) := by
    rw [run_arrivals]; rfl
  have e : ∀ more, l.run (l.init []) ((d :: ds).map .arrive ++ more) = l.run (l.init (d :: ds)) more := by
    intro more; rw [run_append, hm]; rfl
  simp only [e] at h1 h2
  exact ⟨h1, h2⟩

/-- C47, one event, one receive: every readiness event `poll` reports, backed by a datagram or not, leads to exactly
one `recv_from`, before the next `poll`.  (The one that is under way, if any, is the difference.) -/
theorem C47_one_each (l : Listener) (queued : List Datagram) (ls : List Label) (s : NetState)
    (h : l.run (l.init queued) ls = some s) :
    ls.countP (fun x => x == .pollEvent || x == .pollSpurious) =
      ls.countP (fun x => x == .recv || x == .recvError) + (match s.phase with | .handling _ => 1 | _ => 0) ∧
    (takenIn s.trace).length ≤ ls.countP (· == .recv) := by
  refine (run_induction l (l.init queued) (fun ls s =>
    (ls.countP (fun x => x == .pollEvent || x == .pollSpurious) =
      ls.countP (fun x => x == .recv || x == .recvError) + (match s.phase with | .handling _ => 1 | _ => 0) ∧
    (takenIn s.trace).length ≤ ls.countP (· == .recv)) ∧
    (match s.phase with | .handling k => k = 1 | .dispatch k .. => k = 0 | _ => True)) ?_ ?_ ls s h).1
  · simp [Listener.init, takenIn]
  · intro ls s x s' _ ih hx
    simp only [List.countP_append]
    generalize List.countP (fun x => x == Label.pollEvent || x == Label.pollSpurious) ls = A at ih ⊢
    generalize List.countP (fun x => x == Label.recv || x == Label.recvError) ls = C at ih ⊢
    generalize List.countP (fun x => x == Label.recv) ls = D at ih ⊢
    cases x <;> simp only [Listener.step] at hx <;> (repeat' split at hx) <;>
      (try simp only [Option.some.injEq, reduceCtorEq] at hx) <;> (try subst hx) <;>
      (try simp_all [takenIn, afterEvent]) <;> (try split) <;> (try simp_all) <;> (try omega)

/-- The hypotheses can be met: a burst of two, after which the example listener waits with one datagram
left. -/
example : ∃ s, exampleListener.run (exampleListener.init [])
    [.arrive exampleDatagram, .arrive exampleDatagram, .pollEvent, .recv, .start 1, .start 0, .finish 0,
      .finish 1, .join] = some s ∧ Waiting s ∧ s.queue.length = 1 := ⟨_, rfl, ⟨rfl, rfl⟩, rfl⟩

/-! ## Cases for the theorems above -/

/-- `C47_start`: three datagrams were queued before the thread started; one is read. -/
example : ∃ s, exampleListener.run (exampleListener.init [exampleDatagram, ⟨[6], .v4 1 1 1 1 1⟩, ⟨[7], .v4 1 1 1 1 1⟩])
    [.pollEvent, .recv, .start 1, .start 0, .finish 0, .finish 1, .join] = some s ∧
    (∀ r, r < 2 → callsOf r s.trace = [(⟨[1, 2, 3, 4]⟩, ⟨.v4 1 2 3 4 5⟩)]) ∧ s.queue.length = 2 :=
  ⟨_, rfl, ((C47_start exampleListener (by simp [NoPanics, exampleListener]) exampleDatagram _).2
    [.pollEvent, .recv, .start 1, .start 0, .finish 0, .finish 1, .join] _
    (by simp [internal]) rfl (by
      intro x hx
      cases x <;> simp [internal] at hx <;> simp [Listener.step, afterEvent])).1, rfl⟩

/-- `C47_lag`, `C47_never_catches_up`: the burst above, and one more datagram. -/
example := C47_lag exampleListener []
  [.arrive exampleDatagram, .arrive exampleDatagram, .pollEvent, .recv, .start 1, .start 0, .finish 0, .finish 1, .join] _ _ rfl
  ⟨rfl, rfl⟩ [.arrive exampleDatagram, .pollEvent, .recv] rfl (by simp)
example (s : NetState) (h : exampleListener.run (exampleListener.init []) [.arrive exampleDatagram, .arrive exampleDatagram,
    .pollEvent, .recv, .start 1, .start 0, .finish 0, .finish 1, .join] = some s) (s' : NetState) (h' : exampleListener.run s [.arrive exampleDatagram, .pollEvent, .recv] = some s') :=
  C47_never_catches_up exampleListener s s' (by cases h; exact ⟨rfl, rfl⟩) [.arrive exampleDatagram, .pollEvent, .recv] h' (by simp)

/-- `C47_one_each` and `C47_false_burst`: the execution of `exampleRun`, and two datagrams at once. -/
example (s : NetState) (h : exampleListener.run (exampleListener.init []) exampleRun = some s) :=
  C47_one_each exampleListener [] _ s h
example := C47_false_burst ⟨[], 16⟩ (by simp [NoPanics]) ⟨[1], .v4 1 2 3 4 5⟩ [⟨[2], .v4 1 2 3 4 5⟩]

end Ipv8
